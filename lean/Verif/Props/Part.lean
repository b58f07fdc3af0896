import Verif.Props.Replace
import Verif.Props.Wrap
import Verif.Spec.Part
/-! # Renaming what follows the `::` in the title of a tree (C135) -/

namespace Bulloak
open Spec

section
variable [U : Ucd] [LawfulUcd]

omit U [LawfulUcd] in
/-- Functions that coincide in the same places are left out in the same places. -/
private theorem firstOnly_pattern {R : HFn → HFn → Prop} (hR : ∀ f f' g g', R f f' → R g g' → (f.identifier = g.identifier ↔ f'.identifier = g'.identifier)) {l l' : List HFn}
    (h : Each R l l') : Each R (firstOnly l) (firstOnly l') := by
  have key : ∀ {x x' : HFn}, R x x' → ∀ {l l' : List HFn}, Each R l l' →
      Each R (l.filter (fun g => g.identifier ≠ x.identifier)) (l'.filter (fun g => g.identifier ≠ x'.identifier)) := by
    intro x x' hx l l' h
    induction h with
    | nil => exact .nil
    | @cons a b _ _ r _ ih =>
      rw [List.filter_cons, List.filter_cons]
      have e := hR _ _ _ _ r hx
      by_cases hn : a.identifier = x.identifier
      · rw [if_neg (by simp [hn]), if_neg (by simp [e.1 hn])]; exact ih
      · have hn' : b.identifier ≠ x'.identifier := fun h' => hn (e.2 h')
        rw [if_pos (by simp [hn]), if_pos (by simp [hn'])]; exact .cons r ih
  induction h with
  | nil => exact .nil
  | cons r _ ih => exact .cons r (key r ih)

/-- The origin of a function and what becomes of it. -/
private def Was (order : HashOrder) (skip : Bool) (n b b' : Str) (bs : List Str) (p p' : Str) (f f' : HFn) : Prop :=
  KindByName f ∧ KindByName f' ∧
    ((TestOf order skip n b f ∧ TestOf order skip n b' f' ∧ NamedAnew p p' f f') ∨ (f.ty = .modifier ∧ SameCode f f') ∨ (f' = f ∧ ∃ c ∈ bs, TestOf order skip n c f))

variable {order : HashOrder} {skip : Bool} {n b b' p p' : Str} {bs : List Str}

omit [LawfulUcd] in
private theorem was_pattern (h : Apart order skip n b bs) (h' : Apart order skip n b' bs) {f f' g g' : HFn} (hf : Was order skip n b b' bs p p' f f')
    (hg : Was order skip n b b' bs p p' g g') : f.identifier = g.identifier ↔ f'.identifier = g'.identifier := by
  obtain ⟨k1, k2, hf⟩ := hf
  obtain ⟨k3, k4, hg⟩ := hg
  have kind : ∀ {x y : HFn}, KindByName x → KindByName y → x.ty ≠ y.ty → x.identifier ≠ y.identifier := fun hx hy hne e => hne (kindByName_ty hx hy e)
  have id : ∀ {x y : HFn}, SameCode x y → y.identifier = x.identifier ∧ y.ty = x.ty := fun e => ⟨congrArg (fun c => c.2.1) e, congrArg (fun c => c.1) e⟩
  rcases hf with ⟨t1, t1', r1⟩ | ⟨m1, s1⟩ | ⟨rfl, c1⟩ <;> rcases hg with ⟨t2, t2', r2⟩ | ⟨m2, s2⟩ | ⟨rfl, c2⟩
  · obtain ⟨x, e1, e2⟩ := r1.names
    obtain ⟨y, e3, e4⟩ := r2.names
    rw [e1, e2, e3, e4, List.append_cancel_left_eq, List.append_cancel_left_eq]
  · exact iff_of_false (kind k1 k3 (by rw [t1.1, m2]; simp)) (kind k2 k4 (by rw [t1'.1, (id s2).2, m2]; simp))
  · exact iff_of_false (fun e => h _ _ t1 c2 e.symm) (fun e => h' _ _ t1' c2 e.symm)
  · exact iff_of_false (kind k1 k3 (by rw [t2.1, m1]; simp)) (kind k2 k4 (by rw [t2'.1, (id s1).2, m1]; simp))
  · rw [(id s1).1, (id s2).1]
  · rw [(id s1).1]
  · exact iff_of_false (h _ _ t2 c1) (h' _ _ t2' c1)
  · rw [(id s2).1]
  · rfl

omit U [LawfulUcd] in
private theorem each_self {α : Type} {R : α → α → Prop} : ∀ {l : List α}, (∀ a ∈ l, R a a) → Each R l l
  | [], _ => .nil
  | _ :: _, h => .cons (h _ (by simp)) (each_self fun a ha => h a (by simp [ha]))

omit [LawfulUcd] in
private theorem each_with {α β : Type} {R : α → β → Prop} {l : List α} {m : List β} (h : Each R l m) : Each (fun a b => a ∈ l ∧ b ∈ m ∧ R a b) l m := by
  induction h with
  | nil => exact .nil
  | cons r _ ih => exact .cons ⟨by simp, by simp, r⟩ (each_imp (fun _ _ h => ⟨by simp [h.1], by simp [h.2.1], h.2.2⟩) ih)

omit U [LawfulUcd] in
private theorem each_mapped {α β : Type} {R : β → β → Prop} {S : α → α → Prop} {f g : α → β} (hf : ∀ a b, S a b → R (f a) (g b)) {l m : List α} (h : Each S l m) :
    Each R (l.map f) (m.map g) := by
  induction h with
  | nil => exact .nil
  | cons r _ ih => exact .cons (hf _ _ r) ih

private theorem part_was {A C : List Str} {text text' : Str} (hb : Trees text (A ++ b :: C)) (hb' : Trees text' (A ++ b' :: C)) (hk : A ++ C ≠ []) {a a' : Ast}
    (ha : parseOne order b = .ok a) (ha' : parseOne order b' = .ok a') (hr : PartRenamed n p p' a a') {cfg : Config} {fns : List HFn} (ht : translate order cfg text = .ok ⟨[⟨n, fns⟩]⟩)
    (h1 : Apart order cfg.emitVmSkip n b (A ++ C)) (h2 : Apart order cfg.emitVmSkip n b' (A ++ C)) :
    ∃ fns', translate order cfg text' = .ok ⟨[⟨n, fns'⟩]⟩ ∧ (fns'.map HFn.identifier).Nodup ∧ Each (Was order cfg.emitVmSkip n b b' (A ++ C) p p') fns fns' := by
  have hlen : 2 ≤ (A ++ b :: C).length := by
    rw [List.length_append, List.length_cons]
    have : (A ++ C).length ≠ 0 := fun e => hk (List.length_eq_zero_iff.1 e)
    rw [List.length_append] at this
    omega
  obtain ⟨asts, h, he⟩ := translated_asts hb ht
  obtain ⟨x, y, rfl, hx, hy⟩ := each_split_left he
  cases hy with
  | @cons _ a0 _ z r hz =>
    cases ha.symm.trans r
    have hl := each_len he
    obtain ⟨hn, fs, hs, rfl⟩ := (several_iff h (by omega)).1 ht
    obtain ⟨fx, fy, rfl, hsx, hsy⟩ := splits_split hs
    cases hsy with
    | @cons _ q _ fz r1 hsz =>
      obtain ⟨_, rfl⟩ := splits_unique hr.old r1
      have h' := (C13_parse_ok order text' (x ++ a' :: z)).2 (split_trees hb' ▸ each_append' hx (.cons ha' hz))
      have hl' : 2 ≤ (x ++ a' :: z).length := by simp only [List.length_append, List.length_cons] at hl hlen ⊢; omega
      have hs' : Each (fun a f => Splits (titleOf a) n f) (x ++ a' :: z) (fx ++ p' :: fz) := each_append' hsx (.cons hr.new hsz)
      refine ⟨_, (several_iff h' hl').2 ⟨hn, _, hs', rfl⟩, firstOnly_nodup _, ?_⟩
      have acc := fun (t : Ast × Str) (hp : t ∈ (x ++ a :: z).zip (fx ++ p :: fz)) => parse_accepted h _ (zip_mem hs hp).1
      have acc' := fun (t : Ast × Str) (hp : t ∈ (x ++ a' :: z).zip (fx ++ p' :: fz)) => parse_accepted h' _ (zip_mem hs' hp).1
      have e : ∀ (a : Ast) (p : Str), (x ++ a :: z).zip (fx ++ p :: fz) = x.zip fx ++ (a, p) :: z.zip fz := by
        intro a p
        rw [List.zip_append (each_len hsx), List.zip_cons_cons]
      rw [e] at acc acc' ⊢
      rw [e]
      have split : ∀ t : Ast × Str, prefixedFns cfg.emitVmSkip (x.zip fx ++ t :: z.zip fz) =
          prefixedFns cfg.emitVmSkip (x.zip fx) ++ ((expected cfg.emitVmSkip (kids t.1)).map (prefixFn t.2) ++ prefixedFns cfg.emitVmSkip (z.zip fz)) := by
        intro t
        simp only [prefixedFns, List.flatMap_append, List.flatMap_cons]
      have other : ∀ {B : List Str} {w : List Ast} {fw : List Str}, (∀ c ∈ B, c ∈ A ++ C) → Each (fun b a => parseOne order b = .ok a) B w → Each (fun a f => Splits (titleOf a) n f) w fw →
          (∀ t ∈ w.zip fw, Accepted order t.1) →
          Each (Was order cfg.emitVmSkip n b b' (A ++ C) p p') (prefixedFns cfg.emitVmSkip (w.zip fw)) (prefixedFns cfg.emitVmSkip (w.zip fw)) := by
        intro B w fw hB hw hsw hacc
        refine each_self fun f hf => ?_
        have hkind := prefixed_kind hacc hf
        refine ⟨hkind, hkind, .inr ?_⟩
        cases hty : f.ty with
        | modifier => exact .inl ⟨rfl, rfl⟩
        | function =>
          obtain ⟨t, ht, hf⟩ := List.mem_flatMap.1 hf
          have hz := zip_mem hsw ht
          obtain ⟨c, hc, hpc⟩ := each_mem_right hw hz.1
          exact .inr ⟨rfl, c, hB c hc, hty, t.1, t.2, hpc, hz.2.2, List.mem_flatMap.2 ⟨t, List.mem_singleton_self t, hf⟩⟩
      rw [split, split]
      refine firstOnly_pattern (fun f f' g g' => was_pattern h1 h2) (each_append' (other (fun c hc => by simp [hc]) hx hsx fun t ht => acc t (by simp [ht]))
        (each_append' ?_ (other (fun c hc => by simp [hc]) hz hsz fun t ht => acc t (by simp [ht]))))
      refine each_mapped ?_ (each_with (expected_code (skip := cfg.emitVmSkip) hr.branches))
      rintro f f' ⟨m1, m2, hc⟩
      have o1 : prefixFn p f ∈ prefixedFns cfg.emitVmSkip [(a, p)] := List.mem_flatMap.2 ⟨_, List.mem_singleton_self _, List.mem_map_of_mem m1⟩
      have o2 : prefixFn p' f' ∈ prefixedFns cfg.emitVmSkip [(a', p')] := List.mem_flatMap.2 ⟨_, List.mem_singleton_self _, List.mem_map_of_mem m2⟩
      refine ⟨prefixed_kind (fun t ht => acc t (by rw [List.mem_singleton.1 ht]; simp)) o1, prefixed_kind (fun t ht => acc' t (by rw [List.mem_singleton.1 ht]; simp)) o2, ?_⟩
      simp only [SameCode, codeOf, Prod.mk.injEq] at hc
      obtain ⟨c1, c2, c3, c4⟩ := hc
      cases hty : f.ty with
      | modifier =>
        refine .inr (.inl ⟨by simp [prefixFn, hty], ?_⟩)
        simp only [SameCode, codeOf, prefixFn, hty, c1.trans hty, c2, c3, c4]
      | function =>
        have hty' := c1.trans hty
        refine .inl ⟨⟨by simp [prefixFn, hty], a, p, ha, hr.old, o1⟩, ⟨by simp [prefixFn, hty'], a', p', ha', hr.new, o2⟩, by simp [prefixFn, hty], ⟨dropTests f.identifier, ?_, ?_⟩, ?_⟩
        · simp [prefixFn, hty]
        · simp [prefixFn, hty', c2]
        · simp only [SameCode, codeOf, prefixFn, hty, hty', c3, c4]

/-- **C135.** A file with several trees; in the title of one of them, what follows the `::` is changed.  The file is still accepted, and has the same functions in the same order,
except that the tests of this tree have the new name in place of the old one (if no test of another tree has the same name, before and after). -/
theorem C135_functions {A C : List Str} {text text' : Str} (hb : Trees text (A ++ b :: C)) (hb' : Trees text' (A ++ b' :: C)) (hk : A ++ C ≠ []) {a a' : Ast}
    (ha : parseOne order b = .ok a) (ha' : parseOne order b' = .ok a') (hr : PartRenamed n p p' a a') {cfg : Config} {fns : List HFn} (ht : translate order cfg text = .ok ⟨[⟨n, fns⟩]⟩)
    (h1 : Apart order cfg.emitVmSkip n b (A ++ C)) (h2 : Apart order cfg.emitVmSkip n b' (A ++ C)) :
    ∃ fns', translate order cfg text' = .ok ⟨[⟨n, fns'⟩]⟩ ∧
      Each (fun f f' => (TestOf order cfg.emitVmSkip n b f ∧ TestOf order cfg.emitVmSkip n b' f' ∧ NamedAnew p p' f f') ∨
        (¬ TestOf order cfg.emitVmSkip n b f ∧ ¬ TestOf order cfg.emitVmSkip n b' f' ∧ SameCode f f')) fns fns' := by
  obtain ⟨fns', h3, _, h4⟩ := part_was hb hb' hk ha ha' hr ht h1 h2
  refine ⟨fns', h3, each_imp ?_ h4⟩
  rintro f f' ⟨_, _, ⟨t1, t2, r⟩ | ⟨m, s⟩ | ⟨rfl, c⟩⟩
  · exact .inl ⟨t1, t2, r⟩
  · have s1 : f'.ty = f.ty := congrArg (fun c => c.1) s
    exact .inr ⟨(fun t => by rw [t.1] at m; cases m), (fun t => by rw [t.1, m] at s1; cases s1), s⟩
  · exact .inr ⟨(fun t => h1 _ _ t c rfl), (fun t => h2 _ _ t c rfl), rfl⟩

/-- The functions that keep their names. -/
private theorem part_kept (h1 : Apart order skip n b bs) (h2 : Apart order skip n b' bs) {fns fns' : List HFn} (hnd : (fns'.map HFn.identifier).Nodup)
    (h : Each (Was order skip n b b' bs p p') fns fns') :
    ∃ mid : List HFn, (mid.map nameOf).Sublist (fns.map nameOf) ∧ (mid.map nameOf).Sublist (fns'.map nameOf) ∧
      ∀ f ∈ fns', nameOf f ∉ mid.map nameOf ↔ TestOf order skip n b' f := by
  have key : ∀ {l l' : List HFn}, Each (Was order skip n b b' bs p p') l l' → ∃ mid : List HFn, (mid.map nameOf).Sublist (l.map nameOf) ∧ mid.Sublist l' ∧
      (∀ f ∈ mid, ¬ TestOf order skip n b' f) ∧ ∀ f ∈ l', f ∉ mid → TestOf order skip n b' f := by
    intro l l' h
    induction h with
    | nil => exact ⟨[], .slnil, .slnil, by simp, by simp⟩
    | @cons f f' l l' r _ ih =>
      obtain ⟨mid, i1, i2, i3, i4⟩ := ih
      have keep : ¬ TestOf order skip n b' f' → nameOf f' = nameOf f → ∃ mid : List HFn, (mid.map nameOf).Sublist ((f :: l).map nameOf) ∧ mid.Sublist (f' :: l') ∧
          (∀ f ∈ mid, ¬ TestOf order skip n b' f) ∧ ∀ g ∈ f' :: l', g ∉ mid → TestOf order skip n b' g := fun hno e => ⟨f' :: mid, by rw [List.map_cons, List.map_cons, e]; exact i1.cons_cons _, i2.cons_cons _,
        by simpa using ⟨hno, i3⟩, by
          intro g hg hm
          rcases List.mem_cons.1 hg with rfl | hg
          · simp at hm
          · exact i4 g hg fun hm' => hm (by simp [hm'])⟩
      rcases r with ⟨_, _, ⟨_, t', _⟩ | ⟨m, s⟩ | ⟨rfl, c⟩⟩
      · refine ⟨mid, i1.cons _, i2.cons _, i3, ?_⟩
        intro g hg hm
        rcases List.mem_cons.1 hg with rfl | hg
        · exact t'
        · exact i4 g hg hm
      · have s1 : f'.ty = f.ty := congrArg (fun c => c.1) s
        have s2 : f'.identifier = f.identifier := congrArg (fun c => c.2.1) s
        exact keep (fun t => by rw [t.1, m] at s1; cases s1) (Prod.ext s1 s2)
      · exact keep (fun t => h2 _ _ t c rfl) rfl
  obtain ⟨mid, i1, i2, i3, i4⟩ := key h
  refine ⟨mid, i1, i2.map _, fun f hf => ⟨fun hm => i4 f hf fun hm' => hm (List.mem_map_of_mem hm'), fun t hm => ?_⟩⟩
  obtain ⟨g, hg, e⟩ := List.mem_map.1 hm
  have : g = f := by
    obtain ⟨i, hi, e1⟩ := List.getElem_of_mem (i2.subset hg)
    obtain ⟨j, hj, e2⟩ := List.getElem_of_mem hf
    have e3 : (fns'.map HFn.identifier)[i]? = (fns'.map HFn.identifier)[j]? := by
      rw [List.getElem?_map, List.getElem?_map, List.getElem?_eq_getElem hi, List.getElem?_eq_getElem hj, e1, e2]
      exact congrArg some (congrArg Prod.snd e)
    have := (List.getElem?_inj (by simpa using hi) hnd).1 e3
    subst this
    exact e1.symm.trans e2
  exact i3 g hg (this ▸ t)

/-- **C135**, checking: if a Solidity file conforms to the trees before, then `check` reports for the trees after that the tests of the changed tree are missing, in their order, and nothing
else (unless functions of the new names happen to be there). -/
theorem C135_check {A C : List Str} {text text' : Str} (hb : Trees text (A ++ b :: C)) (hb' : Trees text' (A ++ b' :: C)) (hk : A ++ C ≠ []) {a a' : Ast}
    (ha : parseOne order b = .ok a) (ha' : parseOne order b' = .ok a') (hr : PartRenamed n p p' a a') {cfg : Config} {ctx : Context} {fns fns' : List HFn} (hh : ctx.hir = ⟨[⟨n, fns⟩]⟩)
    (ht : translate order cfg text = .ok ctx.hir) (ht' : translate order cfg text' = .ok ⟨[⟨n, fns'⟩]⟩) (h1 : Apart order cfg.emitVmSkip n b (A ++ C))
    (h2 : Apart order cfg.emitVmSkip n b' (A ++ C)) (hc : checkCtx ctx = .ok [])
    (hnew : ∀ s, FirstContract ctx.pt s → ∀ f ∈ fns', TestOf order cfg.emitVmSkip n b' f → ¬ Present s.parts f) :
    ∃ vs, checkCtx { ctx with hir := ⟨[⟨n, fns'⟩]⟩ } = .ok vs ∧ Increasing (vs.filterMap missingIdx) ∧
      ∀ v, v ∈ vs ↔ ∃ f i, fns'[i]? = some f ∧ TestOf order cfg.emitVmSkip n b' f ∧ v = ⟨.matchingFunctionMissing f i, .code ctx.tree f.span.start.line⟩ := by
  rw [hh] at ht
  obtain ⟨fns1, e, hnd, h4⟩ := part_was hb hb' hk ha ha' hr ht h1 h2
  rw [ht'] at e
  cases e
  obtain ⟨mid, m1, m2, m3⟩ := part_kept h1 h2 hnd h4
  obtain ⟨vs, g1, g2, g3⟩ := check_more (ctx := { ctx with hir := ⟨[⟨n, mid⟩]⟩ }) rfl (check_less hh hc m1) m2 (distinct_ids hnd)
    (fun s hs f hf hm => hnew s hs f hf ((m3 f hf).1 hm))
  refine ⟨vs, g1, g2, fun v => (g3 v).trans ?_⟩
  constructor
  · rintro ⟨f, i, k1, k2, _, k3⟩; exact ⟨f, i, k1, (m3 f (List.mem_of_getElem? k1)).1 k2, k3⟩
  · rintro ⟨f, i, k1, k2, k3⟩; exact ⟨f, i, k1, (m3 f (List.mem_of_getElem? k1)).2 k2, (fun h => by rw [k2.1] at h; cases h.2), k3⟩

/-- **C135**, fixing: in a valid file that conforms to the trees before, `check --fix` adds the tests of the changed tree under their new names, keeps everything else, also the tests with
the old names, and ends with a file that conforms to the trees after. -/
theorem C135_fix {P : SolParser} {G : SolGrammar} (hG : G.HasGenerated) (hP : Reader P G) {A C : List Str} {text text' : Str} (hb : Trees text (A ++ b :: C))
    (hb' : Trees text' (A ++ b' :: C)) (hk : A ++ C ≠ []) {a a' : Ast}
    (ha : parseOne order b = .ok a) (ha' : parseOne order b' = .ok a') (hr : PartRenamed n p p' a a') {cfg : Config} {ctx : Context} {fns fns' : List HFn} (hh : ctx.hir = ⟨[⟨n, fns⟩]⟩)
    (ht : translate order cfg text = .ok ctx.hir) (ht' : translate order cfg text' = .ok ⟨[⟨n, fns'⟩]⟩) (h1 : Apart order cfg.emitVmSkip n b (A ++ C))
    (h2 : Apart order cfg.emitVmSkip n b' (A ++ C)) (hc : checkCtx ctx = .ok []) (hf : ∀ f ∈ fns', ReadableFn f) {L : Layout} (hL : L.Fits G) (hsrc : ctx.src = L.text)
    (hpt : P ctx.src = some ctx.pt) (hbr : '{' ∉ L.header) (hnew : ∀ f ∈ fns', TestOf order cfg.emitVmSkip n b' f → ¬ Present L.parts f)
    (hm : ¬ (ctx.skipModifiers = true ∧ BehindMissing fns' L)) :
    ∃ (L' : Layout) (u : SolUnit) (k : Nat) (new : List HFn), fixContext P { ctx with hir := ⟨[⟨n, fns'⟩]⟩ } = .ok ({ ctx with hir := ⟨[⟨n, fns'⟩]⟩, src := L'.text, pt := u }, k) ∧ L'.Fits G ∧
      FirstContract u L'.contract ∧ L'.before = L.before ∧ L'.header = L.header ∧ L'.rest = L.rest ∧ L.text.Sublist L'.text ∧
      (L.segs.map Prod.fst).Sublist (L'.segs.map Prod.fst) ∧ new.Sublist fns' ∧ (∀ f ∈ fns', f ∈ new ↔ TestOf order cfg.emitVmSkip n b' f) ∧
      (L'.segs.map Prod.fst).Perm (L.segs.map Prod.fst ++ new.map newSeg) ∧
      checkCtx { ctx with hir := ⟨[⟨n, fns'⟩]⟩, src := L'.text, pt := u } = .ok [] := by
  rw [hh] at ht
  obtain ⟨fns1, e, hnd, h4⟩ := part_was hb hb' hk ha ha' hr ht h1 h2
  rw [ht'] at e
  cases e
  obtain ⟨mid, m1, m2, m3⟩ := part_kept h1 h2 hnd h4
  obtain ⟨L', u, c, g1, g2, g3, g4, g5, g6, g7, g8, g9, _, g10, _⟩ := fix_more hG hP (ctx := { ctx with hir := ⟨[⟨n, mid⟩]⟩ }) (check_less hh hc m1) rfl rfl (distinct_ids hnd) m2 hf hL hsrc
    hpt hbr (fun f hf hm => hnew f hf ((m3 f hf).1 hm)) hm
  refine ⟨L', u, c, _, g1, g2, g3, g4, g5, g6, g7, g8, List.filter_sublist, fun f hf => ?_, g9, g10⟩
  simp only [List.mem_filter, decide_eq_true_eq, m3 f hf]
  exact ⟨fun h => h.2.1, fun h => ⟨hf, h, fun h' => by rw [h.1] at h'; cases h'.2⟩⟩

/-- **C135**, commands: if `check` succeeds and the name of a tree with tests is changed, then it exits with 1. -/
theorem C135_exit {env : Env} {x : CheckArgs} {fs fs' : Fs} (hf : x.fix = false) (hs : ∀ t ∈ x.files, ∀ p, SolOf t p → fs'.state p = fs.state p)
    {w : FPath} (hta : w ∈ x.files) (hother : ∀ u ∈ x.files, u ≠ w → fs'.state u = fs.state u) {A C : List Str} {text text' : Str} (e1 : fs.state w = .text text)
    (e2 : fs'.state w = .text text') (hb : Trees text (A ++ b :: C)) (hb' : Trees text' (A ++ b' :: C)) (hk : A ++ C ≠ []) {a a' : Ast}
    (ha : parseOne env.order b = .ok a) (ha' : parseOne env.order b' = .ok a') (hr : PartRenamed n p p' a a') {fns fns' : List HFn}
    (ht : translate env.order .default text = .ok ⟨[⟨n, fns⟩]⟩) (ht' : translate env.order .default text' = .ok ⟨[⟨n, fns'⟩]⟩) (h1 : Apart env.order false n b (A ++ C))
    (h2 : Apart env.order false n b' (A ++ C)) (h3 : ∃ f ∈ fns', TestOf env.order false n b' f)
    (hnew : ∀ p src u s, SolOf w p → fs.state p = .text src → env.solParse src = some u → FirstContract u s → ∀ f ∈ fns', TestOf env.order false n b' f → ¬ Present s.parts f)
    (h0 : (checkRun env x fs).exit = .code 0) : (checkRun env x fs').exit = .code 1 := by
  obtain ⟨p, src, u, m1, m2, m3, m4, m5, m6⟩ := edited_exit hf hs hta hother e1 e2 ht ht' h0
  obtain ⟨vs, hv, _, hvs⟩ := C135_check (ctx := ⟨w.str, ⟨[⟨n, fns⟩]⟩, p.str, src, u, x.skipModifiers⟩) hb hb' hk ha ha' hr rfl ht ht' h1 h2 m4
    (fun s hs => hnew p src u s m1 m2 m3 hs)
  refine m6 vs hv fun e => ?_
  obtain ⟨f, hfm, t⟩ := h3
  obtain ⟨i, hi⟩ := List.getElem?_of_mem hfm
  have := (hvs _).2 ⟨f, i, hi, t, rfl⟩
  rw [e] at this
  cases this

end
end Bulloak
