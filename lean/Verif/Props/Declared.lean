import Verif.Lemmas.Occ
import Verif.Props.Edit
/-!
# Sorting files in which every function is declared once: C99
-/

namespace Bulloak
open Spec
set_option linter.unusedSectionVars false

theorem ident_chars {s : Str} (h : SolIdent s) : ∀ c ∈ s, isWordChar c = true := by
  obtain ⟨d, u, rfl, hd, hu⟩ := h
  intro c hc
  rcases List.mem_cons.1 hc with rfl | hc
  · simp [isWordChar, wordStart_of hd]
  · exact wordChar_of (hu c hc)

theorem ident_no {s : Str} (h : SolIdent s) {c : Char} (hc : isWordChar c = false) : c ∉ s := by
  intro hm
  rw [ident_chars h c hm] at hc
  cases hc

theorem last_split {c : Char} {a b a' b' : Str} (h : a ++ c :: b = a' ++ c :: b') (hb : c ∉ b) (hb' : c ∉ b') : a = a' ∧ b = b' := by
  rcases List.append_eq_append_iff.1 h with ⟨w, rfl, e⟩ | ⟨w, rfl, e⟩
  · cases w with
    | nil => simp only [List.nil_append, List.cons.injEq, true_and] at e; exact ⟨by simp, e⟩
    | cons x w =>
      simp only [List.cons_append, List.cons.injEq] at e
      exact absurd (by rw [e.2]; simp) hb
  · cases w with
    | nil => simp only [List.nil_append, List.cons.injEq, true_and] at e; exact ⟨by simp, e.symm⟩
    | cons x w =>
      simp only [List.cons_append, List.cons.injEq] at e
      exact absurd (by rw [e.2]; simp) hb'

/-- The keyword of a declaration. -/
def kwOf (f : HFn) : Str := match f.ty with
  | .function => c!"function"
  | .modifier => c!"modifier"

theorem declOf_eq (f : HFn) : declOf f = kwOf f ++ ' ' :: (f.identifier ++ c!"(") := by
  unfold declOf kwOf
  cases f.ty <;> rfl

theorem decl_ne (f : HFn) : declOf f ≠ [] := by
  rw [declOf_eq]; simp

theorem kwOf_ne (f : HFn) : ∃ c r, kwOf f = c :: r ∧ (c = 'f' ∨ c = 'm') := by
  unfold kwOf
  cases f.ty
  · exact ⟨_, _, rfl, .inl rfl⟩
  · exact ⟨_, _, rfl, .inr rfl⟩

theorem decl_head (f : HFn) : ∃ c r, declOf f = c :: r ∧ (c = 'f' ∨ c = 'm') := by
  obtain ⟨c, r, e, h⟩ := kwOf_ne f
  exact ⟨c, _, by rw [declOf_eq, e]; rfl, h⟩

theorem kw_plain (f : HFn) : ∀ c ∈ kwOf f, c ≠ ' ' ∧ c ≠ '(' ∧ c ≠ ')' ∧ c ≠ '\n' ∧ c ≠ '}' := by
  unfold kwOf
  cases f.ty <;> decide

theorem decl_no {f : HFn} (h : SolIdent f.identifier) {c : Char} (hw : isWordChar c = false) (h1 : c ≠ ' ') (h2 : c ≠ '(') : c ∉ declOf f := by
  rw [declOf_eq]
  simp only [List.mem_append, List.mem_cons, List.not_mem_nil, or_false, not_or]
  refine ⟨fun hm => ?_, h1, ident_no h hw, h2⟩
  have : (kwOf f).all isWordChar = true := by
    unfold kwOf; cases f.ty <;> decide
  rw [List.all_eq_true.1 this c hm] at hw
  cases hw

theorem decl_space {f : HFn} (h : SolIdent f.identifier) : ∀ u v, declOf f = u ++ ' ' :: v → ∃ c w, v = c :: w ∧ c ≠ ' ' := by
  intro u v e
  have hv : ' ' ∉ v := by
    intro hm
    have h1 : (declOf f).count ' ' = 1 := by
      rw [declOf_eq, List.count_append, List.count_cons_self, List.count_append, List.count_eq_zero.2 (ident_no h (by decide)),
        List.count_eq_zero.2 (fun hm => (kw_plain f _ hm).1 rfl)]
      rfl
    have := List.count_pos_iff.2 hm
    rw [e, List.count_append, List.count_cons_self] at h1
    omega
  rw [declOf_eq] at e
  have := (last_split e (by simpa using ident_no h (by decide)) hv).2
  obtain ⟨c, r, hc, _⟩ := h
  rw [hc] at this
  refine ⟨c, _, this.symm, ?_⟩
  rintro rfl
  exact hv (by rw [← this]; simp)

theorem decl_occ {f g : HFn} (hf : SolIdent f.identifier) (hg : SolIdent g.identifier) :
    occ (declOf g) (declOf f) ≤ if nameOf f = nameOf g then 1 else 0 := by
  have key : ∀ x y, declOf f = x ++ (declOf g ++ y) → x = [] ∧ nameOf f = nameOf g := by
    intro x y e
    rw [declOf_eq f, declOf_eq g] at e
    have e1 : (kwOf f ++ ' ' :: f.identifier) ++ '(' :: [] = (x ++ (kwOf g ++ ' ' :: g.identifier)) ++ '(' :: y := by simpa using e
    have hy : '(' ∉ y := by
      intro hm
      have h1 : ((kwOf f ++ ' ' :: f.identifier) ++ '(' :: []).count '(' = 1 := by
        rw [List.count_append, List.count_append, List.count_cons_of_ne (by decide), List.count_eq_zero.2 (ident_no hf (by decide)),
          List.count_eq_zero.2 (fun hm => (kw_plain f _ hm).2.1 rfl)]
        rfl
      have := List.count_pos_iff.2 hm
      rw [e1, List.count_append, List.count_cons_self] at h1
      omega
    have e2 := (last_split e1 (by simp) hy).1
    rw [← List.append_assoc] at e2
    obtain ⟨e3, e4⟩ := last_split e2 (ident_no hf (by decide)) (ident_no hg (by decide))
    have hl : (kwOf f).length = (kwOf g).length := by
      unfold kwOf; cases f.ty <;> cases g.ty <;> rfl
    have hx : x = [] := by
      have := congrArg List.length e3
      rw [List.length_append] at this
      exact List.eq_nil_of_length_eq_zero (by omega)
    subst hx
    refine ⟨rfl, ?_⟩
    have : f.ty = g.ty := by
      unfold kwOf at e3
      cases h1 : f.ty <;> cases h2 : g.ty <;> rw [h1, h2] at e3 <;> first | rfl | (revert e3; decide)
    simp only [nameOf, this, e4]
  split
  · exact occ_le_one fun x y x' y' e e' => by rw [(key x y e).1, (key x' y' e').1]
  · rename_i hne
    rcases Nat.eq_zero_or_pos (occ (declOf g) (declOf f)) with h0 | h0
    · omega
    · obtain ⟨x, y, e⟩ := occ_pos h0
      exact absurd (key x y e).2 hne

theorem occ_without {d s : Str} {c : Char} (hc : c ∈ d) (hs : c ∉ s) : occ d s = 0 :=
  occ_zero fun ⟨x, y, e⟩ => hs (by rw [← e]; simp [hc])

theorem paren_decl (g : HFn) : '(' ∈ declOf g := by rw [declOf_eq]; simp
theorem space_decl (g : HFn) : ' ' ∈ declOf g := by rw [declOf_eq]; simp

theorem occ_items {g : HFn} (hg : SolIdent g.identifier) {l : List BodyItem} (hq : ∀ t, .comment t ∈ l → ¬ declOf g <:+: t) (r : Str)
    (hr : occ (declOf g) r = 0) : occ (declOf g) (l.flatMap emitBodyItem ++ r) = 0 := by
  have hn : '\n' ∉ declOf g := decl_no hg (by decide) (by decide) (by decide)
  obtain ⟨h, t, hd, hh⟩ := decl_head g
  have hskip : ∀ {a : Str}, 'f' ∉ a → 'm' ∉ a → ∀ b, occ (declOf g) (a ++ b) = occ (declOf g) b := by
    intro a h1 h2 b
    rw [hd]
    refine occ_skip ?_ b
    rcases hh with rfl | rfl
    · exact h1
    · exact h2
  induction l with
  | nil => exact hr
  | cons b l ih =>
    have ih := ih fun t ht => hq t (List.mem_cons_of_mem _ ht)
    rw [List.flatMap_cons, List.append_assoc]
    cases b with
    | comment t =>
      have e : emitBodyItem (.comment t) ++ (l.flatMap emitBodyItem ++ r) = (c!"    // " ++ t) ++ '\n' :: (l.flatMap emitBodyItem ++ r) := by
        simp [emitBodyItem, indent2, spaces, List.replicate]
      rw [e, occ_sep hn _ _ (decl_ne g), ih, hskip (by decide) (by decide), occ_zero (hq t (by simp))]
    | vmSkip =>
      have e : emitBodyItem .vmSkip ++ (l.flatMap emitBodyItem ++ r) = (c!"    " ++ c!"vm.skip(true);") ++ '\n' :: (l.flatMap emitBodyItem ++ r) := by
        simp [emitBodyItem, indent2, spaces, List.replicate]
      rw [e, occ_sep hn _ _ (decl_ne g), ih, hskip (by decide) (by decide), occ_without (space_decl g) (by decide)]

theorem newSeg_decl {f : HFn} : ∃ r, (newSeg f).text = declOf f ++ ')' :: r ∧ ∀ g, SolIdent g.identifier → ReadableFn f →
    (∀ t, .comment t ∈ f.children.getD [] → ¬ declOf g <:+: t) → occ (declOf g) r = 0 := by
  obtain ⟨i, ty, sp, m, ch⟩ := f
  cases ty with
  | modifier =>
    refine ⟨c!" {\n    _;\n  }", ?_, fun g _ _ _ => occ_without (paren_decl g) (by decide)⟩
    rw [emitFunction_trim (x := c!"modifier " ++ (i ++ c!"() {\n    _;\n  }"))]
    · simp [declOf]
    · simp [emitFunction, emitModifier, indent1, indent2, spaces, List.replicate]
  | function =>
    cases m with
    | none =>
      refine ⟨c!" external {\n" ++ ((ch.getD []).flatMap emitBodyItem ++ c!"  }"), ?_, ?_⟩
      · rw [emitFunction_trim (x := c!"function " ++ (i ++ (c!"() external {\n" ++ ((ch.getD []).flatMap emitBodyItem ++ c!"  }"))))]
        · simp [declOf]
        · simp [emitFunction, emitFnHeader, indent1, spaces, List.replicate]
      · intro g hg hf hq
        have e : c!" external {\n" ++ ((ch.getD []).flatMap emitBodyItem ++ c!"  }") = c!" external {" ++ '\n' :: ((ch.getD []).flatMap emitBodyItem ++ c!"  }") := rfl
        rw [e, occ_sep (decl_no hg (by decide) (by decide) (by decide)) _ _ (decl_ne g), occ_without (paren_decl g) (by decide),
          occ_items hg hq _ (occ_without (paren_decl g) (by decide))]
    | some ms =>
      refine ⟨c!"\n    external\n" ++ (ms.flatMap (fun m => c!"    " ++ m ++ c!"\n") ++ (c!"  {\n" ++ ((ch.getD []).flatMap emitBodyItem ++ c!"  }"))), ?_, ?_⟩
      · rw [emitFunction_trim (x := c!"function " ++ (i ++ (c!"()\n    external\n" ++ (ms.flatMap (fun m => c!"    " ++ m ++ c!"\n") ++
          (c!"  {\n" ++ ((ch.getD []).flatMap emitBodyItem ++ c!"  }"))))))]
        · simp [declOf]
        · simp [emitFunction, emitFnHeader, indent1, indent2, spaces, List.replicate]
      · intro g hg hf hq
        have e : c!"\n    external\n" ++ (ms.flatMap (fun m => c!"    " ++ m ++ c!"\n") ++ (c!"  {\n" ++ ((ch.getD []).flatMap emitBodyItem ++ c!"  }"))) =
            (c!"\n    external\n" ++ (ms.flatMap (fun m => c!"    " ++ m ++ c!"\n") ++ c!"  {")) ++ '\n' :: ((ch.getD []).flatMap emitBodyItem ++ c!"  }") := by simp
        have hp : '(' ∉ c!"\n    external\n" ++ (ms.flatMap (fun m => c!"    " ++ m ++ c!"\n") ++ c!"  {") := by
          have hm : ∀ m ∈ ms, '(' ∉ m := fun m h => ident_no (hf.mods m h).1 (by decide)
          simp only [List.mem_append, List.mem_flatMap, not_or, not_exists, not_and]
          exact ⟨by decide, fun m h => ⟨⟨by decide, hm m h⟩, by decide⟩, by decide⟩
        rw [e, occ_sep (decl_no hg (by decide) (by decide) (by decide)) _ _ (decl_ne g), occ_without (paren_decl g) hp,
          occ_items hg hq _ (occ_without (paren_decl g) (by decide))]

theorem newSeg_occ {f g : HFn} (hf : ReadableFn f) (hg : SolIdent g.identifier) (hq : ∀ t, .comment t ∈ f.children.getD [] → ¬ declOf g <:+: t) :
    occ (declOf g) (newSeg f).text ≤ if nameOf f = nameOf g then 1 else 0 := by
  obtain ⟨r, e, h⟩ := newSeg_decl (f := f)
  rw [e, occ_sep (decl_no hg (by decide) (by decide) (by decide)) _ _ (decl_ne g), h g hg hf hq]
  exact decl_occ hf.name.1 hg

theorem newSeg_starts (f : HFn) : declOf f <+: (newSeg f).text := by
  obtain ⟨r, e, _⟩ := newSeg_decl (f := f)
  rw [e]; exact List.prefix_append _ _

section
variable [U : Ucd]

/-- One insertion. -/
theorem insert_occ {f g : HFn} (hf : ReadableFn f) (hg : SolIdent g.identifier) (hq : ∀ t, .comment t ∈ f.children.getD [] → ¬ declOf g <:+: t)
    (L : Layout) {k : Nat} (hk : k ≤ L.segs.length) :
    occ (declOf g) (L.insert f k).text ≤ occ (declOf g) L.text + if nameOf f = nameOf g then 1 else 0 := by
  obtain ⟨a, b, h1, h2⟩ := insert_split L f k hk
  rw [h2, h1, trimEnd_emitFunction]
  obtain ⟨r, e, hr⟩ := newSeg_decl (f := f)
  have h3 := occ_super (declOf g) a b
  have hn : '\n' ∉ declOf g := decl_no hg (by decide) (by decide) (by decide)
  have hb : '}' ∉ declOf g := decl_no hg (by decide) (by decide) (by decide)
  obtain ⟨q, c, he, hc⟩ := (newSeg_reads hf).2.2.2
  have hc' : c ∉ declOf g := by
    rcases hc with rfl | rfl <;> exact decl_no hg (by decide) (by decide) (by decide)
  have h4 := newSeg_occ hf hg hq
  rw [he] at h4 ⊢
  have e1 : a ++ (c!"\n\n" ++ ((c!"  " ++ (q ++ [c])) ++ b)) = a ++ '\n' :: ([] ++ '\n' :: ([] ++ (spaces 2 ++ (q ++ c :: b)))) := by
    simp [spaces, List.replicate]
  rw [e1, occ_sep hn _ _ (decl_ne g), occ_sep hn _ _ (decl_ne g), occ_spaces (decl_space hg) (by
    obtain ⟨x, t, hd, hx⟩ := decl_head g
    rw [hd]
    rcases hx with rfl | rfl <;> simp) (decl_ne g) (Nat.le_refl 2), occ_sep hc' _ _ (decl_ne g)]
  rw [occ_sep hc' _ _ (decl_ne g)] at h4
  simp only [occ] at h4 ⊢
  omega

/-- All insertions. -/
theorem filling_occ {skip : Bool} {fns : List HFn} (hf : ∀ f ∈ fns, ReadableFn f) {g : HFn} (hg : SolIdent g.identifier)
    (hq : ∀ f ∈ fns, ∀ t, .comment t ∈ f.children.getD [] → ¬ declOf g <:+: t) {L L' : Layout} {k : Nat} (h : Filling skip fns L k L') :
    occ (declOf g) L'.text ≤ occ (declOf g) L.text + ((fns.take k).filter (fun f => decide (nameOf f = nameOf g ∧ Reported skip L f))).length := by
  induction h with
  | start => simp
  | @insert k L' f p _ hk hrep hpl ih =>
    have hm := List.mem_of_getElem? hk
    have h1 := insert_occ (hf f hm) hg (hq f hm) L' (place_le hpl)
    have e : fns.take (k + 1) = fns.take k ++ [f] := by
      rw [List.take_add_one, hk]; rfl
    rw [e, List.filter_append, List.length_append]
    by_cases hn : nameOf f = nameOf g
    · rw [if_pos hn] at h1
      have : ([f].filter (fun f => decide (nameOf f = nameOf g ∧ Reported skip L f))).length = 1 := by
        rw [List.filter_cons_of_pos (by simpa using ⟨hn, hrep⟩)]; rfl
      omega
    · rw [if_neg hn] at h1
      omega
  | @keep k L' f _ hk hrep ih =>
    have e : fns.take (k + 1) = fns.take k ++ [f] := by
      rw [List.take_add_one, hk]; rfl
    rw [e, List.filter_append, List.length_append]
    omega

/-- While the functions are filled in, every declaration occurs at most once. -/
theorem declared_occ {fns : List HFn} (hf : ∀ f ∈ fns, ReadableFn f) (hd : Distinct fns) {L : Layout} (hD : DeclaredOnce fns L)
    {skip : Bool} {k : Nat} {L' : Layout} (h : Filling skip fns L k L') : ∀ g ∈ fns, occ (declOf g) L'.text ≤ 1 := by
  intro g hg
  have h1 := filling_occ hf (hf g hg).name.1 (fun f hfm t ht => hD.quiet g hg f hfm t ht) h
  have h2 := occ_le_one (hD.once g hg)
  by_cases hp : Present L.parts g
  · have : (fns.take k).filter (fun f => decide (nameOf f = nameOf g ∧ Reported skip L f)) = [] := by
      rw [List.filter_eq_nil_iff]
      intro f _
      simp only [decide_eq_true_eq, not_and]
      intro e hr
      exact hr.1 ((present_name e _).2 hp)
    rw [this] at h1
    simp at h1
    omega
  · have h3 := occ_zero (hD.missing g hg hp)
    have h4 : ((fns.take k).filter (fun f => decide (nameOf f = nameOf g ∧ Reported skip L f))).length ≤ 1 := by
      have hn := distinct_nodup hd
      have hs : ((fns.take k).filter (fun f => decide (nameOf f = nameOf g ∧ Reported skip L f))).Sublist fns :=
        List.filter_sublist.trans (List.take_sublist _ _)
      have hn2 := (hs.map nameOf).nodup hn
      match hl : (fns.take k).filter (fun f => decide (nameOf f = nameOf g ∧ Reported skip L f)) with
      | [] => simp
      | [_] => simp
      | a :: b :: r =>
        have ha : a ∈ (fns.take k).filter (fun f => decide (nameOf f = nameOf g ∧ Reported skip L f)) := by rw [hl]; simp
        have hb : b ∈ (fns.take k).filter (fun f => decide (nameOf f = nameOf g ∧ Reported skip L f)) := by rw [hl]; simp
        simp only [List.mem_filter, decide_eq_true_eq] at ha hb
        rw [hl] at hn2
        simp only [List.map_cons, List.nodup_cons, List.mem_cons, not_or] at hn2
        exact absurd (ha.2.1.trans hb.2.1.symm) hn2.1.1
    omega

/-- While the functions are filled in, every declaration occurs once. -/
theorem declared_separate {fns : List HFn} (hf : ∀ f ∈ fns, ReadableFn f) (hd : Distinct fns) {L : Layout} (hown : OnlyTree fns L)
    (hD : DeclaredOnce fns L) {skip : Bool} {k : Nat} {L' : Layout} (h : Filling skip fns L k L') : Separate L' := by
  have hocc := declared_occ hf hd hD h
  have hstart : ∀ s ∈ L'.segs.map Prod.fst, ∃ g ∈ fns, declOf g <+: s.text := by
    have hgr := filling_grown h
    clear h hocc
    induction hgr with
    | refl =>
      intro s hs
      obtain ⟨g, hg, hi⟩ := hown.own s hs
      exact ⟨g, hg, hD.starts s hs g hg hi⟩
    | @step L' f k _ hfm hk ih =>
      intro s hs
      rw [insert_map _ _ _ hk, List.mem_insertIdx (by simpa using hk)] at hs
      rcases hs with rfl | hs
      · exact ⟨f, hfm, newSeg_starts f⟩
      · exact ih s hs
  have hlen : ∀ p ∈ L'.segs, 2 ≤ byteLen p.1.text := by
    intro p hp
    obtain ⟨g, _, hpre⟩ := hstart p.1 (List.mem_map_of_mem hp)
    have h1 := hpre.length_le
    have h2 := byteLen_ge p.1.text
    have h3 : 2 ≤ (declOf g).length := by rw [declOf_eq, List.length_append, List.length_cons]; simp; omega
    omega
  intro B pre s g0 post e
  obtain ⟨g, hg, hpre⟩ := hstart s (by rw [e]; simp)
  have hhead : (declOf g).head? ≠ some ' ' := by
    obtain ⟨x, t, hd, hx⟩ := decl_head g
    rw [hd]
    rcases hx with rfl | rfl <;> simp
  have hsp := decl_space (hf g hg).name.1
  refine ⟨?_, once_of_occ (decl_ne g) hpre ?_⟩
  · intro hn
    rw [hn] at hpre
    exact decl_ne g (List.prefix_nil.1 hpre)
  · have et : L'.text = L'.front ++ (segsText pre ++ (s.text ++ (g0 ++ (segsText post ++ '}' :: L'.rest)))) := by
      unfold Layout.text
      rw [e, segsText_append]
      simp [segsText]
    have h0 := hocc g hg
    have h1 := blanked_occ hsp hhead (decl_ne g) B (l := pre) (fun p hp => hlen p (by rw [e]; simp [hp])) 0 L'.front
      (s.text ++ (g0 ++ (segsText post ++ '}' :: L'.rest)))
    have h2 := blanked_occ hsp hhead (decl_ne g) B (l := post) (fun p hp => hlen p (by rw [e]; simp [hp])) (pre.length + 1)
      (L'.front ++ (blanked B 0 pre ++ (s.text ++ g0))) ('}' :: L'.rest)
    rw [← et] at h1
    simp only [List.append_assoc] at h1 h2 ⊢
    omega

/-- **C99.** A valid ASCII file whose contract consists of functions of the tree, each declared once in the file (`function name(`), no three of them
reversed: `check --fix` renames the contract, adds exactly the missing functions and sorts, and nothing is reported afterwards. -/
theorem C99_sorts {P : SolParser} {G : SolGrammar} (hG : G.HasGenerated) (hP : Reader P G) {n : Str} {fns : List HFn} {ctx : Context}
    (hh : ctx.hir = ⟨[⟨n, fns⟩]⟩) (hf : ∀ f ∈ fns, ReadableFn f) {L L1 : Layout} (hL : L.Fits G) (hL1 : L1.Fits G) (hsrc : ctx.src = L.text)
    (hpt : P ctx.src = some ctx.pt) (hr : Renamed (sanitize n) L L1) (hb : '{' ∉ L1.header)
    (hsk : ctx.skipModifiers = false) (hd : Distinct fns) (hown : OnlyTree fns L)
    (h3 : NoReversedTriple fns L.parts) (hA : Ascii L.text) (hA1 : Ascii L1.text) (hF : ∀ f ∈ fns, Ascii (emitFunction f))
    (hD : DeclaredOnce fns L1) :
    ∃ (L' : Layout) (u : SolUnit) (vs : List Violation), checkCtx ctx = .ok vs ∧ fixContext P ctx = .ok ({ ctx with src := L'.text, pt := u }, vs.length) ∧
      L'.Fits G ∧ FirstContract u L'.contract ∧
      (L'.segs.map Prod.fst).Perm (L.segs.map Prod.fst ++ (fns.filter (fun f => decide (¬ Present L.parts f))).map newSeg) ∧
      Each Seg.Is fns (L'.segs.map Prod.fst) ∧ checkCtx { ctx with src := L'.text, pt := u } = .ok [] := by
  obtain ⟨L', L'', u, vs, h1, h2, h4, h5, h6, _, h7, h8, h9⟩ := C91_fix_order hG hP hh hf hL hL1 hsrc hpt hr hb hsk hd hown h3 hA hA1 hF
    (fun L' h => declared_separate hf hd (renamed_only hr hown) hD h)
  refine ⟨L'', u, vs, h1, h2, h4, h5, h7.trans ?_, h8, h9⟩
  have hs : L1.segs = L.segs := by cases hr <;> rfl
  have hrep : ∀ f, Reported false L1 f ↔ ¬ Present L.parts f := by
    intro f
    have : Present L1.parts f ↔ Present L.parts f := by
      rw [layout_present, layout_present]
      unfold Layout.keys
      rw [hs]
    simp [Reported, this]
  have := h6.only
  rw [hs, List.filter_congr (q := fun f => decide (¬ Present L.parts f)) (fun f _ => decide_eq_decide.2 (hrep f))] at this
  exact this

/-- **C99**, for several files at once: such files can be repaired in the sense of C92. -/
theorem C99_repairable {n : Str} {fns : List HFn} (hf : ∀ f ∈ fns, ReadableFn f) (hd : Distinct fns) {L L1 : Layout} (hr : Renamed n L L1)
    (hown : OnlyTree fns L) (h3 : NoReversedTriple fns L.parts) (hA1 : Ascii L1.text) (hF : ∀ f ∈ fns, Ascii (emitFunction f))
    (hD : DeclaredOnce fns L1) : Repairable false fns L L1 :=
  .sort rfl hown h3 hA1 hF fun _ h => declared_separate hf hd (renamed_only hr hown) hD h

end

/-! ## Concrete cases -/

/-- Checks `DeclaredOnce`. -/
def declaredOf (fns : List HFn) (L : Layout) : Bool :=
  (L.segs.map Prod.fst).all (fun s => fns.all fun f => match s with
    | .fn ty name t => !decide (name = some f.identifier ∧ kindOf ty = some f.ty) || (declOf f).isPrefixOf t
    | .other _ => true) &&
  fns.all (fun f => decide (occ (declOf f) L.text ≤ 1) && (decide (Present L.parts f) || decide (occ (declOf f) L.text = 0))) &&
  fns.all (fun f => fns.all fun g => (comments g).all fun t => decide (occ (declOf f) t = 0))

theorem occ_infix {d s : Str} (hd : d ≠ []) (h : d <:+: s) : 0 < occ d s := by
  obtain ⟨x, y, rfl⟩ := h
  have h1 := occ_super d x (d ++ y)
  have h2 := occ_front hd (List.prefix_append d y)
  rw [List.append_assoc]
  omega

theorem declaredOf_declared {fns : List HFn} {L : Layout} (h : declaredOf fns L = true) : DeclaredOnce fns L := by
  simp only [declaredOf, Bool.and_eq_true, List.all_eq_true] at h
  obtain ⟨⟨h1, h2⟩, h3⟩ := h
  refine ⟨?_, ?_, ?_, ?_⟩
  · intro s hs f hf hi
    have := h1 s hs f hf
    cases s with
    | fn ty name t =>
      simp only [Bool.or_eq_true, Bool.not_eq_true', decide_eq_false_iff_not] at this
      rcases this with h | h
      · exact absurd hi h
      · exact List.isPrefixOf_iff_prefix.1 h
    | other => exact hi.elim
  · intro f hf x y x' y' e e'
    have := (h2 f hf).1
    rw [decide_eq_true_eq, e] at this
    exact (once_of_occ (decl_ne f) (List.prefix_refl _) this x' y' (by rw [← e, e'])).symm
  · intro f hf hp hi
    have := (h2 f hf).2
    simp only [Bool.or_eq_true, decide_eq_true_eq] at this
    have h4 := occ_infix (decl_ne f) hi
    rcases this with h | h
    · exact hp h
    · omega
  · intro f hf g hg t ht hi
    have := h3 f hf g hg t (by unfold comments; exact List.mem_filterMap.2 ⟨_, ht, rfl⟩)
    rw [decide_eq_true_eq] at this
    have h4 := occ_infix (decl_ne f) hi
    omega

end Bulloak
