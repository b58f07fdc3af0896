import Verif.Spec.Cut
import Verif.Props.EditRuns2
import Verif.Props.Session
/-! # Deleting code from the Solidity file (C136) -/

namespace Bulloak
open Spec

section
variable [U : Ucd]

/-- The places that the parts of the shorter list have in the longer one. -/
private theorem cut_places {l l' : List SolPart} (h : (l'.map seen).Sublist (l.map seen)) :
    ∃ φ : Nat → Nat, (∀ i j, i < j → φ i < φ j) ∧ ∀ i p, l'[i]? = some p → ∃ q, l[φ i]? = some q ∧ seen q = seen p := by
  generalize hm : l.map seen = m at h
  generalize hm' : l'.map seen = m' at h
  induction h generalizing l l' with
  | slnil =>
    refine ⟨id, fun _ _ h => h, fun i p hp => ?_⟩
    rw [List.map_eq_nil_iff.1 hm'] at hp
    simp at hp
  | @cons m1 m2 a _ ih =>
    obtain ⟨x, r, rfl, _, hr⟩ := List.map_eq_cons_iff.1 hm
    obtain ⟨φ, h1, h2⟩ := ih hr hm'
    refine ⟨fun i => φ i + 1, fun i j h => Nat.succ_lt_succ (h1 i j h), fun i p hp => ?_⟩
    simpa using h2 i p hp
  | @cons_cons m1 m2 a _ ih =>
    obtain ⟨x, r, rfl, hx, hr⟩ := List.map_eq_cons_iff.1 hm
    obtain ⟨x', r', rfl, hx', hr'⟩ := List.map_eq_cons_iff.1 hm'
    obtain ⟨φ, h1, h2⟩ := ih hr hr'
    refine ⟨fun i => match i with
      | 0 => 0
      | i + 1 => φ i + 1, ?_, ?_⟩
    · intro i j h
      cases j with
      | zero => omega
      | succ j => cases i with
        | zero => exact Nat.succ_pos _
        | succ i => exact Nat.succ_lt_succ (h1 i j (Nat.lt_of_succ_lt_succ h))
    · intro i p hp
      cases i with
      | zero =>
        simp only [List.getElem?_cons_zero, Option.some.injEq] at hp
        exact ⟨x, rfl, by rw [hx, ← hp, hx']⟩
      | succ i => simpa using h2 i p (by simpa using hp)

theorem cut_inOrder {fns : List HFn} {l l' : List SolPart} (h : (l'.map seen).Sublist (l.map seen)) (ho : NoTwice fns l) (hi : InOrder fns l) : InOrder fns l' := by
  obtain ⟨φ, h1, h2⟩ := cut_places h
  have at_old : ∀ f ∈ fns, ∀ i, At l' f i → At l f (φ i) := by
    rintro f hf i ⟨⟨p, hp, hm⟩, _⟩
    obtain ⟨q, hq, e⟩ := h2 i p hp
    refine ⟨⟨q, hq, (matches_seen e).2 hm⟩, fun j r hj hr hm' => ?_⟩
    have := ho f hf j (φ i) r q hr hq hm' ((matches_seen e).2 hm)
    omega
  unfold InOrder at hi ⊢
  rw [List.pairwise_iff_getElem] at hi ⊢
  intro a b ha hb hab i j hi' hj'
  have := hi a b ha hb hab _ _ (at_old _ (List.getElem_mem ha) i hi') (at_old _ (List.getElem_mem hb) j hj')
  by_cases hij : i ≤ j
  · exact hij
  · have := h1 j i (by omega)
    omega

/-- What `check` then reports, if the functions of the tree that are left are in order. -/
theorem left_check {ctx : Context} {n : Str} {fns : List HFn} (hh : ctx.hir = ⟨[⟨n, fns⟩]⟩) (hc : checkCtx ctx = .ok []) {s s' : SolContract} {src : Str} {u : SolUnit}
    (hs : FirstContract ctx.pt s) (hs' : FirstContract u s') (hsn : s'.name = s.name) (hio : InOrder fns s'.parts) :
    ∃ vs, checkCtx { ctx with src := src, pt := u } = .ok vs ∧ Increasing (vs.filterMap missingIdx) ∧
      ∀ v, v ∈ vs ↔ ∃ f i, fns[i]? = some f ∧ Present s.parts f ∧ ¬ Present s'.parts f ∧ ¬ (ctx.skipModifiers = true ∧ f.ty = .modifier) ∧
        v = ⟨.matchingFunctionMissing f i, .code ctx.tree f.span.start.line⟩ := by
  obtain ⟨s0, h1, h2, h3, h4⟩ := (C37_silent_iff hh).1 hc
  obtain rfl : s0 = s := Option.some.inj (((findContract_iff _ _).2 h1).symm.trans ((findContract_iff _ _).2 hs))
  have hv := check_in_order (ctx := { ctx with src := src, pt := u }) hh hs' (by rw [hsn]; exact h2) hio
  refine ⟨_, hv, (C38_missing (ctx := { ctx with src := src, pt := u }) hh hs' hv).2, ?_⟩
  obtain ⟨m1, m2, _⟩ := presentAndMissing_missing { ctx with src := src, pt := u } s' fns 0
  intro v
  constructor
  · intro hm
    obtain ⟨f, i, _, hi, e, h5, h6⟩ := m1 v hm
    exact ⟨f, i, by simpa using hi, (h3 f (List.mem_of_getElem? hi)).resolve_right h6, h5, h6, e⟩
  · rintro ⟨f, i, hi, _, h5, h6, rfl⟩
    exact m2 f i (Nat.zero_le _) (by simpa using hi) h5 h6

/-- **C136.** Code is deleted from a Solidity file that conforms to the tree, in which no function of the tree occurs twice.  Then `check` reports exactly the functions of the tree that were
deleted, in the order of the tree (with `-m`, not the modifiers), and nothing else. -/
theorem C136_check {ctx : Context} {n : Str} {fns : List HFn} (hh : ctx.hir = ⟨[⟨n, fns⟩]⟩) (hc : checkCtx ctx = .ok []) {s s' : SolContract} {src : Str} {u : SolUnit}
    (hs : FirstContract ctx.pt s) (hs' : FirstContract u s') (hcut : CutFrom s s') (ho : NoTwice fns s.parts) :
    ∃ vs, checkCtx { ctx with src := src, pt := u } = .ok vs ∧ Increasing (vs.filterMap missingIdx) ∧
      ∀ v, v ∈ vs ↔ ∃ f i, fns[i]? = some f ∧ Present s.parts f ∧ ¬ Present s'.parts f ∧ ¬ (ctx.skipModifiers = true ∧ f.ty = .modifier) ∧
        v = ⟨.matchingFunctionMissing f i, .code ctx.tree f.span.start.line⟩ := by
  obtain ⟨s0, h1, _, _, h4⟩ := (C37_silent_iff hh).1 hc
  obtain rfl : s0 = s := Option.some.inj (((findContract_iff _ _).2 h1).symm.trans ((findContract_iff _ _).2 hs))
  exact left_check hh hc hs hs' hcut.name (cut_inOrder hcut.parts ho h4)

/-- What `check --fix` then does, if the functions of the tree that are left are in order. -/
theorem left_fix [LawfulUcd] {P : SolParser} {G : SolGrammar} (hG : G.HasGenerated) (hP : Reader P G) {ctx : Context} {n : Str} {fns : List HFn} (hh : ctx.hir = ⟨[⟨n, fns⟩]⟩)
    (hc : checkCtx ctx = .ok []) (hf : ∀ f ∈ fns, ReadableFn f) (hd : Distinct fns) {s : SolContract} (hs : FirstContract ctx.pt s) {L : Layout} (hL : L.Fits G)
    (hb : '{' ∉ L.header) (hsn : L.contract.name = s.name) (hio : InOrder fns L.parts) (hm : ¬ (ctx.skipModifiers = true ∧ BehindMissing fns L)) {u : SolUnit} (hu : P L.text = some u) :
    ∃ (L' : Layout) (u' : SolUnit) (k : Nat), fixContext P { ctx with src := L.text, pt := u } = .ok ({ ctx with src := L'.text, pt := u' }, k) ∧ L'.Fits G ∧
      FirstContract u' L'.contract ∧ L'.before = L.before ∧ L'.header = L.header ∧ L'.rest = L.rest ∧ L.text.Sublist L'.text ∧
      (L.segs.map Prod.fst).Sublist (L'.segs.map Prod.fst) ∧
      (∃ new : List HFn, new.Sublist fns ∧ (∀ f ∈ fns, f ∈ new ↔ Present s.parts f ∧ ¬ Present L.parts f ∧ ¬ (ctx.skipModifiers = true ∧ f.ty = .modifier)) ∧
        (L'.segs.map Prod.fst).Perm (L.segs.map Prod.fst ++ new.map newSeg) ∧
        ∀ i f, fns[i]? = some f → f ∈ new → (i = 0 → At L'.parts f 0) ∧ ∀ j g, i = j + 1 → fns[j]? = some g → ∃ a, At L'.parts g a ∧ At L'.parts f (a + 1)) ∧
      checkCtx { ctx with src := L'.text, pt := u' } = .ok [] := by
  obtain ⟨s0, h1, h2, h3, h4⟩ := (C37_silent_iff hh).1 hc
  obtain rfl : s0 = s := Option.some.inj (((findContract_iff _ _).2 h1).symm.trans ((findContract_iff _ _).2 hs))
  have hfc : FirstContract u L.contract := reader_first hP hL hu
  obtain ⟨vs, hv, _⟩ := left_check (src := L.text) hh hc hs hfc hsn hio
  obtain ⟨L', u', h5, h6, h7, h8, h9⟩ := C91_fix_missing hG hP (ctx := { ctx with src := L.text, pt := u }) hh hf hL hL rfl hu
    (.same (by intro m hm'; exact h2 m (hsn ▸ hm'))) hb (by
    intro i f g hf hg hsk hty hnp hrep
    refine hm ⟨hsk, i, f, g, hf, hg, hty, ?_, hnp, hrep.1⟩
    cases hgt : g.ty with
    | function => rfl
    | modifier => exact absurd ⟨hsk, hgt⟩ hrep.2) hd hio hv
  refine ⟨L', u', vs.length, h5, h6, h7, h8.same.1, h8.same.2.2.1, h8.same.2.2.2, h8.text, h8.kept, ⟨_, List.filter_sublist, fun f hf' => ?_, h8.only, fun i f hi hn => ?_⟩, h9⟩
  · constructor
    · intro h
      have h' : Reported ctx.skipModifiers L f := of_decide_eq_true (List.mem_filter.1 h).2
      exact ⟨(h3 f hf').resolve_right h'.2, h'.1, h'.2⟩
    · exact fun h => List.mem_filter.2 ⟨hf', decide_eq_true (show Reported ctx.skipModifiers L f from ⟨h.2.1, h.2.2⟩)⟩
  · exact h8.placed hd i f hi (of_decide_eq_true (List.mem_filter.1 hn).2)

/-- **C136**, fixing: in a valid file, `check --fix` then adds exactly the deleted functions of the tree again, each directly behind its predecessor in the tree, keeps everything that was left, and ends
with a file that conforms to the tree. -/
theorem C136_fix [LawfulUcd] {P : SolParser} {G : SolGrammar} (hG : G.HasGenerated) (hP : Reader P G) {ctx : Context} {n : Str} {fns : List HFn} (hh : ctx.hir = ⟨[⟨n, fns⟩]⟩)
    (hc : checkCtx ctx = .ok []) (hf : ∀ f ∈ fns, ReadableFn f) (hd : Distinct fns) {s : SolContract} (hs : FirstContract ctx.pt s) (ho : NoTwice fns s.parts) {L : Layout} (hL : L.Fits G)
    (hb : '{' ∉ L.header) (hcut : CutFrom s L.contract) (hm : ¬ (ctx.skipModifiers = true ∧ BehindMissing fns L)) {u : SolUnit} (hu : P L.text = some u) :
    ∃ (L' : Layout) (u' : SolUnit) (k : Nat), fixContext P { ctx with src := L.text, pt := u } = .ok ({ ctx with src := L'.text, pt := u' }, k) ∧ L'.Fits G ∧
      FirstContract u' L'.contract ∧ L'.before = L.before ∧ L'.header = L.header ∧ L'.rest = L.rest ∧ L.text.Sublist L'.text ∧
      (L.segs.map Prod.fst).Sublist (L'.segs.map Prod.fst) ∧
      (∃ new : List HFn, new.Sublist fns ∧ (∀ f ∈ fns, f ∈ new ↔ Present s.parts f ∧ ¬ Present L.parts f ∧ ¬ (ctx.skipModifiers = true ∧ f.ty = .modifier)) ∧
        (L'.segs.map Prod.fst).Perm (L.segs.map Prod.fst ++ new.map newSeg) ∧
        ∀ i f, fns[i]? = some f → f ∈ new → (i = 0 → At L'.parts f 0) ∧ ∀ j g, i = j + 1 → fns[j]? = some g → ∃ a, At L'.parts g a ∧ At L'.parts f (a + 1)) ∧
      checkCtx { ctx with src := L'.text, pt := u' } = .ok [] := by
  obtain ⟨s0, h1, _, _, h4⟩ := (C37_silent_iff hh).1 hc
  obtain rfl : s0 = s := Option.some.inj (((findContract_iff _ _).2 h1).symm.trans ((findContract_iff _ _).2 hs))
  exact left_fix hG hP hh hc hf hd hs hL hb hcut.name (cut_inOrder hcut.parts ho h4) hm hu

variable [LawfulUcd]

omit [LawfulUcd] in
/-- **C136**, working: deleting code is a step of a session in the sense of C102. -/
theorem C136_step {env : Env} {G : SolGrammar} {x : Str} {t p : FPath} {fs : Fs} {text n : Str} {fns : List HFn} (h1 : fs.state t = .text text)
    (ht : translate env.order .default text = .ok ⟨[⟨n, fns⟩]⟩) {L L' : Layout} (hi : InOrder fns L.parts) (ho : NoTwice fns L.parts) (hcut : CutFrom L.contract L'.contract) (hL : L'.Fits G)
    (hb : '{' ∉ L'.header) (hn : L.name = some (sanitize n)) : Step env G x t p fs (put fs p L'.text) :=
  .edit h1 ht hL hb (hcut.name.trans hn) (cut_inOrder hcut.parts ho hi)

/-- How `check` then exits, if the functions of the tree that are left are in order. -/
theorem left_exit {env : Env} {a : CheckArgs} {fs fs' : Fs} (hf : a.fix = false) {w p : FPath} (hta : w ∈ a.files) (hsol : SolOf w p) (htree : ∀ t ∈ a.files, fs'.state t = fs.state t)
    (hs : ∀ t ∈ a.files, t ≠ w → ∀ q, SolOf t q → fs'.state q = fs.state q) {text : Str} {n : Str} {fns : List HFn} (h1 : fs.state w = .text text)
    (ht : translate env.order .default text = .ok ⟨[⟨n, fns⟩]⟩) {src src' : Str} {u u' : SolUnit} {s s' : SolContract} (k1 : fs.state p = .text src) (k2 : fs'.state p = .text src')
    (k3 : env.solParse src = some u) (k4 : env.solParse src' = some u') (k5 : FirstContract u s) (k6 : FirstContract u' s') (hsn : s'.name = s.name) (hio : InOrder fns s'.parts)
    (h0 : (checkRun env a fs).exit = .code 0) :
    ((∃ f ∈ fns, Present s.parts f ∧ ¬ Present s'.parts f ∧ ¬ (a.skipModifiers = true ∧ f.ty = .modifier)) → (checkRun env a fs').exit = .code 1) ∧
    ((∀ f ∈ fns, Present s.parts f → Present s'.parts f ∨ (a.skipModifiers = true ∧ f.ty = .modifier)) → (checkRun env a fs').exit = .code 0) := by
  have hp : ∀ t ∈ a.files, ∃ ctx, Opens env a.skipModifiers fs t ctx ∧ checkCtx ctx = .ok [] := by
    rcases C51_exit (env := env) (fs := fs) hf with ⟨_, h⟩ | ⟨h, _⟩ | ⟨h, _⟩
    · exact h
    · rw [h0] at h; cases h
    · rw [h0] at h; cases h
  obtain ⟨ctx, ho1, hc⟩ := hp w hta
  rw [opens_unique ho1 ⟨text, _, p, src, u, h1, ht, hsol, k1, k3, rfl⟩] at hc
  have ho2 : Opens env a.skipModifiers fs' w ⟨w.str, ⟨[⟨n, fns⟩]⟩, p.str, src', u', a.skipModifiers⟩ := ⟨text, _, p, src', u', (htree w hta).trans h1, ht, hsol, k2, k4, rfl⟩
  have hothers : ∀ t ∈ a.files, t ≠ w → ∃ ctx, Opens env a.skipModifiers fs' t ctx ∧ checkCtx ctx = .ok [] := by
    intro t hta hne
    obtain ⟨ctx, ⟨text0, hir, q, src, u, m1, m2, m3, m4, m5, rfl⟩, mc⟩ := hp t hta
    exact ⟨_, ⟨text0, hir, q, src, u, (htree t hta).trans m1, m2, m3, (hs t hta hne q m3).trans m4, m5, rfl⟩, mc⟩
  obtain ⟨vs, hv, _, hvs⟩ := left_check (ctx := ⟨w.str, ⟨[⟨n, fns⟩]⟩, p.str, src, u, a.skipModifiers⟩) (src := src') rfl hc k5 k6 hsn hio
  have npanic : ∀ t ∈ a.files, ∀ ctx, Opens env a.skipModifiers fs' t ctx → checkCtx ctx ≠ .panic := by
    intro t hta ctx h e
    by_cases hne : t = w
    · subst hne
      rw [opens_unique h ho2] at e
      exact nomatch hv.symm.trans e
    · obtain ⟨c, m1, m2⟩ := hothers t hta hne
      rw [opens_unique h m1, m2] at e
      cases e
  constructor
  · rintro ⟨f, hfm, g1, g2, g3⟩
    obtain ⟨i, hi⟩ := List.getElem?_of_mem hfm
    have hmem := (hvs _).2 ⟨f, i, hi, g1, g2, g3, rfl⟩
    rcases C51_exit (env := env) (fs := fs') hf with ⟨_, h⟩ | ⟨e, _⟩ | ⟨_, t, hta', ctx, m1, m2⟩
    · obtain ⟨c, m1, m2⟩ := h w hta
      rw [opens_unique m1 ho2] at m2
      cases hv.symm.trans m2
      cases hmem
    · exact e
    · exact absurd m2 (npanic t hta' ctx m1)
  · intro hall
    have hnil : vs = [] := List.eq_nil_iff_forall_not_mem.2 fun v hm => by
      obtain ⟨f, i, g1, g2, g3, g4, _⟩ := (hvs v).1 hm
      exact (hall f (List.mem_of_getElem? g1) g2).elim g3 g4
    rcases C51_exit (env := env) (fs := fs') hf with ⟨e, _⟩ | ⟨_, _, t, hta', h⟩ | ⟨_, t, hta', ctx, m1, m2⟩
    · exact e
    · by_cases hne : t = w
      · subst hne
        exact absurd (hnil ▸ hv) (h _ ho2)
      · obtain ⟨c, m1, m2⟩ := hothers t hta' hne
        exact absurd m2 (h c m1)
    · exact absurd m2 (npanic t hta' ctx m1)

/-- A file that `check` accepts has the functions of its tree in order. -/
theorem passes_inOrder {env : Env} {a : CheckArgs} {fs : Fs} (hf : a.fix = false) {w p : FPath} (hta : w ∈ a.files) (hsol : SolOf w p) {text : Str} {n : Str} {fns : List HFn}
    (h1 : fs.state w = .text text) (ht : translate env.order .default text = .ok ⟨[⟨n, fns⟩]⟩) {src : Str} {u : SolUnit} {s : SolContract} (k1 : fs.state p = .text src)
    (k3 : env.solParse src = some u) (k5 : FirstContract u s) (h0 : (checkRun env a fs).exit = .code 0) : InOrder fns s.parts := by
  rcases C51_exit (env := env) (fs := fs) hf with ⟨_, h⟩ | ⟨h, _⟩ | ⟨h, _⟩
  · obtain ⟨ctx, ho1, hc⟩ := h w hta
    rw [opens_unique ho1 ⟨text, _, p, src, u, h1, ht, hsol, k1, k3, rfl⟩] at hc
    obtain ⟨s0, m1, _, _, m4⟩ := (C37_silent_iff (ctx := ⟨w.str, ⟨[⟨n, fns⟩]⟩, p.str, src, u, a.skipModifiers⟩) rfl).1 hc
    obtain rfl : s0 = s := Option.some.inj (((findContract_iff _ _).2 m1).symm.trans ((findContract_iff _ _).2 k5))
    exact m4
  · rw [h0] at h; cases h
  · rw [h0] at h; cases h

/-- **C136**, commands: `check` succeeds; then code is deleted from one of the Solidity files.  It exits with 1 if a function of the tree was deleted (with `-m`, a test), else it still succeeds. -/
theorem C136_exit {env : Env} {a : CheckArgs} {fs fs' : Fs} (hf : a.fix = false) {w p : FPath} (hta : w ∈ a.files) (hsol : SolOf w p) (htree : ∀ t ∈ a.files, fs'.state t = fs.state t)
    (hs : ∀ t ∈ a.files, t ≠ w → ∀ q, SolOf t q → fs'.state q = fs.state q) {text : Str} {n : Str} {fns : List HFn} (h1 : fs.state w = .text text)
    (ht : translate env.order .default text = .ok ⟨[⟨n, fns⟩]⟩) {src src' : Str} {u u' : SolUnit} {s s' : SolContract} (k1 : fs.state p = .text src) (k2 : fs'.state p = .text src')
    (k3 : env.solParse src = some u) (k4 : env.solParse src' = some u') (k5 : FirstContract u s) (k6 : FirstContract u' s') (hcut : CutFrom s s') (ho : NoTwice fns s.parts)
    (h0 : (checkRun env a fs).exit = .code 0) :
    ((∃ f ∈ fns, Present s.parts f ∧ ¬ Present s'.parts f ∧ ¬ (a.skipModifiers = true ∧ f.ty = .modifier)) → (checkRun env a fs').exit = .code 1) ∧
    ((∀ f ∈ fns, Present s.parts f → Present s'.parts f ∨ (a.skipModifiers = true ∧ f.ty = .modifier)) → (checkRun env a fs').exit = .code 0) := by
  refine left_exit hf hta hsol htree hs h1 ht k1 k2 k3 k4 k5 k6 hcut.name ?_ h0
  exact cut_inOrder hcut.parts ho (passes_inOrder hf hta hsol h1 ht k1 k3 k5 h0)

end
end Bulloak
