import Verif.Spec.Retitle
import Verif.Props.Reword
/-!
# Renaming roots (C114); which contract is checked (C115)
-/

namespace Bulloak
open Spec
set_option linter.unusedSectionVars false

section
variable [U : Ucd]

theorem prefixed_bodies {skip : Bool} {asts asts' : List Ast} (h : Each (fun a a' => RewordedTop (kids a) (kids a')) asts asts')
    (fs : List Str) : Each BodyCommentsOnly (prefixedFns skip (asts.zip fs)) (prefixedFns skip (asts'.zip fs)) := by
  unfold prefixedFns
  induction h generalizing fs with
  | nil => exact .nil
  | cons r _ ih =>
    cases fs with
    | nil => exact .nil
    | cons p fs =>
      simp only [List.zip_cons_cons, List.flatMap_cons]
      exact each_append (each_map (f := prefixFn p) (fun _ _ => prefix_reworded p) (expected_reworded r)) (ih fs)

/-- Two ways to read the same titles. -/
theorem each_splits_unique {n m : Str} {asts : List Ast} {fs gs : List Str} (h : Each (fun a f => Splits (titleOf a) n f) asts fs)
    (h' : Each (fun a f => Splits (titleOf a) m f) asts gs) : fs = gs ∧ (asts ≠ [] → n = m) := by
  induction h generalizing gs with
  | nil => cases h'; exact ⟨rfl, by simp⟩
  | cons r _ ih =>
    cases h' with
    | cons r' h' => obtain ⟨rfl, rfl⟩ := splits_unique r r'; exact ⟨by rw [(ih h').1], fun _ => rfl⟩

/-- The contract of several trees with given names. -/
theorem translate_several [LawfulUcd] {order : HashOrder} {text : Str} {asts : List Ast} {fs : List Str} {n : Str} (h : parse order text = .ok asts) (hl : 2 ≤ asts.length)
    (hn : ¬ Blank n) (hs : Each (fun a f => Splits (titleOf a) n f) asts fs) (cfg : Config) :
    translate order cfg text = .ok ⟨[⟨n, firstOnly (prefixedFns cfg.emitVmSkip (asts.zip fs))⟩]⟩ := by
  obtain ⟨r, hr⟩ := (C28_accepted_iff h cfg).2 (.inr ⟨n, fun a ha => by
    obtain ⟨f, _, hf⟩ := each_mem hs ha
    exact ⟨hn, f, hf⟩⟩)
  obtain ⟨m, gs, hg, rfl⟩ := C29_combined h hl cfg hr
  obtain ⟨rfl, e⟩ := each_splits_unique hs hg
  rw [hr, e (by intro e; rw [e] at hl; simp at hl)]

/-- **C114.** Renaming the root of a tree, or the contract in all roots of a file, renames the contract and nothing else: it has the same functions in the same order with the
same modifiers. -/
theorem C114_functions [LawfulUcd] {order order' : HashOrder} {text text' : Str} {asts asts' : List Ast} (h : parse order text = .ok asts) (h' : parse order' text' = .ok asts')
    {n n' : Str} (hr : RootsRenamed n n' asts asts') (cfg : Config) :
    ∃ fns fns', translate order cfg text = .ok ⟨[⟨n, fns⟩]⟩ ∧ translate order' cfg text' = .ok ⟨[⟨n', fns'⟩]⟩ ∧ Each BodyCommentsOnly fns fns' := by
  cases hr with
  | one e e' hw => exact ⟨_, _, e ▸ translate_single h cfg, e' ▸ translate_single h' cfg, expected_reworded hw⟩
  | many hl hn hn' he =>
    have : ∃ fs, Each (fun a f => Splits (titleOf a) n f) asts fs ∧ Each (fun a f => Splits (titleOf a) n' f) asts' fs ∧
        Each (fun a a' => RewordedTop (kids a) (kids a')) asts asts' := by
      clear hl h h'
      induction he with
      | nil => exact ⟨[], .nil, .nil, .nil⟩
      | cons r _ ih =>
        obtain ⟨⟨f, f1, f2⟩, hw⟩ := r
        obtain ⟨fs, i1, i2, i3⟩ := ih
        exact ⟨f :: fs, .cons f1 i1, .cons f2 i2, .cons hw i3⟩
    obtain ⟨fs, h1, h2, h3⟩ := this
    exact ⟨_, _, translate_several h hl hn h1 cfg, translate_several h' (each_len he ▸ hl) hn' h2 cfg, firstOnly_reworded (prefixed_bodies h3 fs)⟩

/-- The functions of the other tree are there and in order too. -/
theorem conforms_names {fns fns' : List HFn} {parts : List SolPart} {skip : Bool} (h : Each (fun f f' => nameOf f' = nameOf f) fns fns') :
    ((∀ f ∈ fns, Present parts f ∨ (skip = true ∧ f.ty = .modifier)) → ∀ f ∈ fns', Present parts f ∨ (skip = true ∧ f.ty = .modifier)) ∧
    (InOrder fns parts → InOrder fns' parts) := by
  have hp : ∀ {f f' : HFn}, nameOf f' = nameOf f → f.identifier = f'.identifier ∧ f.ty = f'.ty := by
    intro f f' e
    simp only [nameOf, Prod.mk.injEq] at e
    exact ⟨e.2.symm, e.1.symm⟩
  constructor
  · intro hf f' hf'
    obtain ⟨f, hm, e⟩ := each_mem_right h hf'
    obtain ⟨e1, e2⟩ := hp e
    rcases hf f hm with ⟨p, hpp, hmp⟩ | hs
    · exact .inl ⟨p, hpp, (matches_congr e1 e2 p).1 hmp⟩
    · exact .inr ⟨hs.1, e2 ▸ hs.2⟩
  · unfold InOrder
    intro ho
    induction h with
    | nil => exact .nil
    | @cons f f' l l' e he ih =>
      rw [List.pairwise_cons] at ho ⊢
      refine ⟨fun g' hg' i j hi hj => ?_, ih ho.2⟩
      obtain ⟨g, hg, eg⟩ := each_mem_right he hg'
      exact ho.1 g hg i j (at_congr (hp e).1.symm (hp e).2.symm hi) (at_congr (hp eg).1.symm (hp eg).2.symm hj)

theorem bodies_names {fns fns' : List HFn} (h : Each BodyCommentsOnly fns fns') : Each (fun f f' => nameOf f' = nameOf f) fns fns' := by
  induction h with
  | nil => exact .nil
  | cons r _ ih => exact .cons r.name ih

/-- **C114**, reports: for a Solidity file that passed the check before, `check` reports nothing if the names of the contract sanitise to the same identifier, and else just that
the name of the contract differs. -/
theorem C114_check [LawfulUcd] {order order' : HashOrder} {text text' : Str} {asts asts' : List Ast} (h : parse order text = .ok asts) (h' : parse order' text' = .ok asts')
    {n n' : Str} (hr : RootsRenamed n n' asts asts') {cfg : Config} {ctx : Context} {hir' : HRoot} (ht : translate order cfg text = .ok ctx.hir)
    (ht' : translate order' cfg text' = .ok hir') (hc : checkCtx ctx = .ok []) {s : SolContract} (hs : FirstContract ctx.pt s)
    {vs : List Violation} (hv : checkCtx { ctx with hir := hir' } = .ok vs) :
    (sanitize n' = sanitize n ∨ s.name = none) ∧ vs = [] ∨
    sanitize n' ≠ sanitize n ∧ s.name = some (sanitize n) ∧ ∃ line, offsetToLine ctx.src s.start = .ok line ∧
      vs = [⟨.contractNameNotMatches (sanitize n') (sanitize n), .code ctx.sol line⟩] := by
  obtain ⟨fns, fns', h1, h2, h3⟩ := C114_functions h h' hr cfg
  rw [ht] at h1
  rw [ht'] at h2
  cases h2
  have hh := Res.ok.inj h1
  obtain ⟨s', k1, k2, k3, k4⟩ := (C37_silent_iff hh).1 hc
  obtain rfl : s = s' := Option.some.inj (((findContract_iff _ _).2 hs).symm.trans ((findContract_iff _ _).2 k1))
  obtain ⟨c1, c2⟩ := conforms_names (parts := s.parts) (skip := ctx.skipModifiers) (bodies_names h3)
  obtain ⟨v1, v3, g1, rfl, g3⟩ := check_report (ctx := { ctx with hir := ⟨[⟨n', fns'⟩]⟩ }) rfl hs hv
  have hin := inOrder_unsorted (ctx := { ctx with hir := ⟨[⟨n', fns'⟩]⟩ }) (c2 k4)
  rw [hin] at g3
  cases g3
  have hmiss : (presentAndMissing { ctx with hir := ⟨[⟨n', fns'⟩]⟩ } s 0 fns').2 = [] := by
    apply List.eq_nil_iff_forall_not_mem.2
    intro v hv'
    obtain ⟨f, i, _, hf, _, hnp, hnm⟩ := (presentAndMissing_missing { ctx with hir := ⟨[⟨n', fns'⟩]⟩ } s fns' 0).1 _ hv'
    rcases c1 k3 f (List.mem_of_getElem? hf) with hp | hp
    · exact hnp hp
    · exact hnm hp
  rw [hmiss] at hv ⊢
  rcases names_report g1 with ⟨rfl, hname⟩ | ⟨m, line, hm1, hm2, hm3, rfl⟩
  · refine .inl ⟨?_, rfl⟩
    cases hsn : s.name with
    | none => exact .inr rfl
    | some m => exact .inl ((hname m hsn).symm.trans (k2 m hsn))
  · have := k2 m hm1
    subst this
    exact .inr ⟨fun e => hm2 e.symm, hm1, line, hm3, by simp⟩

theorem filling_still {skip : Bool} {fns : List HFn} {L L' : Layout} {k : Nat} (h : Filling skip fns L k L') (hn : ∀ f ∈ fns, ¬ Reported skip L f) : L' = L := by
  induction h with
  | start => rfl
  | insert _ hf hr => exact absurd hr (hn _ (List.mem_of_getElem? hf))
  | keep _ _ _ ih => exact ih

/-- **C114**, fixing: on a valid Solidity file that passed the check before, `check --fix` replaces the name of the contract and changes nothing else; nothing is reported
afterwards. -/
theorem C114_fix [LawfulUcd] {P : SolParser} {G : SolGrammar} (hP : Reader P G) {order order' : HashOrder} {text text' : Str} {asts asts' : List Ast}
    (h : parse order text = .ok asts) (h' : parse order' text' = .ok asts') {n n' : Str} (hr : RootsRenamed n n' asts asts') {cfg : Config} {ctx : Context} {hir' : HRoot}
    (ht : translate order cfg text = .ok ctx.hir) (ht' : translate order' cfg text' = .ok hir') (hc : checkCtx ctx = .ok [])
    {L L1 : Layout} (hL : L.Fits G) (hL1 : L1.Fits G) (hsrc : ctx.src = L.text) (hpt : P ctx.src = some ctx.pt) (hren : Renamed (sanitize n') L L1) (hb : '{' ∉ L1.header)
    {vs : List Violation} (hv : checkCtx { ctx with hir := hir' } = .ok vs) :
    ∃ u, fixContext P { ctx with hir := hir' } = .ok ({ ctx with hir := hir', src := L1.text, pt := u }, vs.length) ∧ FirstContract u L1.contract ∧
      checkCtx { ctx with hir := hir', src := L1.text, pt := u } = .ok [] := by
  obtain ⟨fns, fns', h1, h2, h3⟩ := C114_functions h h' hr cfg
  rw [ht] at h1
  rw [ht'] at h2
  cases h2
  have hh := Res.ok.inj h1
  have hfc : FirstContract ctx.pt L.contract := reader_first hP hL (by rw [← hsrc]; exact hpt)
  obtain ⟨s', k1, k2, k3, k4⟩ := (C37_silent_iff hh).1 hc
  obtain rfl : L.contract = s' := Option.some.inj (((findContract_iff _ _).2 hfc).symm.trans ((findContract_iff _ _).2 k1))
  obtain ⟨c1, c2⟩ := conforms_names (parts := L.contract.parts) (skip := ctx.skipModifiers) (bodies_names h3)
  have hnr : ∀ f ∈ fns', ¬ Reported ctx.skipModifiers L f := by
    intro f hf hrep
    rcases c1 k3 f hf with hp | hp
    · exact hrep.1 hp
    · exact hrep.2 hp
  have hnr1 : ∀ f ∈ fns', ¬ Reported ctx.skipModifiers L1 f := fun f hf hrep => hnr f hf ((renamed_reported hren _ _).1 hrep)
  obtain ⟨L', u, g1, g2, g3, g4⟩ := C43_missing_partial (P := P) (ctx := { ctx with hir := ⟨[⟨n', fns'⟩]⟩ }) rfl hsrc hfc hren hb
    (fun k L' hfill => by rw [filling_still hfill hnr1]; exact hP _ hL1)
    (fun i f g _ hg _ _ _ => hnr g (List.mem_of_getElem? hg)) hv
  obtain rfl := filling_still g3 hnr1
  have hsil : checkCtx { ctx with hir := ⟨[⟨n', fns'⟩]⟩, src := L'.text, pt := u } = .ok [] := by
    apply (C37_silent_iff (ctx := { ctx with hir := ⟨[⟨n', fns'⟩]⟩, src := L'.text, pt := u }) rfl).2
    exact ⟨L'.contract, g2, fun m hm => renamed_name hren m hm, g4.present, (renamed_inOrder hren fns').2 (c2 k4)⟩
  refine ⟨u, ?_, g2, hsil⟩
  unfold fixContext
  simp only [hv, Res.bind_ok] at g1 ⊢
  simp only [g1, Res.bind_ok, hsil, all_fixable (ctx := { ctx with hir := ⟨[⟨n', fns'⟩]⟩ }) rfl hfc hv]
  rfl

theorem present_unit (ctx : Context) (u : SolUnit) (s : SolContract) (fns : List HFn) : ∀ k,
    presentAndMissing { ctx with pt := u } s k fns = presentAndMissing ctx s k fns := by
  induction fns with
  | nil => intro k; rfl
  | cons f fns ih => intro k; simp only [presentAndMissing, ih]

theorem orderViolations_unit (ctx : Context) (u : SolUnit) (h : HContract) (s : SolContract) (l : List (Nat × Nat)) :
    orderViolations { ctx with pt := u } h s l = orderViolations ctx h s l := by
  induction l with
  | nil => rfl
  | cons p l ih => simp only [orderViolations, ih]

/-- **C115**, partial: whatever else is in the file, the report is about the first contract. Missing: the contract with the name of the tree may be another one
(`C115_anywhere_false`, `C115_fix_false`). -/
theorem C115_first_partial {ctx : Context} {u : SolUnit} {s : SolContract} (h : FirstContract ctx.pt s) (h' : FirstContract u s) :
    checkCtx { ctx with pt := u } = checkCtx ctx := by
  unfold checkCtx
  rw [(findContract_iff _ _).2 h, (findContract_iff _ _).2 h']
  simp only [checkFnsStructure, present_unit, orderViolations_unit]
  rfl

/-- **C115**, fixing: if the first contract has another name, it gets the tree's name and the missing functions, and what follows stays, even if that is a contract with the
tree's name. -/
theorem C115_fix_first {P : SolParser} {G : SolGrammar} (hG : G.HasGenerated) (hP : Reader P G) {n : Str} {fns : List HFn} {ctx : Context}
    (hh : ctx.hir = ⟨[⟨n, fns⟩]⟩) (hf : ∀ f ∈ fns, ReadableFn f) {L L1 : Layout} (hL : L.Fits G) (hL1 : L1.Fits G) (hsrc : ctx.src = L.text)
    (hpt : P ctx.src = some ctx.pt) {old : Str} (hname : L.name = some old) (hr : Renamed (sanitize n) L L1) (hb : '{' ∉ L1.header) (hsk : ctx.skipModifiers = false)
    (hd : Distinct fns) (hnone : ∀ f ∈ fns, ¬ Present L.parts f) {vs : List Violation} (hv : checkCtx ctx = .ok vs) :
    ∃ (L' : Layout) (u : SolUnit) (k : Nat), fixContext P ctx = .ok ({ ctx with src := L'.text, pt := u }, k) ∧ L'.name = some (sanitize n) ∧ L'.rest = L.rest ∧
      L'.before = L.before ∧ (∀ f ∈ fns, Present L'.parts f) ∧ (L.segs.map Prod.fst).Sublist (L'.segs.map Prod.fst) := by
  have ho : InOrder fns L.parts := (inOrder_iff fns L.parts).2 (fun i j f g _ hf' _ a b ha _ => absurd (at_present ha) (hnone f (List.mem_of_getElem? hf')))
  obtain ⟨L', u, h1, _, _, h4, _⟩ := C91_fix_missing hG hP hh hf hL hL1 hsrc hpt hr hb (fun i f g _ _ h => by rw [hsk] at h; cases h) hd ho hv
  obtain ⟨e1, e2, _, e4⟩ := h4.same
  refine ⟨L', u, _, h1, ?_, ?_, ?_, ?_, ?_⟩
  · rw [e2]
    cases hr with
    | same h => rw [hname, h old hname]
    | other => rfl
  · rw [e4]; cases hr <;> rfl
  · rw [e1]; cases hr <;> rfl
  · intro f hf'
    rcases h4.present f hf' with hp | hp
    · exact hp
    · rw [hsk] at hp; cases hp.1
  · rw [← renamed_segs hr]; exact h4.kept

end
end Bulloak
