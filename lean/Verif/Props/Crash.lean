import Verif.Props.Keep
import Verif.Lemmas.Crash
/-!
# Exactly when fixing crashes: C106
-/

namespace Bulloak
open Spec
set_option linter.unusedSectionVars false

section
variable [U : Ucd]

theorem seats_of {fns : List HFn} (hf : ∀ f ∈ fns, ReadableFn f) (hd : Distinct fns) {L : Layout} (hD : DeclaredOnce fns L)
    {skip : Bool} {k : Nat} {L' : Layout} (h : Filling skip fns L k L') : ∃ ks, Seats fns L' ks := by
  have hstart := grown_starts (filling_grown h) hD.starts
  have hocc := declared_occ hf hd hD h
  let own : Nat → Bool := fun k => decide (∃ f ∈ fns, ∃ p, L'.segs[k]? = some p ∧ p.1.Is f)
  refine ⟨(List.range L'.segs.length).filter own, ?_, ?_, ?_⟩
  · intro k s g hs
    have hlt := (List.getElem?_eq_some_iff.1 hs).1
    rw [List.mem_filter]
    simp only [List.mem_range, hlt, true_and, own, decide_eq_true_eq]
    constructor
    · rintro ⟨f, hfm, p, hp, hi⟩
      rw [hs] at hp
      cases hp
      exact ⟨f, hfm, hi⟩
    · rintro ⟨f, hfm, hi⟩
      exact ⟨f, hfm, _, hs, hi⟩
  · intro k hk
    exact List.mem_range.1 (List.mem_filter.1 hk).1
  · intro k hk
    obtain ⟨f, hfm, ⟨s, g⟩, hs, hi⟩ := of_decide_eq_true (List.mem_filter.1 hk).2
    refine ⟨s, g, declOf f, hs, hstart s (List.mem_map.2 ⟨_, List.mem_of_getElem? hs, rfl⟩) f hfm hi, decl_ne f, ?_, ?_, decl_space (hf f hfm).name.1, hocc f hfm⟩
    · rw [declOf_eq, List.length_append, List.length_cons]; simp; omega
    · obtain ⟨x, t, hd, hx⟩ := decl_head f
      rw [hd]
      rcases hx with rfl | rfl <;> simp

theorem order_kinds {ctx : Context} {n : Str} {fns : List HFn} (hh : ctx.hir = ⟨[⟨n, fns⟩]⟩) {s : SolContract}
    (hpt : FirstContract ctx.pt s) {vs : List Violation} (hv : checkCtx ctx = .ok vs) :
    sortParts ((vs.filter (fun v => v.kind.isOrder)).map Violation.kind) s.parts =
      movesFrom s.parts (unsortedPairs (presentAndMissing ctx s 0 fns).1) s.parts := by
  obtain ⟨v1, v3, h1, rfl, hv3⟩ := check_report hh hpt hv
  have e : (v1 ++ ((presentAndMissing ctx s 0 fns).2 ++ v3)).filter (fun v => v.kind.isOrder) = v3 := by
    have e1 : v1.filter (fun v => v.kind.isOrder) = [] := by
      rcases names_report h1 with ⟨rfl, _⟩ | ⟨_, _, _, _, _, rfl⟩ <;> rfl
    have e2 : (presentAndMissing ctx s 0 fns).2.filter (fun v => v.kind.isOrder) = [] := by
      apply List.filter_eq_nil_iff.2
      intro v hv
      obtain ⟨f, i, _, _, rfl, _⟩ := (presentAndMissing_missing ctx s fns 0).1 v hv
      simp [ViolationKind.isOrder]
    have e3 : v3.filter (fun v => v.kind.isOrder) = v3 := by
      apply List.filter_eq_self.2
      intro v hv
      obtain ⟨p, _, g, line, _, _, rfl⟩ := each_mem_right hv3 hv
      rfl
    rw [List.filter_append, List.filter_append, e1, e2, e3]; rfl
  rw [e, sortParts_moves hv3]

theorem misplaced_iff {fns : List HFn} {parts : List SolPart} : InOrder fns parts ↔ ∀ i, ¬ Misplaced fns parts i := by
  rw [inOrder_iff]
  constructor
  · rintro h i ⟨f, a, j, g, b, hf, ha, hij, hg, hb, hlt⟩
    have := h i j f g hij hf hg a b ha hb
    omega
  · intro h i j f g hij hf hg a b ha hb
    exact Nat.le_of_not_lt fun hlt => h i ⟨f, a, j, g, b, hf, ha, hij, hg, hb, hlt⟩

theorem misplaced_pair {ctx : Context} {s : SolContract} {fns : List HFn} {i : Nat} :
    Misplaced fns s.parts i ↔ ∃ a, (i, a) ∈ unsortedPairs (presentAndMissing ctx s 0 fns).1 := by
  constructor
  · rintro ⟨f, a, j, g, b, hf, ha, hij, hg, hb, hlt⟩
    exact ⟨a, (mem_inversions ctx s fns i a).2 ⟨f, hf, ha, j, g, b, hij, hg, hb, hlt⟩⟩
  · rintro ⟨a, h⟩
    obtain ⟨f, hf, ha, j, g, b, hij, hg, hb, hlt⟩ := (mem_inversions ctx s fns i a).1 h
    exact ⟨f, a, j, g, b, hf, ha, hij, hg, hb, hlt⟩

/-- **C106.** On a valid ASCII file (whatever its contract has besides functions of the tree, each of which is declared at most once, and in whatever order), `check --fix`
crashes exactly if it is called with `-m` and a missing test comes directly behind a missing modifier in the tree, or a function that has to be moved has an index in the tree that is
not less than the number of parts of the contract. If it does not crash, it writes a valid file. -/
theorem C106_crash_iff {P : SolParser} {G : SolGrammar} (hG : G.HasGenerated) (hP : Reader P G) {n : Str} {fns : List HFn} {ctx : Context}
    (hh : ctx.hir = ⟨[⟨n, fns⟩]⟩) (hf : ∀ f ∈ fns, ReadableFn f) {L L1 : Layout} (hL : L.Fits G) (hL1 : L1.Fits G) (hsrc : ctx.src = L.text)
    (hpt : P ctx.src = some ctx.pt) (hr : Renamed (sanitize n) L L1) (hb : '{' ∉ L1.header) (hd : Distinct fns)
    (hm : Mixed fns L) (hA : Ascii L.text) (hA1 : Ascii L1.text) (hF : ∀ f ∈ fns, Ascii (emitFunction f)) (hD : DeclaredOnce fns L1) :
    (fixContext P ctx = .panic ↔ (ctx.skipModifiers = true ∧ BehindMissing fns L) ∨
      ∃ i, ToMove ctx.skipModifiers fns L i ∧ filledCount ctx.skipModifiers fns L ≤ i) ∧
    (fixContext P ctx ≠ .panic → ∃ (L' : Layout) (u : SolUnit) (vs : List Violation), checkCtx ctx = .ok vs ∧
      fixContext P ctx = .ok ({ ctx with src := L'.text, pt := u }, vs.length) ∧ L'.Fits G ∧ FirstContract u L'.contract) := by
  have ht : ∀ s ∈ L.segs.map Prod.fst, s.text ≠ [] := by
    intro s hsm e
    obtain ⟨p, hp, rfl⟩ := List.mem_map.1 hsm
    obtain ⟨c, r, h, _⟩ := (hL.segs p hp).1.1
    rw [e] at h; cases h
  have hpt' := reader_first hP hL (by rw [← hsrc]; exact hpt)
  have hl0 := ascii_lines hA ht
  obtain ⟨vs, hv⟩ := check_total hh hpt' (by rw [hsrc]; exact hl0.1) (by rw [hsrc]; exact hl0.2)
  by_cases hbm : ctx.skipModifiers = true ∧ BehindMissing fns L
  · have hp := behind_panic hG hP hh hf hL hL1 hsrc hpt hr hb hv hbm
    exact ⟨⟨fun _ => .inl hbm, fun _ => hp⟩, fun h => absurd hp h⟩
  obtain ⟨L', u, h1, h2, hfl, h4⟩ := C43_missing_partial hh hsrc hpt' hr hb (fun _ _ h => hP _ (filling_fits hG hf hL1 h)) (by
    intro i f g hf hg hs hty hnp hrep
    refine hbm ⟨hs, i, f, g, hf, hg, hty, ?_, hnp, hrep.1⟩
    cases hgt : g.ty with
    | function => rfl
    | modifier => exact absurd ⟨hs, hgt⟩ hrep.2) hv
  have hg := filling_grown hfl
  obtain ⟨ks, hks⟩ := seats_of hf hd hD hfl
  have hfit := filling_fits hG hf hL1 hfl
  have hl1 := ascii_lines (grown_ascii hg hA1 hF) (grown_ne hg (by rw [renamed_segs hr]; exact ht))
  have hh' : ({ ctx with src := L'.text, pt := u } : Context).hir = ⟨[⟨n, fns⟩]⟩ := hh
  obtain ⟨vs', hv'⟩ := check_total (ctx := { ctx with src := L'.text, pt := u }) hh' h2 hl1.1 hl1.2
  have hmove : ∀ i, Misplaced fns L'.parts i ↔ ToMove ctx.skipModifiers fns L i := by
    intro i
    rw [filled_misplaced hd hfl]
    simp only [ToMove, Misplaced, renamed_at hr, renamed_reported hr]
  have hcount : L'.segs.length = filledCount ctx.skipModifiers fns L := by
    have := h4.only.length_eq
    rw [renamed_segs hr] at this
    simp only [List.length_map, List.length_append, renamed_reported hr] at this
    exact this
  have hpl : L'.contract.parts.length = L'.segs.length := partsFrom_length _ _
  by_cases hord : InOrder fns L'.parts
  · have hfix : fixContext P ctx = .ok ({ ctx with src := L'.text, pt := u }, vs.length) := by
      unfold fixContext
      simp only [hv, Res.bind_ok, h1, hv', all_fixable hh hpt' hv]
      rw [(order_filter hh' h2 hv').2 hord]
      rfl
    refine ⟨⟨fun h => by (rw [hfix] at h; cases h), ?_⟩, fun _ => ⟨L', u, vs, hv, hfix, hfit, h2⟩⟩
    rintro (h | ⟨i, hi, _⟩)
    · exact absurd h hbm
    · exact absurd ((hmove i).2 hi) (misplaced_iff.1 hord i)
  have hnil : ¬ (vs'.filter (fun v => v.kind.isOrder)).isEmpty = true := fun e => hord ((order_filter hh' h2 hv').1 (List.isEmpty_iff.1 e))
  have hfc : ctx.hir.findContract = some ⟨n, fns⟩ := by rw [hh]; rfl
  by_cases hlow : ∃ i, ToMove ctx.skipModifiers fns L i ∧ filledCount ctx.skipModifiers fns L ≤ i
  · have hp : fixContext P ctx = .panic := by
      unfold fixContext
      simp only [hv, Res.bind_ok, h1, hv', all_fixable hh hpt' hv]
      simp only [hnil, (findContract_iff _ _).2 h2, hfc, fixOrder, fixOrderSource]
      rw [order_kinds hh' h2 hv', moves_panic rfl]
      · rfl
      · rintro ⟨i, a⟩ hp
        obtain ⟨f, hf, ⟨⟨p, hpa, _⟩, _⟩, _⟩ := (mem_inversions _ L'.contract fns i a).1 hp
        exact (List.getElem?_eq_some_iff.1 hpa).1
      · obtain ⟨i, hi, hle⟩ := hlow
        obtain ⟨a, ha⟩ := (misplaced_pair (s := L'.contract)).1 ((hmove i).2 hi)
        exact ⟨(i, a), ha, by rw [hpl, hcount]; exact hle⟩
    exact ⟨⟨fun _ => .inr hlow, fun _ => hp⟩, fun h => absurd hp h⟩
  · have hm' : Mixed fns L' := grown_mixed hg ⟨by rw [renamed_segs hr]; exact hm.named, by rw [renamed_segs hr]; exact hm.own⟩
    obtain ⟨rs, hrs, hlt, hex, hfix⟩ := hks.source (ctx := { ctx with src := L'.text, pt := u }) hh' rfl h2 hm' hord (by
      rintro ⟨i, a⟩ hp
      rw [hcount]
      exact Nat.lt_of_not_le fun hle => hlow ⟨i, (hmove i).1 (misplaced_pair.2 ⟨a, hp⟩), hle⟩) hv'
    have hfit' := sortedLayout_fits hfit (rs.filter (fun k => decide (k ∈ ks)))
    obtain ⟨u', hu', hfc'⟩ := hP _ hfit'
    have hok : fixContext P ctx = .ok ({ ctx with src := (sortedLayout L' (rs.filter (fun k => decide (k ∈ ks)))).text, pt := u' }, vs.length) := by
      unfold fixContext
      simp only [hv, Res.bind_ok, h1, hv', all_fixable hh hpt' hv]
      simp only [hnil, (findContract_iff _ _).2 h2, hfc, fixOrder]
      simp only at hfix
      simp only [hfix, Res.bind_ok, reparse, hu']
      rfl
    refine ⟨⟨fun h => by (rw [hok] at h; cases h), ?_⟩, fun _ => ⟨_, u', vs, hv, hok, hfit', hfc'⟩⟩
    rintro (h | h)
    · exact absurd h hbm
    · exact absurd h hlow

theorem keepKnown_unnamed {names : List Str} : ∀ {ps : List SolPart} {g : SolFn}, SolPart.fn g ∈ ps → g.name = none → keepKnown names ps = .panic
  | [], _, h, _ => nomatch h
  | .other .. :: ps, g, h, hg => by
    rw [keepKnown]
    exact keepKnown_unnamed (g := g) (by simpa using h) hg
  | .fn f :: ps, g, h, hg => by
    rw [keepKnown]
    cases hf : f.name with
    | none => rfl
    | some m =>
      have : SolPart.fn g ∈ ps := by
        rcases List.mem_cons.1 h with e | h
        · cases e; rw [hg] at hf; cases hf
        · exact h
      simp only [keepKnown_unnamed this hg]
      rfl

/-- **C106, functions without a name.** On a valid ASCII file whose contract has a constructor, a fallback or a receive function, and in which no three functions of the tree are reversed,
`check --fix` without `-m` crashes exactly if the functions of the tree are not in order. -/
theorem C106_unnamed {P : SolParser} {G : SolGrammar} (hG : G.HasGenerated) (hP : Reader P G) {n : Str} {fns : List HFn} {ctx : Context}
    (hh : ctx.hir = ⟨[⟨n, fns⟩]⟩) (hf : ∀ f ∈ fns, ReadableFn f) {L L1 : Layout} (hL : L.Fits G) (hL1 : L1.Fits G) (hsrc : ctx.src = L.text)
    (hpt : P ctx.src = some ctx.pt) (hr : Renamed (sanitize n) L L1) (hb : '{' ∉ L1.header) (hsk : ctx.skipModifiers = false) (hd : Distinct fns)
    (h3 : NoReversedTriple fns L.parts) (hA : Ascii L.text) (hA1 : Ascii L1.text) (hF : ∀ f ∈ fns, Ascii (emitFunction f)) (hD : DeclaredOnce fns L1)
    {ty : SolFnTy} {t : Str} (hu : Seg.fn ty none t ∈ L.segs.map Prod.fst) :
    fixContext P ctx = .panic ↔ ¬ InOrder fns L.parts := by
  have ht : ∀ s ∈ L.segs.map Prod.fst, s.text ≠ [] := by
    intro s hsm e
    obtain ⟨p, hp, rfl⟩ := List.mem_map.1 hsm
    obtain ⟨c, r, h, _⟩ := (hL.segs p hp).1.1
    rw [e] at h; cases h
  have hpt' := reader_first hP hL (by rw [← hsrc]; exact hpt)
  have hl0 := ascii_lines hA ht
  obtain ⟨vs, hv⟩ := check_total hh hpt' (by rw [hsrc]; exact hl0.1) (by rw [hsrc]; exact hl0.2)
  constructor
  · intro hp ho
    have := (C93_crash_iff hG hP hh hf hL hL1 hsrc hpt hr hb hd ho hv).1 hp
    rw [hsk] at this
    cases this.1
  intro hno
  obtain ⟨L', u, h1, h2, hfl, h4⟩ := C43_missing_partial hh hsrc hpt' hr hb (fun _ _ h => hP _ (filling_fits hG hf hL1 h)) (by simp [hsk]) hv
  have hg := filling_grown hfl
  rw [hsk] at h4
  have hpres : ∀ f ∈ fns, Present L'.parts f := fun f hf => (h4.present f hf).resolve_right (by simp)
  obtain ⟨ks, hks⟩ := placed_of hf hd hD hfl hpres
  have hl1 := ascii_lines (grown_ascii hg hA1 hF) (grown_ne hg (by rw [renamed_segs hr]; exact ht))
  have hh' : ({ ctx with src := L'.text, pt := u } : Context).hir = ⟨[⟨n, fns⟩]⟩ := hh
  obtain ⟨vs', hv'⟩ := check_total (ctx := { ctx with src := L'.text, pt := u }) hh' h2 hl1.1 hl1.2
  have hord : ¬ InOrder fns L'.parts := by
    rw [misplaced_iff] at hno ⊢
    intro h
    apply hno
    intro i hi
    apply h i
    rw [filled_misplaced hd hfl]
    refine ⟨i, Nat.le_refl i, ?_, fun m h1 h2 => by omega⟩
    simpa only [Misplaced, renamed_at hr] using hi
  have hnil : ¬ (vs'.filter (fun v => v.kind.isOrder)).isEmpty = true := fun e => hord ((order_filter hh' h2 hv').1 (List.isEmpty_iff.1 e))
  have hfc : ctx.hir.findContract = some ⟨n, fns⟩ := by rw [hh]; rfl
  have hpl : L'.parts.length = L'.segs.length := partsFrom_length _ _
  have h3' : No321 ks (List.range L'.segs.length) := hks.no321 (h4.triple hd ((renamed_triple hr fns).2 h3))
  obtain ⟨rs, hrs, hperm, _⟩ := moves_perm hks.nodup List.nodup_range (fun x hx => List.mem_range.2 (hks.lt x hx)) h3'
    (unsortedPairs (presentAndMissing { ctx with src := L'.text, pt := u } L'.contract 0 fns).1) (List.range L'.segs.length) 0 (List.Perm.refl _) rfl
    (fun p hp => ⟨(hks.inv p.1 p.2).1 hp, Nat.zero_le _⟩)
    (List.Pairwise.sublist ((unsorted_sublist _).map Prod.fst) (presentAndMissing_present _ L'.contract fns 0).inc)
  have hlt : ∀ k ∈ rs, k < L'.segs.length := fun k hk => List.mem_range.1 (hperm.mem_iff.1 hk)
  have hsort := order_kinds hh' h2 hv'
  have hmv : movesFrom L'.contract.parts (unsortedPairs (presentAndMissing { ctx with src := L'.text, pt := u } L'.contract 0 fns).1) L'.contract.parts =
      .ok (rs.filterMap (L'.parts[·]?)) := by
    have := moves_map (fun k => L'.parts[k]?.getD (.other 0 0)) _ _ _ hrs
    rw [← filterMap_getD _ _ rs (by rw [hpl]; exact hlt), ← filterMap_getD _ _ _ (by rw [hpl]; exact fun k hk => List.mem_range.1 hk)] at this
    have er := range_filterMap L'.parts
    rw [hpl] at er
    rw [er] at this
    exact this
  rw [hmv] at hsort
  -- the function without a name is still there
  have hin : ∃ g : SolFn, g.name = none ∧ SolPart.fn g ∈ rs.filterMap (L'.parts[·]?) := by
    have hu' : Seg.fn ty none t ∈ L'.segs.map Prod.fst := h4.only.mem_iff.2 (List.mem_append.2 (.inl (by rw [renamed_segs hr]; exact hu)))
    obtain ⟨⟨s, w⟩, hs, e⟩ := List.mem_map.1 hu'
    simp only at e
    subst e
    obtain ⟨k, hk⟩ := List.mem_iff_getElem?.1 hs
    obtain ⟨o, ho⟩ := parts_get L' k
    rw [hk] at ho
    have hkr : k ∈ rs := hperm.mem_iff.2 (List.mem_range.2 (List.getElem?_eq_some_iff.1 hk).1)
    exact ⟨_, rfl, List.mem_filterMap.2 ⟨k, hkr, ho⟩⟩
  obtain ⟨g, hgn, hgm⟩ := hin
  unfold fixContext
  simp only [hv, Res.bind_ok, h1, hv', all_fixable hh hpt' hv]
  simp only [hnil, (findContract_iff _ _).2 h2, hfc, fixOrder, fixOrderSource]
  rw [hsort]
  simp only [Res.bind_ok, keepKnown_unnamed hgm hgn]
  rfl

end
end Bulloak
