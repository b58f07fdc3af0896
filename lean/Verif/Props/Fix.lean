import Verif.Lemmas.Fix8
/-! # Properties: fixing -/

namespace Bulloak
open Spec
set_option linter.unusedSectionVars false
variable [U : Ucd]

/-- **C43.** Fixing the missing functions: every function of the tree is there afterwards, each inserted function
directly behind its predecessor; nothing else is added, and all text that was there is kept, in order, except for the
name of the contract if that is wrong (`L1` is `L` with the right name).
The Solidity parser is assumed to read the file, and the files with functions inserted, correctly; with `-m`, a
missing function must not directly follow a missing modifier (see `C45_skip_modifiers_false`).
Missing: a `{` in a comment between the name of the contract and its body; the claim is false then (`C43_brace_false`). -/
theorem C43_missing_partial {P : SolParser} {n : Str} {fns : List HFn} {ctx : Context} (hh : ctx.hir = ⟨[⟨n, fns⟩]⟩) {L L1 : Layout}
    (hsrc : ctx.src = L.text) (hpt : FirstContract ctx.pt L.contract) (hr : Renamed (sanitize n) L L1)
    (hb : '{' ∉ L1.header) (hP : ∀ k L', Filling ctx.skipModifiers fns L1 k L' → ReadsAs P L')
    (hm : ∀ i f g, fns[i]? = some f → fns[i + 1]? = some g → ctx.skipModifiers = true → f.ty = .modifier →
      ¬ Present L.parts f → ¬ Reported ctx.skipModifiers L g)
    {vs : List Violation} (hv : checkCtx ctx = .ok vs) :
    ∃ L' u, fixAll P (vs.filter (fun v => !v.kind.isOrder)) ctx = .ok { ctx with src := L'.text, pt := u } ∧
      FirstContract u L'.contract ∧ Filling ctx.skipModifiers fns L1 fns.length L' ∧ Completed ctx.skipModifiers fns L1 L' := by
  obtain ⟨u0, hu0, hround⟩ := rename_round hh hsrc hpt hr (hP 0 L1 .start) hv
  rw [hround _ rfl]
  obtain ⟨L', u, h1, h2, h3, h6, h4, h5⟩ := fill_induct (ctx := { ctx with src := L1.text, pt := u0 }) hh rfl hu0 hb hP
    (by
      intro i f g hf hg hs hty hnp
      rw [renamed_reported hr]
      exact hm i f g hf hg hs hty (by rw [← renamed_present hr]; exact hnp))
    (FillInv ctx.skipModifiers fns L1)
    ⟨by simp, fun _ i _ h => absurd h (Nat.not_lt_zero i), fun _ h => h, fun _ h => h⟩
    (fun k L' f p hQ _ hf hr hpl => fillInv_step hQ hf hr hpl) (fun k L' f hQ _ hf hr => fillInv_skip hQ hf hr)
  refine ⟨L', u, h1, h2, h6, grown_same h3, grown_sublist h3, grown_segs h3, ?_, h4, ?_, h5.order, h5.triple⟩
  · simpa using h5.only
  · intro hd i f hf hr
    exact h5.placed hd i f ((List.getElem?_eq_some_iff.1 hf).1) hf hr

/-- All violations `check` reports about a file with a contract are fixable. -/
theorem all_fixable {ctx : Context} {n : Str} {fns : List HFn} (hh : ctx.hir = ⟨[⟨n, fns⟩]⟩) {s : SolContract}
    (hs : FirstContract ctx.pt s) {vs : List Violation} (hv : checkCtx ctx = .ok vs) :
    vs.filter (fun v => v.kind.isFixable) = vs := by
  obtain ⟨v1, v3, h1, rfl, h3⟩ := check_report hh hs hv
  apply List.filter_eq_self.2
  intro v hv
  rcases List.mem_append.1 hv with hv | hv
  · rcases names_report h1 with ⟨rfl, _⟩ | ⟨_, _, _, _, _, rfl⟩
    · cases hv
    · rw [List.mem_singleton.1 hv]; rfl
  · rcases List.mem_append.1 hv with hv | hv
    · obtain ⟨f, i, _, _, rfl, _⟩ := (presentAndMissing_missing ctx s fns 0).1 v hv
      rfl
    · obtain ⟨p, _, g, line, _, _, rfl⟩ := each_mem_right h3 hv
      rfl

/-- **C43**, then `check`: if the functions that are there come in tree order, `check --fix` succeeds, announces as many
fixes as there were violations, and `check` reports nothing afterwards. -/
theorem C43_then_silent_partial {P : SolParser} {n : Str} {fns : List HFn} {ctx : Context} (hh : ctx.hir = ⟨[⟨n, fns⟩]⟩) {L L1 : Layout}
    (hsrc : ctx.src = L.text) (hpt : FirstContract ctx.pt L.contract) (hr : Renamed (sanitize n) L L1)
    (hb : '{' ∉ L1.header) (hP : ∀ k L', Filling ctx.skipModifiers fns L1 k L' → ReadsAs P L')
    (hm : ∀ i f g, fns[i]? = some f → fns[i + 1]? = some g → ctx.skipModifiers = true → f.ty = .modifier →
      ¬ Present L.parts f → ¬ Reported ctx.skipModifiers L g)
    (hd : Distinct fns) (ho : InOrder fns L.parts) {vs : List Violation} (hv : checkCtx ctx = .ok vs) :
    ∃ L' u, fixContext P ctx = .ok ({ ctx with src := L'.text, pt := u }, vs.length) ∧
      FirstContract u L'.contract ∧ Completed ctx.skipModifiers fns L1 L' ∧ checkCtx { ctx with src := L'.text, pt := u } = .ok [] := by
  obtain ⟨L', u, h1, h2, h3, h4⟩ := C43_missing_partial hh hsrc hpt hr hb hP hm hv
  have hsil : checkCtx { ctx with src := L'.text, pt := u } = .ok [] := by
    apply (C37_silent_iff (ctx := { ctx with src := L'.text, pt := u }) hh).2
    refine ⟨L'.contract, h2, ?_, h4.present, h4.order hd ((renamed_inOrder hr fns).2 ho)⟩
    intro m hm'
    exact renamed_name hr m (by rw [← h4.same.2.1]; exact hm')
  refine ⟨L', u, ?_, h2, h4, hsil⟩
  unfold fixContext
  simp only [hv, Res.bind_ok] at h1 ⊢
  simp only [h1, Res.bind_ok, hsil, all_fixable hh hpt hv]
  rfl

theorem renamed_only {new : Str} {fns : List HFn} {L L1 : Layout} (h : Renamed new L L1) (ho : OnlyTree fns L) : OnlyTree fns L1 :=
  ⟨by rw [renamed_segs h]; exact ho.own, by rw [renamed_segs h]; exact ho.once⟩

/-- **C44** (restricted).  A contract made of functions of the tree, any of them, in any order without three of them
being reversed: `check --fix` adds the missing functions and sorts all of them; none is lost or duplicated, the text of
each is kept, and `check` reports nothing afterwards.
Missing: contracts with other parts, and contracts with reversed triples, for which the claim is false
(`C44_reversed_false`, `C44_other_parts_false`). -/
theorem C44_order_partial {P : SolParser} {n : Str} {fns : List HFn} {ctx : Context} (hh : ctx.hir = ⟨[⟨n, fns⟩]⟩) {L L1 : Layout}
    (hsrc : ctx.src = L.text) (hpt : FirstContract ctx.pt L.contract) (hr : Renamed (sanitize n) L L1)
    (hb : '{' ∉ L1.header) (hsk : ctx.skipModifiers = false) (hd : Distinct fns) (hown : OnlyTree fns L)
    (h3 : NoReversedTriple fns L.parts) (hA : Ascii L.text) (hA1 : Ascii L1.text) (hF : ∀ f ∈ fns, Ascii (emitFunction f))
    (ht : ∀ s ∈ L.segs.map Prod.fst, s.text ≠ []) (hP : ∀ k L', Filling false fns L1 k L' → ReadsAs P L')
    (hP' : ∀ L', Filling false fns L1 fns.length L' → Separate L' ∧ ∀ ss, Each Seg.Is fns ss → ss.Perm (L'.segs.map Prod.fst) →
      ReadsAs P (L'.reordered ss)) :
    ∃ L' L'' u vs, checkCtx ctx = .ok vs ∧ fixContext P ctx = .ok ({ ctx with src := L''.text, pt := u }, vs.length) ∧
      FirstContract u L''.contract ∧ Filling false fns L1 fns.length L' ∧ Completed false fns L1 L' ∧
      (L'' = L' ∨ L'' = L'.reordered (L''.segs.map Prod.fst)) ∧
      (L''.segs.map Prod.fst).Perm (L'.segs.map Prod.fst) ∧ Each Seg.Is fns (L''.segs.map Prod.fst) ∧
      checkCtx { ctx with src := L''.text, pt := u } = .ok [] := by
  have hl0 := ascii_lines hA ht
  obtain ⟨vs, hv⟩ := check_total hh hpt (by rw [hsrc]; exact hl0.1) (by rw [hsrc]; exact hl0.2)
  obtain ⟨L', u, h1, h2, hfl, h4⟩ := C43_missing_partial hh hsrc hpt hr hb (by rw [hsk]; exact hP) (by simp [hsk]) hv
  rw [hsk] at h4 hfl
  have hg := filling_grown hfl
  have hpres : ∀ f ∈ fns, Present L'.parts f := fun f hf => (h4.present f hf).resolve_right (by simp)
  have hlen := onlyTree_length hd (renamed_only hr hown) h4 hpres
  obtain ⟨ks, hks⟩ := shuffled_of hd hpres hlen
  have hl1 := ascii_lines (grown_ascii hg hA1 hF) (grown_ne hg (by rw [renamed_segs hr]; exact ht))
  have hh' : ({ ctx with src := L'.text, pt := u } : Context).hir = ⟨[⟨n, fns⟩]⟩ := hh
  obtain ⟨vs', hv'⟩ := check_total (ctx := { ctx with src := L'.text, pt := u }) hh' h2 hl1.1 hl1.2
  have hname : ∀ m, L'.contract.name = some m → m = sanitize n := fun m hm' => renamed_name hr m (by rw [← h4.same.2.1]; exact hm')
  -- the tree's functions, one after the other
  have hinorder : ∀ ss, Each Seg.Is fns ss → ∀ o gs, gs.map Prod.fst = ss → InOrder fns (partsFrom o gs) ∧ ∀ f ∈ fns, Present (partsFrom o gs) f := by
    intro ss hss o gs hgs
    have hat : ∀ (i : Nat) f, fns[i]? = some f → At (partsFrom o gs) f i := by
      intro i f hf
      rw [at_iff_key]
      obtain ⟨s, hs, his⟩ := each_get hss hf
      have ek : gs.map (fun p => p.1.key) = ss.map Seg.key := by rw [← hgs]; simp [Function.comp_def]
      rw [ek]
      refine ⟨by rw [List.getElem?_map, hs, Option.map_some, (is_iff_key f s).1 his], ?_⟩
      intro j hj he
      rw [List.getElem?_map, Option.map_eq_some_iff] at he
      obtain ⟨t, ht, hk⟩ := he
      obtain ⟨g, hg, hig⟩ := each_get' hss ht
      rw [is_iff_key] at hig
      rw [hig] at hk
      have := distinct_key hd hg hf (Option.some.inj hk)
      omega
    refine ⟨?_, ?_⟩
    · rw [inOrder_iff]
      intro i j f g hij hf hg a b ha hb
      have := at_unique ha (hat i f hf)
      have := at_unique hb (hat j g hg)
      omega
    · intro f hf
      obtain ⟨i, hi⟩ := List.mem_iff_getElem?.1 hf
      exact at_present (hat i f hi)
  by_cases hord : InOrder fns L'.parts
  · -- nothing to reorder
    refine ⟨L', L', u, vs, hv, ?_, h2, hfl, h4, Or.inl rfl, List.Perm.refl _, ?_, ?_⟩
    · unfold fixContext
      simp only [hv, Res.bind_ok, h1, hv', all_fixable hh hpt hv]
      rw [(order_filter hh' h2 hv').2 hord]
      rfl
    · -- sorted and complete
      have hkk : ks = List.range L'.segs.length := by
        have hinc : ks.Pairwise (· < ·) := by
          rw [List.pairwise_iff_getElem]
          intro i j hi hj hij
          obtain ⟨f, hf, haf⟩ := each_get' hks.at_ (List.getElem?_eq_getElem hi)
          obtain ⟨g, hg, hag⟩ := each_get' hks.at_ (List.getElem?_eq_getElem hj)
          have hle := (inOrder_iff fns L'.parts).1 hord i j f g hij hf hg _ _ haf hag
          have hne : ks[i] ≠ ks[j] := by
            have := hks.nodup
            rw [List.nodup_iff_pairwise_ne, List.pairwise_iff_getElem] at this
            exact this i j hi hj hij
          omega
        exact (List.Perm.eq_of_pairwise (le := (· < ·)) (fun a b _ _ h1 h2 => by omega) hinc List.pairwise_lt_range hks.perm.symm)
      have e : ks.filterMap (fun k => (L'.segs[k]?).map Prod.fst) = L'.segs.map Prod.fst := by
        rw [hkk]
        have := range_filterMap (L'.segs.map Prod.fst)
        simp only [List.length_map, List.getElem?_map] at this
        exact this
      rw [← e]
      exact shuffled_each hks
    · apply (C37_silent_iff (ctx := { ctx with src := L'.text, pt := u }) hh').2
      exact ⟨L'.contract, h2, hname, fun f hf => Or.inl (hpres f hf), hord⟩
  · -- reordering
    have hne : L'.segs ≠ [] := by
      intro e
      apply hord
      have : fns = [] := List.eq_nil_of_length_eq_zero (by rw [← hlen, e]; rfl)
      rw [this]; exact List.Pairwise.nil
    have hfix := fixOrderSource_ok (ctx := { ctx with src := L'.text, pt := u }) hh' rfl h2 hd hks (h4.triple hd ((renamed_triple hr fns).2 h3)) (hP' L' hfl).1 hne hv'
    obtain ⟨u', hu', hfc'⟩ := (hP' L' hfl).2 _ (shuffled_each hks) hks.segsPerm
    have hmap : (L'.reordered (ks.filterMap (fun k => (L'.segs[k]?).map Prod.fst))).segs.map Prod.fst =
        ks.filterMap (fun k => (L'.segs[k]?).map Prod.fst) := withGaps_map _ _
    have heach := shuffled_each hks
    refine ⟨L', L'.reordered (ks.filterMap (fun k => (L'.segs[k]?).map Prod.fst)), u', vs, hv,
      ?_, hfc', hfl, h4, Or.inr (by rw [hmap]), by rw [hmap]; exact hks.segsPerm, by rw [hmap]; exact heach, ?_⟩
    · unfold fixContext
      simp only [hv, Res.bind_ok, h1, hv', all_fixable hh hpt hv]
      have hnil : ¬ (vs'.filter (fun v => v.kind.isOrder)).isEmpty = true := by
        intro e
        exact hord ((order_filter hh' h2 hv').1 (List.isEmpty_iff.1 e))
      have hfc : ctx.hir.findContract = some ⟨n, fns⟩ := by rw [hh]; rfl
      simp only [hnil, (findContract_iff _ _).2 h2, hfc, fixOrder]
      simp only at hfix
      simp only [hfix, Res.bind_ok, reparse, hu']
      rfl
    · apply (C37_silent_iff (ctx := { ctx with src := _, pt := u' }) hh).2
      refine ⟨_, hfc', hname, ?_, ?_⟩
      · intro f hf
        exact Or.inl ((hinorder _ heach _ _ hmap).2 f hf)
      · exact (hinorder _ heach _ _ hmap).1

/-- **C44**, exactly when reordering works: a contract made of functions of the tree, any of them, not all in order.  What
`check --fix` writes as the functions of the contract are as many as in the tree, each of them one of the contract's or one of
those added, and they are the functions of the tree in order if and only if no three functions of the original contract are
reversed. -/
theorem C44_exact {P : SolParser} {n : Str} {fns : List HFn} {ctx : Context} (hh : ctx.hir = ⟨[⟨n, fns⟩]⟩) {L L1 : Layout}
    (hsrc : ctx.src = L.text) (hpt : FirstContract ctx.pt L.contract) (hr : Renamed (sanitize n) L L1)
    (hb : '{' ∉ L1.header) (hsk : ctx.skipModifiers = false) (hd : Distinct fns) (hown : OnlyTree fns L)
    (hA : Ascii L.text) (hA1 : Ascii L1.text) (hF : ∀ f ∈ fns, Ascii (emitFunction f))
    (ht : ∀ s ∈ L.segs.map Prod.fst, s.text ≠ []) (hP : ∀ k L', Filling false fns L1 k L' → ReadsAs P L')
    (hno : ¬ InOrder fns L.parts) {ctx' : Context} {k : Nat} (hfix : fixContext P ctx = .ok (ctx', k)) :
    ∃ L' ss mid, Completed false fns L1 L' ∧ ctx'.src = L'.front ++ joinSep c!"\n\n" (ss.map Seg.text) ++ mid ++ '}' :: L'.rest ∧
      ss.length = fns.length ∧ (∀ s ∈ ss, s ∈ L'.segs.map Prod.fst) ∧ (Each Seg.Is fns ss ↔ NoReversedTriple fns L.parts) := by
  have hl0 := ascii_lines hA ht
  obtain ⟨vs, hv⟩ := check_total hh hpt (by rw [hsrc]; exact hl0.1) (by rw [hsrc]; exact hl0.2)
  obtain ⟨L', u, h1, h2, hfl, h4⟩ := C43_missing_partial hh hsrc hpt hr hb (by rw [hsk]; exact hP) (by simp [hsk]) hv
  rw [hsk] at h4 hfl
  have hg := filling_grown hfl
  have hpres : ∀ f ∈ fns, Present L'.parts f := fun f hf => (h4.present f hf).resolve_right (by simp)
  have hlen := onlyTree_length hd (renamed_only hr hown) h4 hpres
  obtain ⟨ks, hks⟩ := shuffled_of hd hpres hlen
  have hA' := grown_ascii hg hA1 hF
  have ht' := grown_ne hg (by rw [renamed_segs hr]; exact ht)
  have hl1 := ascii_lines hA' ht'
  have hh' : ({ ctx with src := L'.text, pt := u } : Context).hir = ⟨[⟨n, fns⟩]⟩ := hh
  obtain ⟨vs', hv'⟩ := check_total (ctx := { ctx with src := L'.text, pt := u }) hh' h2 hl1.1 hl1.2
  have htri : NoReversedTriple fns L'.parts ↔ NoReversedTriple fns L.parts := by
    rw [← renamed_triple hr fns]
    exact ⟨hks.triple_of hd h4.kept, h4.triple hd⟩
  have hord : ¬ InOrder fns L'.parts := by
    intro ho
    apply hno
    rw [← renamed_inOrder hr fns]
    exact hks.inOrder_of hd h4.kept ho
  have hne : L'.segs ≠ [] := by
    intro e
    apply hord
    have : fns = [] := List.eq_nil_of_length_eq_zero (by rw [← hlen, e]; rfl)
    rw [this]; exact List.Pairwise.nil
  obtain ⟨ss, mid, hs, hsl, hsm, hsi⟩ := fixOrderSource_iff (ctx := { ctx with src := L'.text, pt := u }) hh' rfl h2 hd hks hpres hA' ht' hne hv'
  refine ⟨L', ss, mid, h4, ?_, hsl, hsm, hsi.trans htri⟩
  unfold fixContext at hfix
  simp only [hv, Res.bind_ok, h1, hv'] at hfix
  have hnil : ¬ (vs'.filter (fun v => v.kind.isOrder)).isEmpty = true := by
    intro e
    exact hord ((order_filter hh' h2 hv').1 (List.isEmpty_iff.1 e))
  have hfc : ctx.hir.findContract = some ⟨n, fns⟩ := by rw [hh]; rfl
  simp only [hnil, (findContract_iff _ _).2 h2, hfc, fixOrder] at hs hfix
  simp only [hs, Res.bind_ok, reparse] at hfix
  cases hp : P (L'.front ++ joinSep c!"\n\n" (ss.map Seg.text) ++ mid ++ '}' :: L'.rest) with
  | none => rw [hp] at hfix; cases hfix
  | some u' =>
    rw [hp] at hfix
    have := congrArg (fun r => match r with | Res.ok (c, _) => Context.src c | _ => []) hfix
    exact this.symm

/-- **C45** (restricted).  Without `-m`, on an ASCII file whose functions all have names (no constructor, `receive` or
`fallback`), `check --fix` crashes in one case only: the parser rejects the text written by the reordering step.
Missing: non-ASCII files, unnamed functions, `-m`, repeated names; for all of these it does crash
(`C45_skip_modifiers_false`, `C45_constructor_false`, `C45_non_ascii_false`, `C45_repeated_false`). -/
theorem C45_no_crash_partial {P : SolParser} {n : Str} {fns : List HFn} {ctx : Context} (hh : ctx.hir = ⟨[⟨n, fns⟩]⟩) {L L1 : Layout}
    (hsrc : ctx.src = L.text) (hpt : FirstContract ctx.pt L.contract) (hr : Renamed (sanitize n) L L1)
    (hb : '{' ∉ L1.header) (hsk : ctx.skipModifiers = false) (hd : Distinct fns)
    (hnm : ∀ ty t, Seg.fn ty none t ∉ L.segs.map Prod.fst)
    (hA : Ascii L.text) (hA1 : Ascii L1.text) (hF : ∀ f ∈ fns, Ascii (emitFunction f))
    (ht : ∀ s ∈ L.segs.map Prod.fst, s.text ≠ []) (hP : ∀ k L', Filling false fns L1 k L' → ReadsAs P L') :
    (∃ r, fixContext P ctx = .ok r) ∨
    ∃ L' ts mid, Filling false fns L1 fns.length L' ∧ (∀ t ∈ ts, ∃ s ∈ L'.segs.map Prod.fst, t = s.text) ∧
      P (L'.front ++ joinSep c!"\n\n" ts ++ mid ++ '}' :: L'.rest) = none := by
  have hl0 := ascii_lines hA ht
  obtain ⟨vs, hv⟩ := check_total hh hpt (by rw [hsrc]; exact hl0.1) (by rw [hsrc]; exact hl0.2)
  obtain ⟨L', u, h1, h2, hfl, h4⟩ := C43_missing_partial hh hsrc hpt hr hb (by rw [hsk]; exact hP) (by simp [hsk]) hv
  rw [hsk] at h4 hfl
  have hg := filling_grown hfl
  have hA' := grown_ascii hg hA1 hF
  have ht' := grown_ne hg (by rw [renamed_segs hr]; exact ht)
  have hl1 := ascii_lines hA' ht'
  have hh' : ({ ctx with src := L'.text, pt := u } : Context).hir = ⟨[⟨n, fns⟩]⟩ := hh
  obtain ⟨vs', hv'⟩ := check_total (ctx := { ctx with src := L'.text, pt := u }) hh' h2 hl1.1 hl1.2
  by_cases hord : InOrder fns L'.parts
  · left
    unfold fixContext
    simp only [hv, Res.bind_ok, h1, hv']
    rw [(order_filter hh' h2 hv').2 hord]
    exact ⟨_, rfl⟩
  · have hpres : ∀ f ∈ fns, Present L'.parts f := fun f hf => (h4.present f hf).resolve_right (by simp)
    have hne : L'.segs ≠ [] := by
      intro e
      apply hord
      have : fns = [] := by
        apply List.eq_nil_of_length_eq_zero
        have := length_le_parts hd hpres
        rw [show L'.parts.length = L'.segs.length from partsFrom_length _ _, e] at this
        simpa using this
      rw [this]; exact List.Pairwise.nil
    have hnm' : ∀ g, SolPart.fn g ∈ L'.parts → g.name ≠ none := by
      intro g hgm hn
      obtain ⟨k, hk⟩ := List.mem_iff_getElem?.1 hgm
      obtain ⟨o', ho'⟩ := partsFrom_get (byteLen L'.front) L'.segs k
      have hk' : (partsFrom (byteLen L'.front) L'.segs)[k]? = some (.fn g) := hk
      rw [ho'] at hk'
      obtain ⟨⟨s, gap⟩, hs, he⟩ := Option.map_eq_some_iff.1 hk'
      have hsm : s ∈ L'.segs.map Prod.fst := List.mem_map.2 ⟨_, List.mem_of_getElem? hs, rfl⟩
      rcases List.mem_append.1 (h4.only.mem_iff.1 hsm) with h | h
      · rw [renamed_segs hr] at h
        cases s with
        | other t => simp [Seg.at] at he
        | fn ty nm t =>
          simp only [Seg.at, SolPart.fn.injEq] at he
          rw [← he] at hn
          simp only at hn
          subst hn
          exact hnm ty t h
      · obtain ⟨f, _, rfl⟩ := List.mem_map.1 h
        simp only [newSeg, Seg.at, SolPart.fn.injEq] at he
        rw [← he] at hn
        cases hn
    obtain ⟨ts, mid, hfix, hts⟩ := fixOrderSource_total (ctx := { ctx with src := L'.text, pt := u }) hh' rfl h2 hd hpres hA' ht' hnm' hne hv'
    cases hp : P (L'.front ++ joinSep c!"\n\n" ts ++ mid ++ '}' :: L'.rest) with
    | none => exact Or.inr ⟨L', ts, mid, hfl, hts, hp⟩
    | some u' =>
      left
      unfold fixContext
      simp only [hv, Res.bind_ok, h1, hv']
      have hnil : ¬ (vs'.filter (fun v => v.kind.isOrder)).isEmpty = true := by
        intro e
        exact hord ((order_filter hh' h2 hv').1 (List.isEmpty_iff.1 e))
      have hfc : ctx.hir.findContract = some ⟨n, fns⟩ := by rw [hh]; rfl
      simp only [hnil, (findContract_iff _ _).2 h2, hfc, fixOrder]
      simp only at hfix
      simp only [hfix, Res.bind_ok, reparse, hp]
      exact ⟨_, rfl⟩

/-- **C46.** If the Solidity file has no contract, fixing replaces its text by what `scaffold` generates (with default
options, whatever the flags of `check`), and announces one fix. -/
theorem C46_regenerate [LawfulUcd] {P : SolParser} {order : HashOrder} (ho : ∀ l, (order l).Perm l) {text : Str} {ctx : Context}
    {n : Str} {fns : List HFn} (h : translate order .default text = .ok ⟨[⟨n, fns⟩]⟩) (hh : ctx.hir = ⟨[⟨n, fns⟩]⟩)
    (hpt : ∀ s, ¬ FirstContract ctx.pt s) {src : Str} (hsrc : scaffoldSource order .default text = .ok src)
    {u : SolUnit} (hP : P src = some u) {s : SolContract} (hu : FirstContract u s) (hn : s.name = some (sanitize n))
    (hw : Written fns s.parts) (hd : ((fns.filter HFn.isFunction).map HFn.identifier).Nodup) :
    fixContext P ctx = .ok ({ ctx with src := src, pt := u }, 1) ∧ checkCtx { ctx with src := src, pt := u } = .ok [] := by
  have hs : src = emitSource (ptTranslate Config.default ⟨[⟨n, fns⟩]⟩) := by
    unfold scaffoldSource at hsrc
    rw [h, Res.bind_ok] at hsrc
    exact (Res.ok.inj hsrc).symm
  have hsil : checkCtx { ctx with src := src, pt := u } = .ok [] :=
    C41_scaffold_partial ho h hd (ctx := { ctx with src := src, pt := u }) (by rw [h]; exact congrArg _ hh.symm) (by simp [Config.default]) hu hn hw
  refine ⟨?_, hsil⟩
  unfold fixContext
  simp only [C37_no_contract hh hpt, Res.bind_ok]
  have e : fixAll P [(⟨.contractMissing n, .file ctx.tree⟩ : Violation)] ctx = .ok { ctx with src := src, pt := u } := by
    have hemit : emitSource (ptTranslate Config.default ctx.hir) = src := by rw [hh, hs]
    rw [fixAll, fixViolation, hemit]
    simp only [reparse, hP, Res.bind_ok, fixAll]
  have e2 : ([(⟨.contractMissing n, .file ctx.tree⟩ : Violation)].filter (fun v => !v.kind.isOrder)) = [⟨.contractMissing n, .file ctx.tree⟩] := rfl
  rw [e2, e, Res.bind_ok, hsil, Res.bind_ok]
  rfl

/-- **C47** (restricted).  If `contract <old name>` occurs in the file only where the contract begins, fixing the name
replaces the name there and changes nothing else.
Missing: files with other occurrences, for which the claim is false (`C47_rename_false`). -/
theorem C47_rename_partial {P : SolParser} {ctx : Context} {L : Layout} (hsrc : ctx.src = L.text) {old new pre post : Str}
    (hh : L.header = pre ++ (c!"contract " ++ old ++ post))
    (ho : Once (L.before ++ pre) (c!"contract " ++ old) (post ++ '{' :: (L.lead ++ (segsText L.segs ++ '}' :: L.rest))))
    (hP : P ({ L with header := pre ++ (c!"contract " ++ new ++ post) } : Layout).text ≠ none) :
    ∃ u, fixViolation P (.contractNameNotMatches new old) ctx =
        .ok { ctx with src := ({ L with header := pre ++ (c!"contract " ++ new ++ post) } : Layout).text, pt := u } := by
  have e : replaceAll (c!"contract " ++ old) (c!"contract " ++ new) ctx.src =
      ({ L with header := pre ++ (c!"contract " ++ new ++ post) } : Layout).text := by
    have := replaceAll_once (c!"contract " ++ new) (by simp) ho
    rw [hsrc]
    simp only [Layout.text, Layout.front, hh, List.append_assoc, List.cons_append] at this ⊢
    exact this
  obtain ⟨u, hu⟩ := Option.ne_none_iff_exists'.1 hP
  refine ⟨u, ?_⟩
  unfold fixViolation
  simp only [e, reparse, hu]

end Bulloak
