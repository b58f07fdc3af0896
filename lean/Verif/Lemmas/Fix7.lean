import Verif.Lemmas.Fix6
/-! # Lemmas about fixing: renaming, and the absence of crashes -/

namespace Bulloak
open Spec
set_option linter.unusedSectionVars false
variable [U : Ucd]

/-! ## Renaming -/

theorem renamed_keys {new : Str} {L L' : Layout} (h : Renamed new L L') : L'.keys = L.keys := by
  cases h <;> rfl

theorem renamed_segs {new : Str} {L L' : Layout} (h : Renamed new L L') : L'.segs = L.segs := by
  cases h <;> rfl

theorem renamed_name {new : Str} {L L' : Layout} (h : Renamed new L L') : ∀ m, L'.name = some m → m = new := by
  cases h with
  | same h => exact h
  | other => intro m hm; exact (Option.some.inj hm).symm

theorem renamed_present {new : Str} {L L' : Layout} (h : Renamed new L L') (f : HFn) : Present L'.parts f ↔ Present L.parts f := by
  rw [layout_present, layout_present, renamed_keys h]

theorem renamed_at {new : Str} {L L' : Layout} (h : Renamed new L L') (f : HFn) (a : Nat) : At L'.parts f a ↔ At L.parts f a := by
  rw [layout_at, layout_at, renamed_keys h]

theorem renamed_reported {new : Str} {L L' : Layout} (h : Renamed new L L') (skip : Bool) (f : HFn) :
    Reported skip L' f ↔ Reported skip L f := by
  unfold Reported; rw [renamed_present h]

theorem renamed_inOrder {new : Str} {L L' : Layout} (h : Renamed new L L') (fns : List HFn) :
    InOrder fns L'.parts ↔ InOrder fns L.parts := by
  unfold InOrder; simp only [renamed_at h]

theorem renamed_triple {new : Str} {L L' : Layout} (h : Renamed new L L') (fns : List HFn) :
    NoReversedTriple fns L'.parts ↔ NoReversedTriple fns L.parts := by
  unfold NoReversedTriple; simp only [renamed_at h]

theorem presentAndMissing_congr {ctx ctx' : Context} {s s' : SolContract} (ht : ctx'.tree = ctx.tree)
    (hs : ctx'.skipModifiers = ctx.skipModifiers) (fns : List HFn) : ∀ k, (∀ f ∈ fns, Present s'.parts f ↔ Present s.parts f) →
    (presentAndMissing ctx' s' k fns).2 = (presentAndMissing ctx s k fns).2 := by
  induction fns with
  | nil => intro k _; rfl
  | cons f fs ih =>
    intro k hp
    have ih := ih (k + 1) (fun g hg => hp g (by simp [hg]))
    have hf := hp f (by simp)
    rw [presentAndMissing, presentAndMissing]
    rcases findMatchingFn_cases s f with ⟨h, hno⟩ | ⟨_, _, h, _, hat⟩ <;>
      rcases findMatchingFn_cases s' f with ⟨h', hno'⟩ | ⟨_, _, h', _, hat'⟩
    · simp only [h, h', hs, ht]; split <;> simp [ih]
    · exact absurd (hf.1 (at_present hat')) hno
    · exact absurd (hf.2 (at_present hat)) hno'
    · simp [h, h', ih]

/-- Renaming the contract. -/
theorem rename_step {P : SolParser} {ctx : Context} {L : Layout} (hsrc : ctx.src = L.text) {old new pre post : Str}
    (hh : L.header = pre ++ (c!"contract " ++ old ++ post))
    (ho : Once (L.before ++ pre) (c!"contract " ++ old) (post ++ '{' :: (L.lead ++ (segsText L.segs ++ '}' :: L.rest))))
    (hP : ReadsAs P { L with name := some new, header := pre ++ (c!"contract " ++ new ++ post) }) :
    ∃ u, fixViolation P (.contractNameNotMatches new old) ctx =
        .ok { ctx with src := ({ L with name := some new, header := pre ++ (c!"contract " ++ new ++ post) } : Layout).text, pt := u } ∧
      FirstContract u ({ L with name := some new, header := pre ++ (c!"contract " ++ new ++ post) } : Layout).contract := by
  obtain ⟨u, hu, hf⟩ := hP
  refine ⟨u, ?_, hf⟩
  have e : replaceAll (c!"contract " ++ old) (c!"contract " ++ new) ctx.src =
      ({ L with name := some new, header := pre ++ (c!"contract " ++ new ++ post) } : Layout).text := by
    have := replaceAll_once (c!"contract " ++ new) (by simp) ho
    rw [hsrc]
    simp only [Layout.text, Layout.front, hh, List.append_assoc, List.cons_append] at this ⊢
    exact this
  unfold fixViolation
  simp only [e, reparse, hu]

/-- What the first round of fixes works on. -/
theorem first_round_named {ctx : Context} {n : Str} {fns : List HFn} (hh : ctx.hir = ⟨[⟨n, fns⟩]⟩) {s : SolContract}
    (hs : FirstContract ctx.pt s) {vs : List Violation} (hv : checkCtx ctx = .ok vs) :
    ∃ v1, checkContractNames ctx ⟨n, fns⟩ s = .ok v1 ∧ vs.filter (fun v => !v.kind.isOrder) = v1 ++ (presentAndMissing ctx s 0 fns).2 ∧
      (vs.filter (fun v => v.kind.isFixable)).length = v1.length + (presentAndMissing ctx s 0 fns).2.length +
        (vs.filter (fun v => v.kind.isOrder)).length := by
  obtain ⟨v1, v3, h1, rfl, h3⟩ := check_report hh hs hv
  refine ⟨v1, h1, ?_, ?_⟩
  · have e1 : v1.filter (fun v => !v.kind.isOrder) = v1 := by
      rcases names_report h1 with ⟨rfl, _⟩ | ⟨_, _, _, _, _, rfl⟩ <;> rfl
    have e2 : (presentAndMissing ctx s 0 fns).2.filter (fun v => !v.kind.isOrder) = (presentAndMissing ctx s 0 fns).2 := by
      apply List.filter_eq_self.2
      intro v hv
      obtain ⟨f, i, _, _, rfl, _⟩ := (presentAndMissing_missing ctx s fns 0).1 v hv
      rfl
    have e3 : v3.filter (fun v => !v.kind.isOrder) = [] := by
      apply List.filter_eq_nil_iff.2
      intro v hv
      obtain ⟨p, _, g, line, _, _, rfl⟩ := each_mem_right h3 hv
      simp [ViolationKind.isOrder]
    rw [List.filter_append, List.filter_append, e1, e2, e3, List.append_nil]
  · have e1 : v1.filter (fun v => v.kind.isFixable) = v1 ∧ v1.filter (fun v => v.kind.isOrder) = [] := by
      rcases names_report h1 with ⟨rfl, _⟩ | ⟨_, _, _, _, _, rfl⟩ <;> exact ⟨rfl, rfl⟩
    have e2 : (presentAndMissing ctx s 0 fns).2.filter (fun v => v.kind.isFixable) = (presentAndMissing ctx s 0 fns).2 ∧
        (presentAndMissing ctx s 0 fns).2.filter (fun v => v.kind.isOrder) = [] := by
      constructor
      · apply List.filter_eq_self.2
        intro v hv
        obtain ⟨f, i, _, _, rfl, _⟩ := (presentAndMissing_missing ctx s fns 0).1 v hv
        rfl
      · apply List.filter_eq_nil_iff.2
        intro v hv
        obtain ⟨f, i, _, _, rfl, _⟩ := (presentAndMissing_missing ctx s fns 0).1 v hv
        simp [ViolationKind.isOrder]
    have e3 : v3.filter (fun v => v.kind.isFixable) = v3 ∧ v3.filter (fun v => v.kind.isOrder) = v3 := by
      constructor <;>
      · apply List.filter_eq_self.2
        intro v hv
        obtain ⟨p, _, g, line, _, _, rfl⟩ := each_mem_right h3 hv
        rfl
    simp only [List.filter_append, e1.1, e1.2, e2.1, e2.2, e3.1, e3.2, List.length_append, List.length_nil]
    omega

/-- Renaming, as part of the first round. -/
theorem rename_round {P : SolParser} {ctx : Context} {n : Str} {fns : List HFn} (hh : ctx.hir = ⟨[⟨n, fns⟩]⟩) {L L1 : Layout}
    (hsrc : ctx.src = L.text) (hpt : FirstContract ctx.pt L.contract) (hr : Renamed (sanitize n) L L1) (hP : ReadsAs P L1)
    {vs : List Violation} (hv : checkCtx ctx = .ok vs) :
    ∃ u, FirstContract u L1.contract ∧ ∀ ctx1 : Context, ctx1 = { ctx with src := L1.text, pt := u } →
      fixAll P (vs.filter (fun v => !v.kind.isOrder)) ctx = fixAll P (presentAndMissing ctx1 L1.contract 0 fns).2 ctx1 := by
  obtain ⟨v1, h1, h2, _⟩ := first_round_named hh hpt hv
  rw [h2]
  cases hr with
  | same hn =>
    refine ⟨ctx.pt, hpt, ?_⟩
    intro ctx1 hctx
    have : ctx1 = ctx := by rw [hctx, ← hsrc]
    subst this
    rw [ctx_names (s := L.contract) hn] at h1
    cases h1
    rfl
  | @other old pre post hn hne hhd ho =>
    rcases names_report h1 with ⟨_, h⟩ | ⟨m, line, hm, _, _, rfl⟩
    · exact absurd (h old hn) hne
    · have : m = old := by
        have hm' : L.name = some m := hm
        rw [hn] at hm'; exact (Option.some.inj hm').symm
      subst this
      obtain ⟨u, hu, hf⟩ := rename_step (P := P) hsrc hhd ho hP
      refine ⟨u, hf, ?_⟩
      rintro ctx1 rfl
      rw [List.cons_append, List.nil_append, fixAll]
      simp only [hu, Res.bind_ok]
      congr 1
      symm
      apply presentAndMissing_congr
      · rfl
      · rfl
      · intro f _
        exact renamed_present (Renamed.other hn hne hhd ho) f

/-! ## No crash while reordering -/

theorem moves_total {α : Type} {l : List α} : ∀ {ps : List (Nat × Nat)} {cur : List α}, cur.length = l.length →
    (∀ x ∈ cur, x ∈ l) → (∀ p ∈ ps, p.1 < l.length ∧ p.2 < l.length) →
    ∃ r, movesFrom l ps cur = .ok r ∧ ∀ x ∈ r, x ∈ l
  | [], cur, _, h, _ => ⟨cur, rfl, h⟩
  | (i, a) :: ps, cur, hl, h, hp => by
    obtain ⟨hi, ha⟩ := hp (i, a) (by simp)
    simp only at hi ha
    rw [movesFrom, List.getElem?_eq_getElem ha]
    simp only
    have hlen : (cur.eraseIdx a).length = cur.length - 1 := by
      rw [List.length_eraseIdx]; rw [if_pos (by omega)]
    have e : moveTo cur a i l[a] = .ok ((cur.eraseIdx a).insertIdx i l[a]) := by
      unfold moveTo
      rw [if_pos (by omega)]
      simp only
      rw [if_pos (by omega)]
    rw [e, Res.bind_ok]
    apply moves_total
    · rw [List.length_insertIdx, if_pos (by omega), hlen]; omega
    · intro x hx
      rcases (List.mem_insertIdx (by omega)).1 hx with rfl | hx
      · exact List.getElem_mem ha
      · exact h x (List.mem_of_mem_eraseIdx hx)
    · exact fun p h => hp p (by simp [h])

theorem keepKnown_total {names : List Str} : ∀ {ps : List SolPart}, (∀ g, SolPart.fn g ∈ ps → g.name ≠ none) →
    ∃ r, keepKnown names ps = .ok r ∧ ∀ x ∈ r, x ∈ ps
  | [], _ => ⟨[], rfl, by simp⟩
  | .other s e :: ps, h => by
    obtain ⟨r, h1, h2⟩ := keepKnown_total (names := names) (ps := ps) (fun g hg => h g (by simp [hg]))
    exact ⟨r, by rw [keepKnown, h1], fun x hx => by simp [h2 x hx]⟩
  | .fn f :: ps, h => by
    obtain ⟨r, h1, h2⟩ := keepKnown_total (names := names) (ps := ps) (fun g hg => h g (by simp [hg]))
    rw [keepKnown]
    cases hn : f.name with
    | none => exact absurd hn (h f (by simp))
    | some m =>
      simp only [h1, Res.bind_ok]
      refine ⟨_, rfl, ?_⟩
      intro x hx
      split at hx
      · rcases List.mem_cons.1 hx with rfl | hx
        · simp
        · simp [h2 x hx]
      · simp [h2 x hx]

theorem ascii_split {s : Str} (h : Ascii s) {n : Nat} (hn : n ≤ s.length) : splitAtByte n s = some (s.take n, s.drop n) := by
  rw [splitAtByte_some]
  refine ⟨(List.take_append_drop n s).symm, ?_⟩
  rw [byteLen_ascii (fun c hc => h c (List.mem_of_mem_take hc))]
  simp; omega

theorem ascii_spaces (n : Nat) : Ascii (spaces n) := by
  intro c hc
  have := List.eq_of_mem_replicate hc
  subst this; decide

theorem replaceAux_ascii {pat to : Str} (ht : Ascii to) : ∀ (s : Str) (k : Nat), Ascii s → Ascii (replaceAux pat to k s) := by
  intro s
  induction s with
  | nil => intro k _; cases k <;> (rw [replaceAux]; intro c hc; cases hc)
  | cons c s ih =>
    intro k hs
    have hs' : Ascii s := fun d hd => hs d (by simp [hd])
    cases k with
    | succ k => rw [replaceAux]; exact ih k hs'
    | zero =>
      rw [replaceAux]
      split
      · exact ascii_append.2 ⟨ht, ih _ hs'⟩
      · intro d hd
        rcases List.mem_cons.1 hd with rfl | hd
        · exact hs d (by simp)
        · exact ih _ hs' d hd

theorem replaceAll_length {pat to : Str} (hne : pat ≠ []) (ht : to.length = pat.length) (s : Str) :
    (replaceAll pat to s).length = s.length := by
  have main : ∀ (n : Nat) (s : Str), s.length ≤ n → (replaceAux pat to 0 s).length = s.length := by
    intro n
    induction n with
    | zero => intro s h; rw [List.eq_nil_of_length_eq_zero (Nat.le_zero.1 h)]; rw [replaceAux]
    | succ n ih =>
      intro s h
      cases s with
      | nil => rw [replaceAux]
      | cons c s =>
        rw [replaceAux]
        split
        · rename_i hp
          obtain ⟨r, hr⟩ := (stripPrefix_isSome _ _).1 hp
          have hlp := List.length_pos_iff.2 hne
          have hl := congrArg List.length hr
          simp only [List.length_cons, List.length_append] at hl h
          rw [replaceAux_skip, List.length_append, ih _ (by simp; omega)]
          simp only [List.length_drop, List.length_cons]
          omega
        · simp only [List.length_cons] at h ⊢
          rw [ih s (by omega)]
  exact main _ s (Nat.le_refl _)

theorem collect_total {src : Str} : ∀ {ps : List SolPart} {scratch : Str} {acc : List Str},
    (∀ p ∈ ps, ∃ t, sliceBytes src p.start p.stop = some t ∧ t ≠ [] ∧ Ascii t) → Ascii scratch →
    ∃ ts sc, collectTexts src ps scratch acc = .ok (acc ++ ts, sc) ∧ Ascii sc ∧ sc.length = scratch.length ∧
      Each (fun p t => sliceBytes src p.start p.stop = some t) ps ts
  | [], scratch, acc, _, ha => ⟨[], scratch, by rw [List.append_nil]; rfl, ha, rfl, .nil⟩
  | p :: ps, scratch, acc, h, ha => by
    obtain ⟨t, h1, h2, h3⟩ := h p (by simp)
    rw [collectTexts]
    simp only [h1]
    obtain ⟨ts, sc, h4, h5, h6, h7⟩ := collect_total (src := src) (ps := ps) (scratch := replaceAll t (spaces (byteLen t)) scratch)
      (acc := acc ++ [t]) (fun q hq => h q (by simp [hq])) (replaceAux_ascii (ascii_spaces _) _ _ ha)
    refine ⟨t :: ts, sc, by rw [h4, List.append_assoc]; rfl, h5, ?_, .cons h1 h7⟩
    rw [h6, replaceAll_length h2]
    rw [byteLen_ascii h3]; simp [spaces]

/-- With all functions of the tree there, there are at least as many parts as functions. -/
theorem length_le_parts {fns : List HFn} {L : Layout} (hd : Distinct fns) (hp : ∀ f ∈ fns, Present L.parts f) :
    fns.length ≤ L.parts.length := by
  have h1 : (fns.map (fun f => some (fnKey f))).Nodup := by
    rw [List.nodup_iff_pairwise_ne, List.pairwise_map]
    refine hd.imp ?_
    intro f g h e
    simp only [fnKey, Option.some.injEq, Prod.mk.injEq] at e
    exact h ⟨e.2, e.1⟩
  have := nodup_length_le h1 (b := L.keys) (by
    intro x hx
    obtain ⟨f, hf, rfl⟩ := List.mem_map.1 hx
    exact (layout_present L f).1 (hp f hf))
  rw [List.length_map, keys_length] at this
  rw [show L.parts.length = L.segs.length from partsFrom_length _ _]
  exact this

/-- What reordering does when all functions have names. -/
theorem fixOrderSource_run {ctx : Context} {n : Str} {fns : List HFn} (hh : ctx.hir = ⟨[⟨n, fns⟩]⟩) {L : Layout}
    (hsrc : ctx.src = L.text) (hpt : FirstContract ctx.pt L.contract) (hd : Distinct fns) (hp : ∀ f ∈ fns, Present L.parts f)
    (hA : Ascii L.text) (ht : ∀ s ∈ L.segs.map Prod.fst, s.text ≠ []) (hnm : ∀ g, SolPart.fn g ∈ L.parts → g.name ≠ none)
    (hne : L.segs ≠ []) {vs : List Violation} (hv : checkCtx ctx = .ok vs) :
    ∃ r q ts mid, movesFrom L.parts (unsortedPairs (presentAndMissing ctx L.contract 0 fns).1) L.parts = .ok r ∧
      (∀ x ∈ r, x ∈ L.parts) ∧ keepKnown (fns.map HFn.identifier) r = .ok q ∧ (∀ x ∈ q, x ∈ r) ∧
      Each (fun p t => sliceBytes L.text p.start p.stop = some t) q ts ∧
      fixOrderSource ((vs.filter (fun v => v.kind.isOrder)).map Violation.kind) L.contract ⟨n, fns⟩ ctx.src =
        .ok (L.front ++ joinSep c!"\n\n" ts ++ mid ++ '}' :: L.rest) := by
  obtain ⟨v1, v3, h1, rfl, hv3⟩ := check_report hh hpt hv
  have e : (v1 ++ ((presentAndMissing ctx L.contract 0 fns).2 ++ v3)).filter (fun v => v.kind.isOrder) = v3 := by
    have e1 : v1.filter (fun v => v.kind.isOrder) = [] := by
      rcases names_report h1 with ⟨rfl, _⟩ | ⟨_, _, _, _, _, rfl⟩ <;> rfl
    have e2 : (presentAndMissing ctx L.contract 0 fns).2.filter (fun v => v.kind.isOrder) = [] := by
      apply List.filter_eq_nil_iff.2
      intro v hv
      obtain ⟨f, i, _, _, rfl, _⟩ := (presentAndMissing_missing ctx L.contract fns 0).1 v hv
      simp [ViolationKind.isOrder]
    have e3 : v3.filter (fun v => v.kind.isOrder) = v3 := by
      apply List.filter_eq_self.2
      intro v hv
      obtain ⟨p, _, g, line, _, _, rfl⟩ := each_mem_right hv3 hv
      rfl
    rw [List.filter_append, List.filter_append, e1, e2, e3]; rfl
  rw [e, hsrc]
  have hle := length_le_parts hd hp
  obtain ⟨r, hr, hr2⟩ := moves_total (l := L.parts) (ps := unsortedPairs (presentAndMissing ctx L.contract 0 fns).1) (cur := L.parts) rfl (fun _ h => h) (by
    rintro ⟨i, a⟩ hpa
    obtain ⟨g, _, hg, hat⟩ := ((presentAndMissing_present ctx L.contract fns 0).mem i a).1 ((unsorted_sublist _).subset hpa)
    obtain ⟨⟨q, hq, _⟩, _⟩ := id hat
    have h1 := (List.getElem?_eq_some_iff.1 hg).1
    have h2 := (List.getElem?_eq_some_iff.1 hq).1
    simp only [Layout.contract] at h2
    simp only at h1 ⊢
    exact ⟨by omega, h2⟩)
  have hsort : sortParts (v3.map Violation.kind) L.parts = .ok r := by
    rw [sortParts_moves (parts := L.parts) (file := ctx.sol) (src := ctx.src) hv3, hr]
  obtain ⟨ks, hks, hks2⟩ := keepKnown_total (names := fns.map HFn.identifier) (ps := r) (fun g hg => hnm g (hr2 _ hg))
  have hparts : ∀ p ∈ ks, ∃ s ∈ L.segs.map Prod.fst, sliceBytes L.text p.start p.stop = some s.text ∧ s.text ≠ [] ∧ Ascii s.text := by
    intro p hp
    obtain ⟨k, hk⟩ := List.mem_iff_getElem?.1 (hr2 _ (hks2 p hp))
    have hlt : k < L.segs.length := by
      have := (List.getElem?_eq_some_iff.1 hk).1
      rwa [show L.parts.length = L.segs.length from partsFrom_length _ _] at this
    obtain ⟨q, hq, hsl⟩ := slice_part L (List.getElem?_eq_getElem hlt)
    rw [hk] at hq
    cases hq
    refine ⟨_, List.mem_map.2 ⟨_, List.getElem_mem hlt, rfl⟩, hsl, ht _ (List.mem_map.2 ⟨_, List.getElem_mem hlt, rfl⟩), ?_⟩
    intro c hcm
    apply hA
    unfold Layout.text segsText
    have : c ∈ (L.segs.flatMap (fun p => p.1.text ++ p.2)) := List.mem_flatMap.2 ⟨_, List.getElem_mem hlt, by simp [hcm]⟩
    simp [this]
  obtain ⟨ts, sc, hc, hsc, hscl, hts⟩ := collect_total (src := L.text) (ps := ks) (scratch := L.text) (acc := [])
    (fun p hp => by obtain ⟨s, _, h⟩ := hparts p hp; exact ⟨_, h⟩) hA
  suffices hfix : ∃ mid, fixOrderSource (v3.map Violation.kind) L.contract ⟨n, fns⟩ L.text =
      .ok (L.front ++ joinSep c!"\n\n" ts ++ mid ++ '}' :: L.rest) by
    obtain ⟨mid, hfix⟩ := hfix
    exact ⟨r, ks, ts, mid, hr, hr2, hks, hks2, hts, hfix⟩
  unfold fixOrderSource
  simp only [Layout.contract] at hsort ⊢
  rw [List.nil_append] at hc
  simp only [hsort, hks, hc, Res.bind_ok]
  have hlen : L.text.length = byteLen L.front + byteLen (segsText L.segs) + 1 + L.rest.length := by
    unfold Layout.text at hA ⊢
    rw [ascii_append, ascii_append] at hA
    rw [byteLen_ascii hA.1, byteLen_ascii hA.2.1]
    simp; omega
  have hpne : L.parts ≠ [] := by
    intro hparts
    have := partsFrom_length (byteLen L.front) L.segs
    rw [show partsFrom (byteLen L.front) L.segs = L.parts from rfl, hparts] at this
    exact hne (List.eq_nil_of_length_eq_zero this.symm)
  obtain ⟨p0, ps, hp0⟩ := List.exists_cons_of_ne_nil hpne
  have hst : p0.start = byteLen L.front := by
    have h0 : L.parts[0]? = some p0 := by rw [hp0]; rfl
    unfold Layout.parts at h0
    cases hs : L.segs with
    | nil => exact absurd hs hne
    | cons x xs =>
      obtain ⟨s, g⟩ := x
      rw [hs, partsFrom] at h0
      simp only [List.getElem?_cons_zero, Option.some.injEq] at h0
      rw [← h0, seg_at_start]
  have hsl : sliceBytes sc (byteLen L.front) (byteLen L.front + byteLen (segsText L.segs)) =
      some ((sc.take (byteLen L.front + byteLen (segsText L.segs))).drop (byteLen L.front)) := by
    unfold sliceBytes
    rw [ascii_split hsc (by omega)]
    simp only [Option.bind_eq_bind, Option.bind_some]
    rw [ascii_split (fun c hc => hsc c (List.mem_of_mem_take hc)) (by simp; omega)]
    rfl
  have s1 : splitAtByte (byteLen L.front) L.text = some (L.front, segsText L.segs ++ '}' :: L.rest) := splitAtByte_append _ _
  have s2 : splitAtByte (byteLen L.front + byteLen (segsText L.segs)) L.text = some (L.front ++ segsText L.segs, '}' :: L.rest) := by
    rw [← byteLen_append]
    unfold Layout.text
    rw [← List.append_assoc]
    exact splitAtByte_append _ _
  simp only [hp0, hst, Nat.add_sub_cancel, hsl, s1, s2]
  exact ⟨_ ++ _, by rw [← List.append_assoc]⟩

/-- Reordering does not crash when all functions have names. -/
theorem fixOrderSource_total {ctx : Context} {n : Str} {fns : List HFn} (hh : ctx.hir = ⟨[⟨n, fns⟩]⟩) {L : Layout}
    (hsrc : ctx.src = L.text) (hpt : FirstContract ctx.pt L.contract) (hd : Distinct fns) (hp : ∀ f ∈ fns, Present L.parts f)
    (hA : Ascii L.text) (ht : ∀ s ∈ L.segs.map Prod.fst, s.text ≠ []) (hnm : ∀ g, SolPart.fn g ∈ L.parts → g.name ≠ none)
    (hne : L.segs ≠ []) {vs : List Violation} (hv : checkCtx ctx = .ok vs) :
    ∃ ts mid, fixOrderSource ((vs.filter (fun v => v.kind.isOrder)).map Violation.kind) L.contract ⟨n, fns⟩ ctx.src =
      .ok (L.front ++ joinSep c!"\n\n" ts ++ mid ++ '}' :: L.rest) ∧ ∀ t ∈ ts, ∃ s ∈ L.segs.map Prod.fst, t = s.text := by
  obtain ⟨r, q, ts, mid, _, hr, _, hq, hts, h⟩ := fixOrderSource_run hh hsrc hpt hd hp hA ht hnm hne hv
  refine ⟨ts, mid, h, ?_⟩
  intro t htt
  obtain ⟨p, hpm, hsl⟩ := each_mem_right hts htt
  obtain ⟨k, hk⟩ := List.mem_iff_getElem?.1 (hr _ (hq p hpm))
  have hlt : k < L.segs.length := by
    have := (List.getElem?_eq_some_iff.1 hk).1
    rwa [show L.parts.length = L.segs.length from partsFrom_length _ _] at this
  obtain ⟨q', hq', hsl'⟩ := slice_part L (List.getElem?_eq_getElem hlt)
  rw [hk] at hq'
  cases hq'
  rw [hsl] at hsl'
  exact ⟨_, List.mem_map.2 ⟨_, List.getElem_mem hlt, rfl⟩, Option.some.inj hsl'⟩

end Bulloak
