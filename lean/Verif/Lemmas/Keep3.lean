import Verif.Lemmas.Keep2
/-! # Lemmas about fixing: the order fix if there are other parts -/

namespace Bulloak
open Spec
set_option linter.unusedSectionVars false
variable [U : Ucd]

/-- The contract has all functions of the tree, at the indices `ks`, each once. -/
structure Placed (fns : List HFn) (L : Layout) (ks : List Nat) : Prop where
  at_ : Each (fun f k => At L.parts f k) fns ks
  nodup : ks.Nodup
  tree : ∀ (k : Nat) s g, L.segs[k]? = some (s, g) → (k ∈ ks ↔ ∃ f ∈ fns, s.Is f)
  lt : ∀ k ∈ ks, k < L.segs.length
  marked : ∀ k ∈ ks, Marked L k

/-- The functions of the tree that the contract has are at the indices `ks`. -/
structure Seats (fns : List HFn) (L : Layout) (ks : List Nat) : Prop where
  tree : ∀ (k : Nat) s g, L.segs[k]? = some (s, g) → (k ∈ ks ↔ ∃ f ∈ fns, s.Is f)
  lt : ∀ k ∈ ks, k < L.segs.length
  marked : ∀ k ∈ ks, Marked L k

theorem Placed.seats {fns : List HFn} {L : Layout} {ks : List Nat} (h : Placed fns L ks) : Seats fns L ks := ⟨h.tree, h.lt, h.marked⟩

/-- The file after sorting: the functions with the indices `qs`, in that order, then everything else. -/
def sortedLayout (L : Layout) (qs : List Nat) : Layout :=
  { L with segs := (withGaps ((if qs.length = L.segs.length then [] else separator) ++ leadGap (fun j => decide (j ∈ qs)) 0 L.segs)
        (qs.filterMap (fun k => (L.segs[k]?).map Prod.fst)) ++ remaining (fun j => decide (j ∈ qs)) 0 L.segs) }

section
variable {fns : List HFn} {L : Layout} {ks : List Nat} (h : Placed fns L ks)
include h

theorem Placed.get {i : Nat} {f : HFn} {a : Nat} (hf : fns[i]? = some f) : At L.parts f a ↔ ks[i]? = some a := by
  obtain ⟨k, hk, hat⟩ := each_get h.at_ hf
  constructor
  · intro ha
    rw [hk, at_unique ha hat]
  · intro ha
    rw [hk] at ha
    cases ha
    exact hat

theorem Placed.fn {i a : Nat} (hk : ks[i]? = some a) : ∃ f, fns[i]? = some f ∧ At L.parts f a := each_get' h.at_ hk

theorem Placed.range {i a : Nat} (hk : ks[i]? = some a) : (List.range L.segs.length)[a]? = some a := by
  rw [List.getElem?_range (h.lt a (List.mem_of_getElem? hk))]

omit h in
theorem range_get {n a x : Nat} (hx : (List.range n)[a]? = some x) : a = x ∧ x < n := by
  obtain ⟨h1, h2⟩ := List.getElem?_eq_some_iff.1 hx
  rw [List.getElem_range] at h2
  rw [List.length_range] at h1
  omega

theorem Placed.inv {ctx : Context} (i a : Nat) :
    (i, a) ∈ unsortedPairs (presentAndMissing ctx L.contract 0 fns).1 ↔ Inv ks (List.range L.segs.length) i a := by
  rw [mem_inversions]
  constructor
  · rintro ⟨f, hf, ha, j, g, b, hij, hg, hb, hlt⟩
    have h1 := (h.get hf).1 ha
    have h2 := (h.get hg).1 hb
    exact ⟨a, h1, h.range h1, j, b, b, hij, h2, h.range h2, hlt⟩
  · rintro ⟨x, hx, hxa, j, b, y, hij, hy, hyb, hlt⟩
    obtain ⟨rfl, _⟩ := range_get hxa
    obtain ⟨rfl, _⟩ := range_get hyb
    obtain ⟨f, hf, ha⟩ := h.fn hx
    obtain ⟨g, hg, hb⟩ := h.fn hy
    exact ⟨f, hf, ha, j, g, _, hij, hg, hb, hlt⟩

theorem Placed.misplaced {i a : Nat} (hk : ks[i]? = some a) : Misplaced fns L.parts i ↔ Inv ks (List.range L.segs.length) i a := by
  constructor
  · rintro ⟨f, a', j, g, b, hf, ha, hij, hg, hb, hlt⟩
    have h1 := (h.get hf).1 ha
    have h2 := (h.get hg).1 hb
    rw [hk] at h1
    cases h1
    exact ⟨a, hk, h.range hk, j, b, b, hij, h2, h.range h2, hlt⟩
  · rintro ⟨x, hx, hxa, j, b, y, hij, hy, hyb, hlt⟩
    obtain ⟨rfl, _⟩ := range_get hxa
    obtain ⟨rfl, _⟩ := range_get hyb
    obtain ⟨f, hf, ha⟩ := h.fn hx
    obtain ⟨g, hg, hb⟩ := h.fn hy
    exact ⟨f, _, j, g, _, hf, ha, hij, hg, hb, hlt⟩

theorem Placed.no321 (h3 : NoReversedTriple fns L.parts) : No321 ks (List.range L.segs.length) := by
  intro i j k a b c x y z hij hjk hx hy hz hxa hyb hzc
  obtain ⟨rfl, _⟩ := range_get hxa
  obtain ⟨rfl, _⟩ := range_get hyb
  obtain ⟨rfl, _⟩ := range_get hzc
  obtain ⟨f, hf, ha⟩ := h.fn hx
  obtain ⟨g, hg, hb⟩ := h.fn hy
  obtain ⟨q, hq, hc⟩ := h.fn hz
  exact h3 i j k f g q _ _ _ hij hjk hf hg hq ha hb hc

theorem Placed.part {z : Nat} {p : SolPart} (hp : L.parts[z]? = some p) : z ∈ ks ↔ ∃ f ∈ fns, Matches f p := by
  obtain ⟨o, ho⟩ := partsFrom_get (byteLen L.front) L.segs z
  rw [show partsFrom (byteLen L.front) L.segs = L.parts from rfl, hp] at ho
  cases hs : L.segs[z]? with
  | none => rw [hs] at ho; cases ho
  | some q =>
    obtain ⟨s, g⟩ := q
    rw [hs] at ho
    simp only [Option.map_some, Option.some.injEq] at ho
    subst ho
    rw [h.tree z s g hs]
    constructor <;> rintro ⟨f, hf, hm⟩ <;> refine ⟨f, hf, ?_⟩
    · rw [matches_at, ← is_iff_key]; exact hm
    · rw [matches_at, ← is_iff_key] at hm; exact hm

theorem Placed.blocked : Blocked fns L.parts ↔ BlockedIn ks (List.range L.segs.length) := by
  have hpl : L.parts.length = L.segs.length := partsFrom_length _ _
  constructor
  · rintro ⟨i, q, f, a, z, p, hih, hm, hnm, hf, ha, hza, hp, hno⟩
    have h1 := (h.get hf).1 ha
    obtain ⟨g, b, j, g', b', hg, hb, hr⟩ := id hm
    have h2 := (h.get hg).1 hb
    refine ⟨i, q, a, b, hih, (h.misplaced h2).1 hm, fun hi => hnm ((h.misplaced h1).2 hi), ⟨a, h1, h.range h1⟩, z, z, hza, ?_, ?_⟩
    · have := (List.getElem?_eq_some_iff.1 hp).1
      rw [List.getElem?_range (by omega)]
    · intro hz
      obtain ⟨f, hf, hm⟩ := (h.part hp).1 hz
      exact hno f hf hm
  · rintro ⟨i, q, a, b, hih, hi, hni, ⟨x, hx, hxa⟩, z, y, hza, hzy, hy⟩
    obtain ⟨rfl, _⟩ := range_get hxa
    obtain ⟨rfl, hlt⟩ := range_get hzy
    obtain ⟨f, hf, ha⟩ := h.fn hx
    obtain ⟨x, hx', hxb, _⟩ := id hi
    obtain ⟨rfl, _⟩ := range_get hxb
    obtain ⟨p, hp⟩ : ∃ p, L.parts[z]? = some p := ⟨_, List.getElem?_eq_getElem (by omega)⟩
    exact ⟨i, q, f, _, z, p, hih, (h.misplaced hx').2 hi, fun hm => hni ((h.misplaced hx).1 hm), hf, ha, hza, hp,
      fun f hf hm => hy ((h.part hp).2 ⟨f, hf, hm⟩)⟩

end

theorem Seats.keepKnown {fns : List HFn} {L : Layout} {ks : List Nat} (h : Seats fns L ks) (hm : Mixed fns L) : ∀ (rs : List Nat), (∀ k ∈ rs, k < L.segs.length) →
    keepKnown (fns.map HFn.identifier) (rs.filterMap (L.parts[·]?)) = .ok ((rs.filter (fun k => decide (k ∈ ks))).filterMap (L.parts[·]?))
  | [], _ => rfl
  | k :: rs, hr => by
    have ih := Seats.keepKnown h hm rs fun j hj => hr j (by simp [hj])
    have hk := hr k (by simp)
    obtain ⟨o, ho⟩ := partsFrom_get (byteLen L.front) L.segs k
    rw [show partsFrom (byteLen L.front) L.segs = L.parts from rfl] at ho
    obtain ⟨⟨s, g⟩, hs⟩ : ∃ s, L.segs[k]? = some s := ⟨_, List.getElem?_eq_getElem hk⟩
    have htree := h.tree k s g hs
    have hmem : s ∈ L.segs.map Prod.fst := List.mem_map.2 ⟨(s, g), List.mem_of_getElem? hs, rfl⟩
    rw [hs] at ho
    simp only [Option.map_some] at ho
    rw [List.filterMap_cons, ho]
    simp only
    cases s with
    | other t =>
      have hn : k ∉ ks := fun hk => by
        obtain ⟨f, _, hi⟩ := htree.1 hk
        exact hi
      rw [List.filter_cons_of_neg (by simpa using hn)]
      exact ih
    | fn ty name t =>
      cases name with
      | none => exact absurd hmem (hm.named ty t)
      | some m =>
        simp only [Seg.at, Bulloak.keepKnown, ih, Res.bind_ok]
        by_cases hin : m ∈ fns.map HFn.identifier
        · obtain ⟨f, hf, e⟩ := List.mem_map.1 hin
          have hin' := htree.2 (hm.own ty m t hmem f hf e)
          rw [if_pos hin, List.filter_cons_of_pos (by simpa using hin'), List.filterMap_cons, ho]
          rfl
        · have hn : k ∉ ks := fun hk => by
            obtain ⟨f, hf, hi⟩ := htree.1 hk
            exact hin (List.mem_map.2 ⟨f, hf, (Option.some.inj hi.1).symm⟩)
          rw [if_neg hin, List.filter_cons_of_neg (by simpa using hn)]

theorem filterMap_getD {α : Type} (x : α) (l : List α) : ∀ (rs : List Nat), (∀ k ∈ rs, k < l.length) →
    rs.filterMap (l[·]?) = rs.map (fun k => l[k]?.getD x)
  | [], _ => rfl
  | k :: rs, h => by
    rw [List.filterMap_cons, List.getElem?_eq_getElem (h k (by simp)), List.map_cons, filterMap_getD x l rs fun j hj => h j (by simp [hj]),
      List.getElem?_eq_getElem (h k (by simp))]
    rfl

/-- The last moved element is there. -/
theorem moves_last {α : Type} {l : List α} : ∀ {ps : List (Nat × Nat)} {cur r : List α}, ps ≠ [] → movesFrom l ps cur = .ok r →
    ∃ p ∈ ps, ∃ x, l[p.2]? = some x ∧ x ∈ r
  | [], _, _, h, _ => absurd rfl h
  | (i, a) :: ps, cur, r, _, hr => by
    cases ps with
    | nil =>
      rw [movesFrom] at hr
      cases hx : l[a]? with
      | none => rw [hx] at hr; cases hr
      | some x =>
        rw [hx] at hr
        unfold moveTo at hr
        simp only at hr
        split at hr
        · split at hr
          · rename_i h2
            simp only [Res.bind_ok, movesFrom] at hr
            cases hr
            exact ⟨(i, a), by simp, x, hx, (List.mem_insertIdx h2).2 (.inl rfl)⟩
          · cases hr
        · cases hr
    | cons q ps =>
      rw [movesFrom] at hr
      cases hx : l[a]? with
      | none => rw [hx] at hr; cases hr
      | some x =>
        rw [hx] at hr
        simp only at hr
        obtain ⟨c, _, h2⟩ := Res.bind_eq_ok.1 hr
        obtain ⟨p, hp, y, h3, h4⟩ := moves_last (ps := q :: ps) (by simp) h2
        exact ⟨p, List.mem_cons_of_mem _ hp, y, h3, h4⟩

theorem sortedLayout_text (L : Layout) {qs : List Nat} (hq : qs.filterMap (fun k => (L.segs[k]?).map Prod.fst) ≠ []) :
    (sortedLayout L qs).text = L.front ++ joinSep c!"\n\n" ((qs.filterMap (fun k => (L.segs[k]?).map Prod.fst)).map Seg.text) ++
      (if qs.length = L.segs.length then [] else separator) ++ blanked (fun j => decide (j ∈ qs)) 0 L.segs ++ '}' :: L.rest := by
  have : (sortedLayout L qs).text = L.front ++ (segsText (withGaps ((if qs.length = L.segs.length then [] else separator) ++ leadGap (fun j => decide (j ∈ qs)) 0 L.segs)
      (qs.filterMap (fun k => (L.segs[k]?).map Prod.fst)) ++ remaining (fun j => decide (j ∈ qs)) 0 L.segs) ++ '}' :: L.rest) := rfl
  rw [this, segsText_append, withGaps_text _ _ hq, blanked_remaining]
  simp only [List.append_assoc]

/-- What the order fix writes, if the functions to be moved have a small index in the tree. -/
theorem Seats.source {ctx : Context} {n : Str} {fns : List HFn} (hh : ctx.hir = ⟨[⟨n, fns⟩]⟩) {L : Layout} (hsrc : ctx.src = L.text)
    (hpt : FirstContract ctx.pt L.contract) {ks : List Nat} (h : Seats fns L ks) (hm : Mixed fns L) (hno : ¬ InOrder fns L.parts)
    (hlow : ∀ p ∈ unsortedPairs (presentAndMissing ctx L.contract 0 fns).1, p.1 < L.segs.length)
    {vs : List Violation} (hv : checkCtx ctx = .ok vs) :
    ∃ rs, movesFrom (List.range L.segs.length) (unsortedPairs (presentAndMissing ctx L.contract 0 fns).1) (List.range L.segs.length) = .ok rs ∧
      (∀ k ∈ rs, k < L.segs.length) ∧ (∃ k ∈ rs, k ∈ ks) ∧
      fixOrderSource ((vs.filter (fun v => v.kind.isOrder)).map Violation.kind) L.contract ⟨n, fns⟩ ctx.src =
        .ok (sortedLayout L (rs.filter (fun k => decide (k ∈ ks)))).text := by
  have hpl : L.parts.length = L.segs.length := partsFrom_length _ _
  have hseat : ∀ {i a : Nat}, (i, a) ∈ unsortedPairs (presentAndMissing ctx L.contract 0 fns).1 → a < L.segs.length ∧ a ∈ ks := by
    intro i a hp
    obtain ⟨f, hf, ⟨⟨p, hpa, hma⟩, _⟩, _⟩ := (mem_inversions ctx L.contract fns i a).1 hp
    have ha := (List.getElem?_eq_some_iff.1 hpa).1
    rw [show L.contract.parts = L.parts from rfl, hpl] at ha
    obtain ⟨o, ho⟩ := partsFrom_get (byteLen L.front) L.segs a
    obtain ⟨⟨s, g⟩, hs⟩ : ∃ s, L.segs[a]? = some s := ⟨_, List.getElem?_eq_getElem ha⟩
    rw [show partsFrom (byteLen L.front) L.segs = L.contract.parts from rfl, hpa, hs] at ho
    simp only [Option.map_some, Option.some.injEq] at ho
    subst ho
    rw [matches_at, ← is_iff_key] at hma
    exact ⟨ha, (h.tree a s g hs).2 ⟨f, List.mem_of_getElem? hf, hma⟩⟩
  have hne0 : unsortedPairs (presentAndMissing ctx L.contract 0 fns).1 ≠ [] := by
    intro e
    apply hno
    rw [inOrder_iff]
    intro i j f g hij hf hg a b ha hb
    refine Decidable.byContradiction fun hlt => ?_
    have : (i, a) ∈ unsortedPairs (presentAndMissing ctx L.contract 0 fns).1 :=
      (mem_inversions ctx L.contract fns i a).2 ⟨f, hf, ha, j, g, b, hij, hg, hb, by omega⟩
    rw [e] at this
    cases this
  obtain ⟨rs, hrs, hrs2⟩ := moves_total (l := List.range L.segs.length) (ps := unsortedPairs (presentAndMissing ctx L.contract 0 fns).1)
    (cur := List.range L.segs.length) rfl (fun _ h => h) (by
    rintro ⟨i, a⟩ hp
    have h1 := hlow _ hp
    have h2 := (hseat hp).1
    simp only [List.length_range] at h1 ⊢
    exact ⟨h1, h2⟩)
  have hlt : ∀ k ∈ rs, k < L.segs.length := fun k hk => List.mem_range.1 (hrs2 k hk)
  have hex : ∃ k ∈ rs, k ∈ ks := by
    obtain ⟨⟨i, a⟩, hp, x, hx, hxr⟩ := moves_last hne0 hrs
    simp only at hx
    have := (range_get hx).1
    exact ⟨x, hxr, this ▸ (hseat hp).2⟩
  refine ⟨rs, hrs, hlt, hex, ?_⟩
  generalize hqs : rs.filter (fun k => decide (k ∈ ks)) = qs
  have hqk : ∀ k ∈ qs, k ∈ ks := by
    intro k hk
    rw [← hqs, List.mem_filter, decide_eq_true_eq] at hk
    exact hk.2
  obtain ⟨v1, v3, h1, rfl, hv3⟩ := check_report hh hpt hv
  have e : (v1 ++ ((presentAndMissing ctx L.contract 0 fns).2 ++ v3)).filter (fun v => v.kind.isOrder) = v3 := by
    have e1 : v1.filter (fun v => v.kind.isOrder) = [] := by
      rcases names_report h1 with ⟨rfl, _⟩ | ⟨_, _, _, _, _, rfl⟩ <;> rfl
    have e2 : (presentAndMissing ctx L.contract 0 fns).2.filter (fun v => v.kind.isOrder) = [] := by
      apply List.filter_eq_nil_iff.2
      intro v hv
      obtain ⟨f, i, _, _, rfl, _⟩ := (presentAndMissing_missing ctx L.contract fns 0).1 v hv
      simp [ViolationKind.isOrder]
    have e3 : v3.filter (fun v => v.kind.isOrder) = v3 := by
      apply List.filter_eq_self.2
      intro v hv
      obtain ⟨p, _, g, line, _, _, rfl⟩ := each_mem_right hv3 hv
      rfl
    rw [List.filter_append, List.filter_append, e1, e2, e3]; rfl
  rw [e, hsrc]
  have hsort : sortParts (v3.map Violation.kind) L.contract.parts = .ok (rs.filterMap (L.parts[·]?)) := by
    rw [sortParts_moves hv3]
    have := moves_map (fun k => L.parts[k]?.getD (.other 0 0)) _ _ _ hrs
    rw [← filterMap_getD _ _ rs (by rw [hpl]; exact hlt), ← filterMap_getD _ _ _ (by rw [hpl]; exact fun k hk => List.mem_range.1 hk)] at this
    have er := range_filterMap L.parts
    rw [hpl] at er
    rw [er] at this
    exact this
  have hkeep := h.keepKnown hm rs hlt
  rw [hqs] at hkeep
  have hcoll := collect_marked L qs (fun _ => false) [] (by simp) (fun k hk => h.marked k (hqk k hk))
  rw [blanked_false, List.nil_append] at hcoll
  have hB : (fun j => false || decide (j ∈ qs)) = fun j => decide (j ∈ qs) := by funext j; simp
  rw [hB] at hcoll
  have htext : L.front ++ (segsText L.segs ++ '}' :: L.rest) = L.text := rfl
  rw [htext] at hcoll
  have hql : ∀ k ∈ qs, k < L.segs.length := fun k hk => h.lt k (hqk k hk)
  have hss : qs.filterMap (fun k => (L.segs[k]?).map Prod.fst) ≠ [] := by
    obtain ⟨k, hk1, hk2⟩ := hex
    have hkq : k ∈ qs := by rw [← hqs, List.mem_filter]; exact ⟨hk1, by simpa using hk2⟩
    intro e
    rw [List.filterMap_eq_nil_iff] at e
    have := e k hkq
    rw [List.getElem?_eq_getElem (hql k hkq)] at this
    cases this
  have hne : L.segs ≠ [] := by
    obtain ⟨k, hk1, _⟩ := hex
    have := hlt k hk1
    intro e
    rw [e] at this
    cases this
  obtain ⟨⟨s, g⟩, r, hsg⟩ := List.exists_cons_of_ne_nil hne
  have hp0 : L.contract.parts = s.at (byteLen L.front) :: partsFrom (byteLen L.front + byteLen s.text + byteLen g) r := by
    show L.parts = _
    unfold Layout.parts
    rw [hsg, partsFrom]
  have hstart : (s.at (byteLen L.front)).start = byteLen L.front := by cases s <;> rfl
  have hstop : L.contract.stop - 1 = byteLen L.front + byteLen (segsText L.segs) := by
    show byteLen L.front + byteLen (segsText L.segs) + 1 - 1 = _
    omega
  have hlenq : (qs.filterMap (L.parts[·]?)).length = qs.length := by
    rw [filterMap_getD (.other 0 0) _ _ (by rw [hpl]; exact hql), List.length_map]
  have hlenp : L.contract.parts.length = L.segs.length := hpl
  unfold fixOrderSource
  simp only [hsort, hkeep, hcoll, Res.bind_ok]
  rw [hlenq, hlenp]
  simp only [hp0, hstart, hstop]
  have s1 : splitAtByte (byteLen L.front) L.text = some (L.front, segsText L.segs ++ '}' :: L.rest) := splitAtByte_append _ _
  have s2 : sliceBytes (L.front ++ (blanked (fun j => decide (j ∈ qs)) 0 L.segs ++ '}' :: L.rest)) (byteLen L.front)
      (byteLen L.front + byteLen (segsText L.segs)) = some (blanked (fun j => decide (j ∈ qs)) 0 L.segs) := by
    rw [← blanked_byteLen (fun j => decide (j ∈ qs)) L.segs 0]
    exact sliceBytes_append _ _ _
  have s3 : splitAtByte (byteLen L.front + byteLen (segsText L.segs)) L.text = some (L.front ++ segsText L.segs, '}' :: L.rest) := by
    rw [← byteLen_append, ← htext, ← List.append_assoc]
    exact splitAtByte_append _ _
  rw [s1, s2, s3, sortedLayout_text L hss]

/-- What the order fix writes. -/
theorem keep_source {ctx : Context} {n : Str} {fns : List HFn} (hh : ctx.hir = ⟨[⟨n, fns⟩]⟩) {L : Layout} (hsrc : ctx.src = L.text)
    (hpt : FirstContract ctx.pt L.contract) {ks : List Nat} (h : Placed fns L ks) (hm : Mixed fns L) (hno : ¬ InOrder fns L.parts)
    {vs : List Violation} (hv : checkCtx ctx = .ok vs) :
    ∃ rs, movesFrom (List.range L.segs.length) (unsortedPairs (presentAndMissing ctx L.contract 0 fns).1) (List.range L.segs.length) = .ok rs ∧
      (∀ k ∈ rs, k < L.segs.length) ∧ (∃ k ∈ rs, k ∈ ks) ∧
      fixOrderSource ((vs.filter (fun v => v.kind.isOrder)).map Violation.kind) L.contract ⟨n, fns⟩ ctx.src =
        .ok (sortedLayout L (rs.filter (fun k => decide (k ∈ ks)))).text := by
  refine h.seats.source hh hsrc hpt hm hno ?_ hv
  have hlk := each_len h.at_
  have hkl : ks.length ≤ L.segs.length := by
    have := nodup_length_le h.nodup (b := List.range L.segs.length) fun k hk => List.mem_range.2 (h.lt k hk)
    simpa using this
  rintro ⟨i, a⟩ hp
  obtain ⟨x, hx, _⟩ := (h.inv i a).1 hp
  have h1 := (List.getElem?_eq_some_iff.1 hx).1
  simp only
  omega

end Bulloak
