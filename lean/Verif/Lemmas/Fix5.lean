import Verif.Lemmas.Fix4
/-! # Lemmas about fixing: the order fix -/

namespace Bulloak
open Spec
set_option linter.unusedSectionVars false
variable [U : Ucd]

theorem sortParts_moves {parts : List SolPart} {file : Str} {src : Str} {pairs : List (Nat × Nat)} {vs : List Violation}
    (h : Each (fun p v => ∃ g line, parts[p.2]? = some (.fn g) ∧ offsetToLine src g.start = .ok line ∧
      v = ⟨.functionOrderMismatch g p.2 p.1, .code file line⟩) pairs vs) (cur : List SolPart) :
    sortParts (vs.map Violation.kind) cur = movesFrom parts pairs cur := by
  induction h generalizing cur with
  | nil => rfl
  | @cons p v ps vs h _ ih =>
    obtain ⟨i, a⟩ := p
    obtain ⟨g, line, h1, _, rfl⟩ := h
    simp only at h1
    rw [List.map_cons, sortParts, movesFrom]
    simp only [h1]
    congr 1
    funext c
    exact ih c

theorem keepKnown_all {names : List Str} {ps : List SolPart}
    (h : ∀ p ∈ ps, ∃ g n, p = .fn g ∧ g.name = some n ∧ n ∈ names) : keepKnown names ps = .ok ps := by
  induction ps with
  | nil => rfl
  | cons p ps ih =>
    obtain ⟨g, n, rfl, h1, h2⟩ := h p (by simp)
    rw [keepKnown]
    simp only [h1, ih (fun q hq => h q (by simp [hq])), Res.bind_ok, h2, if_true]

theorem is_iff_key (f : HFn) (s : Seg) : s.Is f ↔ s.key = some (fnKey f) := by
  rw [← matches_at f s 0]
  cases s <;> exact Iff.rfl

/-- A contract made of exactly the functions of the tree, in some order. -/
structure Shuffled (fns : List HFn) (L : Layout) (ks : List Nat) : Prop where
  at_ : Each (fun f k => At L.parts f k) fns ks
  perm : (List.range L.segs.length).Perm ks

theorem shuffled_of {fns : List HFn} {L : Layout} (hd : Distinct fns) (hp : ∀ f ∈ fns, Present L.parts f)
    (hl : L.segs.length = fns.length) : ∃ ks, Shuffled fns L ks := by
  obtain ⟨ks, h⟩ := each_exists (R := fun f k => At L.parts f k) (fun f hf => present_at (hp f hf))
  refine ⟨ks, h, ?_⟩
  apply perm_of_subset
  · rw [List.nodup_iff_pairwise_ne, List.pairwise_iff_getElem]
    intro i j hi hj hij e
    obtain ⟨f, hf, haf⟩ := each_get' h (List.getElem?_eq_getElem hi)
    obtain ⟨g, hg, hag⟩ := each_get' h (List.getElem?_eq_getElem hj)
    rw [← e] at hag
    have h1 := ((layout_at L f _).1 haf).1
    rw [((layout_at L g _).1 hag).1] at h1
    have := distinct_key hd hf hg (Option.some.inj (Option.some.inj h1)).symm
    omega
  · intro k hk
    obtain ⟨f, _, ha⟩ := each_mem_right h hk
    have := kat_lt ((layout_at L f k).1 ha)
    rw [keys_length] at this
    exact List.mem_range.2 this
  · simp [hl, each_len h]

section
variable {fns : List HFn} {L : Layout} {ks : List Nat} (h : Shuffled fns L ks)
include h

theorem Shuffled.nodup : ks.Nodup := h.perm.nodup_iff.1 List.nodup_range

theorem Shuffled.lt {k : Nat} (hk : k ∈ ks) : k < L.segs.length := List.mem_range.1 (h.perm.mem_iff.2 hk)

theorem Shuffled.partsPerm : L.parts.Perm (ks.filterMap (L.parts[·]?)) := by
  have e : L.parts = (List.range L.segs.length).filterMap (L.parts[·]?) := by
    have := range_filterMap L.parts
    have hl : L.parts.length = L.segs.length := partsFrom_length _ _
    rw [hl] at this
    exact this.symm
  have h2 := h.perm.filterMap (L.parts[·]?)
  rw [← e] at h2
  exact h2

theorem Shuffled.segsPerm : (ks.filterMap (fun k => (L.segs[k]?).map Prod.fst)).Perm (L.segs.map Prod.fst) := by
  have e : L.segs.map Prod.fst = (List.range L.segs.length).filterMap (fun k => (L.segs[k]?).map Prod.fst) := by
    have := range_filterMap (L.segs.map Prod.fst)
    simp only [List.length_map, List.getElem?_map] at this
    exact this.symm
  have h2 := h.perm.filterMap (fun k => (L.segs[k]?).map Prod.fst)
  rw [← e] at h2
  exact h2.symm

end

theorem filterMap_get {α β : Type} (f : α → Option β) {l : List α} (hf : ∀ x ∈ l, (f x).isSome = true) (i : Nat) :
    (l.filterMap f)[i]? = (l[i]?).bind f := by
  induction l generalizing i with
  | nil => simp
  | cons x l ih =>
    obtain ⟨y, hy⟩ := Option.isSome_iff_exists.1 (hf x (by simp))
    rw [List.filterMap_cons, hy]
    cases i with
    | zero => simp [hy]
    | succ i => simpa using ih (fun z hz => hf z (by simp [hz])) i

/-- The parts in the order of the tree. -/
theorem Shuffled.get {fns : List HFn} {L : Layout} {ks : List Nat} (h : Shuffled fns L ks) {i : Nat} {f : HFn}
    (hf : fns[i]? = some f) : ∃ k p s, ks[i]? = some k ∧ At L.parts f k ∧ L.parts[k]? = some p ∧ L.segs[k]? = some s ∧ s.1.Is f ∧
      Matches f p ∧ (ks.filterMap (L.parts[·]?))[i]? = some p ∧ (ks.filterMap (fun k => (L.segs[k]?).map Prod.fst))[i]? = some s.1 := by
  obtain ⟨k, hk, ha⟩ := each_get h.at_ hf
  have hlt := h.lt (List.mem_of_getElem? hk)
  obtain ⟨s, hs⟩ : ∃ s, L.segs[k]? = some s := ⟨_, List.getElem?_eq_getElem hlt⟩
  obtain ⟨⟨p, hp, hm⟩, _⟩ := id ha
  refine ⟨k, p, s, hk, ha, hp, hs, ?_, hm, ?_, ?_⟩
  · have := ((layout_at L f k).1 ha).1
    simp only [Layout.keys, List.getElem?_map, hs, Option.map_some, Option.some.injEq] at this
    exact (is_iff_key f s.1).2 this
  · rw [filterMap_get]
    · simp [hk, hp]
    · intro x hx
      have := h.lt hx
      have hl : L.parts.length = L.segs.length := partsFrom_length _ _
      simp [hl, this]
  · rw [filterMap_get]
    · simp [hk, hs]
    · intro x hx
      simp [h.lt hx]

theorem each_of_get {α β : Type} {R : α → β → Prop} : ∀ {as : List α} {bs : List β}, as.length = bs.length →
    (∀ (i : Nat) a, as[i]? = some a → ∃ b, bs[i]? = some b ∧ R a b) → Each R as bs
  | [], [], _, _ => .nil
  | [], _ :: _, h, _ => by simp at h
  | _ :: _, [], h, _ => by simp at h
  | a :: as, b :: bs, h, hg => by
    obtain ⟨b', hb, hr⟩ := hg 0 a rfl
    simp only [List.getElem?_cons_zero, Option.some.injEq] at hb
    subst hb
    exact .cons hr (each_of_get (by simpa using h) (fun i x hx => by simpa using hg (i + 1) x (by simpa using hx)))

theorem shuffled_each {fns : List HFn} {L : Layout} {ks : List Nat} (h : Shuffled fns L ks) :
    Each Seg.Is fns (ks.filterMap (fun k => (L.segs[k]?).map Prod.fst)) := by
  apply each_of_get
  · have h1 := h.segsPerm.length_eq
    have h3 := h.perm.length_eq
    have h4 := each_len h.at_
    simp only [List.length_range, List.length_map] at h1 h3
    omega
  · intro i f hf
    obtain ⟨k, p, s, _, _, _, _, h1, _, _, h2⟩ := h.get hf
    exact ⟨s.1, h2, h1⟩

theorem shuffled_nodup {fns : List HFn} {L : Layout} {ks : List Nat} (h : Shuffled fns L ks) (hd : Distinct fns) : 
    (ks.filterMap (L.parts[·]?)).Nodup := by
  have hlen : (ks.filterMap (L.parts[·]?)).length = fns.length := by
    have h1 := h.partsPerm.length_eq
    have h2 : L.parts.length = L.segs.length := partsFrom_length _ _
    have h3 := h.perm.length_eq
    have h4 := each_len h.at_
    simp only [List.length_range] at h3
    omega
  rw [List.nodup_iff_pairwise_ne, List.pairwise_iff_getElem]
  intro i j hi hj hij e
  rw [hlen] at hi hj
  obtain ⟨_, p, _, _, _, _, _, _, hm, hp, _⟩ := h.get (List.getElem?_eq_getElem hi)
  obtain ⟨_, q, _, _, _, _, _, _, hn, hq, _⟩ := h.get (List.getElem?_eq_getElem hj)
  rw [List.getElem?_eq_getElem (by omega)] at hp hq
  rw [← e, hp] at hq
  have hpq := Option.some.inj hq
  subst hpq
  have : fnKey fns[i] = fnKey fns[j] := by
    cases p with
    | other => cases hm
    | fn g =>
      obtain ⟨m1, m2⟩ := hm
      obtain ⟨n1, n2⟩ := hn
      rw [m1] at n1; rw [m2] at n2
      simp only [fnKey, Prod.mk.injEq]
      exact ⟨Option.some.inj n2, Option.some.inj n1⟩
  have := distinct_key hd (List.getElem?_eq_getElem hi) (List.getElem?_eq_getElem hj) this
  omega

/-- The order fix on a contract made of the tree's functions. -/
theorem fixOrderSource_ok {ctx : Context} {n : Str} {fns : List HFn} (hh : ctx.hir = ⟨[⟨n, fns⟩]⟩) {L : Layout}
    (hsrc : ctx.src = L.text) (hpt : FirstContract ctx.pt L.contract) (hd : Distinct fns) {ks : List Nat} (h : Shuffled fns L ks)
    (h3 : NoReversedTriple fns L.parts) (hsep : Separate L) (hne : L.segs ≠ []) {vs : List Violation} (hv : checkCtx ctx = .ok vs) :
    fixOrderSource ((vs.filter (fun v => v.kind.isOrder)).map Violation.kind) L.contract ⟨n, fns⟩ ctx.src =
      .ok (L.reordered (ks.filterMap (fun k => (L.segs[k]?).map Prod.fst))).text := by
  obtain ⟨v1, v3, h1, rfl, hv3⟩ := check_report hh hpt hv
  have e : (v1 ++ ((presentAndMissing ctx L.contract 0 fns).2 ++ v3)).filter (fun v => v.kind.isOrder) = v3 := by
    have e1 : v1.filter (fun v => v.kind.isOrder) = [] := by
      rcases names_report h1 with ⟨rfl, _⟩ | ⟨_, _, _, _, _, rfl⟩ <;> rfl
    have e2 : (presentAndMissing ctx L.contract 0 fns).2.filter (fun v => v.kind.isOrder) = [] := by
      apply List.filter_eq_nil_iff.2
      intro v hv
      obtain ⟨f, i, _, _, rfl, _⟩ := (presentAndMissing_missing ctx L.contract fns 0).1 v hv
      simp [ViolationKind.isOrder]
    have e3 : v3.filter (fun v => v.kind.isOrder) = v3 := by
      apply List.filter_eq_self.2
      intro v hv
      obtain ⟨p, _, g, line, _, _, rfl⟩ := each_mem_right hv3 hv
      rfl
    rw [List.filter_append, List.filter_append, e1, e2, e3]; rfl
  rw [e, hsrc]
  have hlen : L.parts.length = L.segs.length := partsFrom_length _ _
  have hnd := shuffled_nodup h hd
  have hpn : L.parts.Nodup := h.partsPerm.nodup_iff.2 hnd
  -- positions
  have hflen : fns.length = (ks.filterMap (L.parts[·]?)).length := by
    have h1 := h.partsPerm.length_eq
    have h3 := h.perm.length_eq
    have h4 := each_len h.at_
    simp only [List.length_range] at h3
    omega
  have hpos : ∀ (i a : Nat) x, (ks.filterMap (L.parts[·]?))[i]? = some x → L.parts[a]? = some x → ∃ f, fns[i]? = some f ∧ At L.parts f a := by
    intro i a x hx ha
    have hi : i < fns.length := by rw [hflen]; exact (List.getElem?_eq_some_iff.1 hx).1
    obtain ⟨k, p, _, _, hat, hp, _, _, _, hp', _⟩ := h.get (List.getElem?_eq_getElem hi)
    rw [hx] at hp'
    have := Option.some.inj hp'
    subst this
    have := nodup_get hpn ha hp
    subst this
    exact ⟨_, List.getElem?_eq_getElem hi, hat⟩
  have hpos' : ∀ (i a : Nat) f, fns[i]? = some f → At L.parts f a → ∃ x, (ks.filterMap (L.parts[·]?))[i]? = some x ∧ L.parts[a]? = some x := by
    intro i a f hf ha
    obtain ⟨k, p, _, _, hat, hp, _, _, _, hp', _⟩ := h.get hf
    have := at_unique hat ha
    subst this
    exact ⟨p, hp', hp⟩
  have hmoves : movesFrom L.parts (unsortedPairs (presentAndMissing ctx L.contract 0 fns).1) L.parts = .ok (ks.filterMap (L.parts[·]?)) := by
    apply moves_ok h.partsPerm hnd
    · intro i j k a b c x y z hij hjk hx hy hz hx' hy' hz'
      obtain ⟨f, hf, haf⟩ := hpos i a x hx hx'
      obtain ⟨g, hg, hag⟩ := hpos j b y hy hy'
      obtain ⟨q, hq, haq⟩ := hpos k c z hz hz'
      exact h3 i j k f g q a b c hij hjk hf hg hq haf hag haq
    · exact List.Pairwise.sublist ((unsorted_sublist _).map Prod.fst) (presentAndMissing_present ctx L.contract fns 0).inc
    · intro i a
      rw [mem_inversions]
      constructor
      · rintro ⟨f, hf, ha, j, g, b, hij, hg, hb, hlt⟩
        obtain ⟨x, hx, hx'⟩ := hpos' i a f hf ha
        obtain ⟨y, hy, hy'⟩ := hpos' j b g hg hb
        exact ⟨x, hx, hx', j, b, y, hij, hy, hy', hlt⟩
      · rintro ⟨x, hx, hx', j, b, y, hij, hy, hy', hlt⟩
        obtain ⟨f, hf, ha⟩ := hpos i a x hx hx'
        obtain ⟨g, hg, hb⟩ := hpos j b y hy hy'
        exact ⟨f, hf, ha, j, g, b, hij, hg, hb, hlt⟩
  have hsort : sortParts (v3.map Violation.kind) L.contract.parts = .ok (ks.filterMap (L.parts[·]?)) := by
    rw [sortParts_moves hv3]; exact hmoves
  have hkeep : keepKnown (fns.map HFn.identifier) (ks.filterMap (L.parts[·]?)) = .ok (ks.filterMap (L.parts[·]?)) := by
    apply keepKnown_all
    intro p hp
    obtain ⟨i, hi⟩ := List.mem_iff_getElem?.1 hp
    have hif : i < fns.length := by rw [hflen]; exact (List.getElem?_eq_some_iff.1 hi).1
    obtain ⟨k, q, _, _, _, _, _, _, hm, hq, _⟩ := h.get (List.getElem?_eq_getElem hif)
    rw [hi] at hq
    have := Option.some.inj hq
    subst this
    cases p with
    | other => cases hm
    | fn g => exact ⟨g, _, rfl, hm.1, List.mem_map.2 ⟨_, List.getElem_mem hif, rfl⟩⟩
  have hcoll := collect_ok L hsep ks (fun _ => false) [] h.nodup (fun k hk => ⟨h.lt hk, rfl⟩)
  have hall : blanked (fun j => false || decide (j ∈ ks)) 0 L.segs = blanked (fun _ => true) 0 L.segs := by
    apply blanked_congr
    intro j _ hj
    have : j ∈ ks := h.perm.mem_iff.1 (List.mem_range.2 (by omega))
    simp [this]
  rw [blanked_false, hall, List.nil_append] at hcoll
  have htext : L.front ++ (segsText L.segs ++ '}' :: L.rest) = L.text := rfl
  rw [htext] at hcoll
  obtain ⟨⟨s, g⟩, r, hsg⟩ := List.exists_cons_of_ne_nil hne
  have hp0 : L.contract.parts = s.at (byteLen L.front) :: partsFrom (byteLen L.front + byteLen s.text + byteLen g) r := by
    show L.parts = _
    unfold Layout.parts
    rw [hsg, partsFrom]
  have hstart : (s.at (byteLen L.front)).start = byteLen L.front := by cases s <;> rfl
  have hstop : L.contract.stop - 1 = byteLen L.front + byteLen (segsText L.segs) := by
    show byteLen L.front + byteLen (segsText L.segs) + 1 - 1 = _
    omega
  have hlen2 : (ks.filterMap (L.parts[·]?)).length = L.contract.parts.length := h.partsPerm.length_eq.symm
  unfold fixOrderSource
  simp only [hsort, hkeep, hcoll, Res.bind_ok]
  rw [hlen2]
  simp only [hp0, if_true, hstart, hstop]
  have s1 : splitAtByte (byteLen L.front) L.text = some (L.front, segsText L.segs ++ '}' :: L.rest) := splitAtByte_append _ _
  have s2 : sliceBytes (L.front ++ (blanked (fun _ => true) 0 L.segs ++ '}' :: L.rest)) (byteLen L.front)
      (byteLen L.front + byteLen (segsText L.segs)) = some (blanked (fun _ => true) 0 L.segs) := by
    rw [← blanked_byteLen (fun _ => true) L.segs 0]
    exact sliceBytes_append _ _ _
  have s3 : splitAtByte (byteLen L.front + byteLen (segsText L.segs)) L.text = some (L.front ++ segsText L.segs, '}' :: L.rest) := by
    rw [← byteLen_append, ← htext, ← List.append_assoc]
    exact splitAtByte_append _ _
  rw [s1, s2, s3]
  have hss : ks.filterMap (fun k => (L.segs[k]?).map Prod.fst) ≠ [] := by
    intro e
    have := h.segsPerm.length_eq
    rw [e, hsg] at this
    simp at this
  have e5 : (L.reordered (ks.filterMap (fun k => (L.segs[k]?).map Prod.fst))).text = L.front ++
      (segsText (withGaps (blanked (fun _ => true) 0 L.segs) (ks.filterMap (fun k => (L.segs[k]?).map Prod.fst))) ++ '}' :: L.rest) := rfl
  simp only [e5, withGaps_text _ _ hss, List.append_assoc, List.append_nil]

end Bulloak
