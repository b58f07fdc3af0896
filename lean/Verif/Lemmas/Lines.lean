import Verif.Lemmas.Fix5
/-! # Lemmas about line numbers of byte offsets -/

namespace Bulloak
open Spec
set_option linter.unusedSectionVars false
variable [U : Ucd]

theorem offsetToLineFrom_eq (start : Nat) (s : Str) : ∀ idx line, idx ≤ start + 1 →
    offsetToLineFrom start idx line s =
      if start + 1 - idx < s.length then .ok (line + (s.take (start + 2 - idx)).count '\n') else .panic := by
  induction s with
  | nil => intro idx line h; simp [offsetToLineFrom]
  | cons c s ih =>
    intro idx line h
    rw [offsetToLineFrom]
    by_cases hlt : start < idx
    · have he : idx = start + 1 := by omega
      subst he
      have h1 : start + 1 - (start + 1) < (c :: s).length := by simp
      rw [if_pos h1, show start + 2 - (start + 1) = 1 by omega]
      by_cases hc : c = '\n' <;> simp [hc]
    · simp only [hlt, if_false]
      rw [ih (idx + 1) _ (by omega)]
      rw [show start + 2 - idx = (start + 2 - (idx + 1)) + 1 by omega, List.take_succ_cons]
      have e : (start + 1 - idx < (c :: s).length) = (start + 1 - (idx + 1) < s.length) := by
        simp only [List.length_cons, eq_iff_iff]; omega
      simp only [e]
      by_cases hl : start + 1 - (idx + 1) < s.length
      · rw [if_pos hl, if_pos hl]
        by_cases hc : c = '\n'
        · simp [hc]; omega
        · simp [hc]
      · rw [if_neg hl, if_neg hl]

/-- What the search for the line of an offset computes, and when it crashes. -/
theorem offsetToLine_eq (s : Str) (start : Nat) : offsetToLine s start =
    if start + 1 < s.length then .ok (1 + (s.take (start + 2)).count '\n') else .panic := by
  have := offsetToLineFrom_eq start s 0 1 (by omega)
  simpa [offsetToLine] using this

/-- Only ASCII characters. -/
def Spec.Ascii (s : Str) : Prop := ∀ c ∈ s, c.toNat < 128

theorem byteLen_ascii {s : Str} (h : Ascii s) : byteLen s = s.length := by
  induction s with
  | nil => rfl
  | cons c s ih =>
    rw [byteLen_cons, utf8_ascii (h c (by simp)), ih (fun d hd => h d (by simp [hd]))]
    simp; omega

theorem byteLen_ge (s : Str) : s.length ≤ byteLen s := by
  induction s with
  | nil => simp
  | cons c s ih =>
    rw [byteLen_cons]
    have := c.utf8Size_pos
    simp; omega

theorem ascii_append {a b : Str} : Ascii (a ++ b) ↔ Ascii a ∧ Ascii b := by
  simp only [Ascii, List.mem_append]
  constructor
  · intro h; exact ⟨fun c hc => h c (Or.inl hc), fun c hc => h c (Or.inr hc)⟩
  · rintro ⟨h1, h2⟩ c (hc | hc)
    · exact h1 c hc
    · exact h2 c hc

/-- The line of an offset in an ASCII text, if the two characters there are on the same line. -/
theorem offsetToLine_line {x : Str} {c d : Char} {y : Str} (hx : Ascii x) (hc : c ≠ '\n') (hd : d ≠ '\n') :
    offsetToLine (x ++ c :: d :: y) (byteLen x) = .ok (1 + x.count '\n') := by
  rw [offsetToLine_eq, byteLen_ascii hx, if_pos (by simp)]
  congr 2
  have : (x ++ c :: d :: y).take (x.length + 2) = x ++ [c, d] := by
    rw [List.take_append, List.take_of_length_le (by omega)]
    simp
  rw [this]
  simp [hc, hd]

theorem part_offset (L : Layout) {k : Nat} {p : SolPart} (hp : L.parts[k]? = some p) :
    ∃ x s y, L.text = x ++ (s.text ++ y) ∧ y ≠ [] ∧ p.start = byteLen x ∧ s ∈ L.segs.map Prod.fst := by
  obtain ⟨o', h⟩ := partsFrom_get (byteLen L.front) L.segs k
  have hp2 : (partsFrom (byteLen L.front) L.segs)[k]? = some p := hp
  rw [h] at hp2
  obtain ⟨⟨s, g⟩, hs, _⟩ := Option.map_eq_some_iff.1 hp2
  have hsp := split_at hs
  have hlen : (L.segs.take k).length = k := by
    have := (List.getElem?_eq_some_iff.1 hs).1
    simp; omega
  have h := partsFrom_at (byteLen L.front) (L.segs.take k) s g (L.segs.drop (k + 1))
  rw [← hsp, hlen] at h
  have hpe : p = s.at (byteLen L.front + byteLen (segsText (L.segs.take k))) := by
    have hp3 : (partsFrom (byteLen L.front) L.segs)[k]? = some p := hp
    rw [h] at hp3
    exact (Option.some.inj hp3).symm
  refine ⟨L.front ++ segsText (L.segs.take k), s, g ++ (segsText (L.segs.drop (k + 1)) ++ '}' :: L.rest), ?_, by simp, ?_, ?_⟩
  · unfold Layout.text
    conv => lhs; rw [hsp]
    rw [segsText_append]
    simp [segsText]
  · rw [hpe, seg_at_start, byteLen_append]
  · exact List.mem_map.2 ⟨(s, g), List.mem_of_getElem? hs, rfl⟩

theorem ascii_lines {L : Layout} (hA : Ascii L.text) (ht : ∀ s ∈ L.segs.map Prod.fst, s.text ≠ []) :
    (∃ l, offsetToLine L.text L.contract.start = .ok l) ∧ ∀ p ∈ L.parts, ∃ l, offsetToLine L.text p.start = .ok l := by
  constructor
  · have e : L.text = L.before ++ (L.header ++ '{' :: (L.lead ++ (segsText L.segs ++ '}' :: L.rest))) := by
      simp [Layout.text, Layout.front]
    have hs : L.contract.start = byteLen L.before := rfl
    have hb : Ascii L.before := (ascii_append.1 (e ▸ hA)).1
    rw [offsetToLine_eq, hs, byteLen_ascii hb, if_pos (by rw [e]; simp; omega)]
    exact ⟨_, rfl⟩
  · intro p hp
    obtain ⟨k, hk⟩ := List.mem_iff_getElem?.1 hp
    obtain ⟨x, s, y, h1, h2, h3, h4⟩ := part_offset L hk
    have hx : Ascii x := (ascii_append.1 (h1 ▸ hA)).1
    have a := List.length_pos_iff.2 (ht s h4)
    have b := List.length_pos_iff.2 h2
    rw [offsetToLine_eq, h3, byteLen_ascii hx, if_pos (by rw [h1]; simp; omega)]
    exact ⟨_, rfl⟩

theorem orderViolations_total {ctx : Context} {h : HContract} {s : SolContract} {l : List (Nat × Nat)}
    (hl : ∀ p ∈ l, p.1 < h.children.length ∧ ∃ q, s.parts[p.2]? = some q)
    (hline : ∀ p ∈ s.parts, ∃ n, offsetToLine ctx.src p.start = .ok n) : ∃ vs, orderViolations ctx h s l = .ok vs := by
  induction l with
  | nil => exact ⟨[], rfl⟩
  | cons p l ih =>
    obtain ⟨i, a⟩ := p
    obtain ⟨h1, q, hq⟩ := hl (i, a) (by simp)
    obtain ⟨vs, hvs⟩ := ih (fun p hp => hl p (by simp [hp]))
    rw [orderViolations]
    simp only at h1 hq
    rw [List.getElem?_eq_getElem h1, hq]
    cases q with
    | other => exact ⟨vs, hvs⟩
    | fn g =>
      obtain ⟨n, hn⟩ := hline _ (List.mem_of_getElem? hq)
      simp only [SolPart.start] at hn
      simp only [hn, hvs, Res.bind_ok]
      exact ⟨_, rfl⟩

/-- If the lines of contract and parts can be computed, `check` does not crash. -/
theorem check_total {ctx : Context} {n : Str} {fns : List HFn} (hh : ctx.hir = ⟨[⟨n, fns⟩]⟩) {s : SolContract}
    (hs : FirstContract ctx.pt s) (hc : ∃ l, offsetToLine ctx.src s.start = .ok l)
    (hline : ∀ p ∈ s.parts, ∃ n, offsetToLine ctx.src p.start = .ok n) : ∃ vs, checkCtx ctx = .ok vs := by
  have hf : ctx.hir.findContract = some ⟨n, fns⟩ := by rw [hh]; rfl
  obtain ⟨l, hl⟩ := hc
  have h1 : ∃ v1, checkContractNames ctx ⟨n, fns⟩ s = .ok v1 := by
    unfold checkContractNames
    split
    · simp only [hl, Res.bind_ok]; split <;> exact ⟨_, rfl⟩
    · exact ⟨_, rfl⟩
  obtain ⟨v1, h1⟩ := h1
  have h2 : ∃ v2, checkFnsStructure ctx ⟨n, fns⟩ s = .ok v2 := by
    unfold checkFnsStructure
    have hp := presentAndMissing_present ctx s fns 0
    have hsub := unsorted_sublist (presentAndMissing ctx s 0 fns).1
    have : ∀ p ∈ unsortedPairs (presentAndMissing ctx s 0 fns).1, p.1 < (⟨n, fns⟩ : HContract).children.length ∧ ∃ q, s.parts[p.2]? = some q := by
      rintro ⟨i, a⟩ hpa
      obtain ⟨g, _, hg, ⟨⟨q, hq, _⟩, _⟩⟩ := (hp.mem i a).1 (hsub.subset hpa)
      exact ⟨by simpa using (List.getElem?_eq_some_iff.1 hg).1, q, hq⟩
    obtain ⟨vs, hvs⟩ := orderViolations_total (h := ⟨n, fns⟩) this hline
    simp only [hvs, Res.bind_ok]
    split <;> exact ⟨_, rfl⟩
  obtain ⟨v2, h2⟩ := h2
  unfold checkCtx
  simp only [(findContract_iff _ _).2 hs, hf, h1, h2, Res.bind_ok]
  exact ⟨_, rfl⟩

end Bulloak
