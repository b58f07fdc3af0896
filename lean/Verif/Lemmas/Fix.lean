import Verif.Spec.Fix
import Verif.Lemmas.Check
import Verif.Lemmas.Parse
import Verif.Props.Sol
/-! # Lemmas about fixing -/

namespace Bulloak
open Spec
set_option linter.unusedSectionVars false

/-! ## Byte offsets -/

theorem utf8Size_ne_zero (c : Char) : c.utf8Size ≠ 0 := by
  have := c.utf8Size_pos; omega

theorem byteLen_cons (c : Char) (s : Str) : byteLen (c :: s) = c.utf8Size + byteLen s := by simp [byteLen]

theorem byteLen_nil : byteLen [] = 0 := rfl

theorem splitAtByte_append (a b : Str) : splitAtByte (byteLen a) (a ++ b) = some (a, b) := by
  induction a with
  | nil => simp [byteLen_nil, splitAtByte]
  | cons c a ih =>
    have hc := c.utf8Size_pos
    have e : byteLen (c :: a) = (byteLen a + (c.utf8Size - 1)) + 1 := by rw [byteLen_cons]; omega
    rw [e, List.cons_append, splitAtByte, if_pos (by omega),
      show byteLen a + (c.utf8Size - 1) + 1 - c.utf8Size = byteLen a by omega, ih]

/-- Splitting succeeds exactly at character boundaries. -/
theorem splitAtByte_some {n : Nat} {s a b : Str} : splitAtByte n s = some (a, b) ↔ s = a ++ b ∧ byteLen a = n := by
  constructor
  · intro h
    induction s generalizing n a b with
    | nil =>
      cases n with
      | zero => simp only [splitAtByte, Option.some.injEq, Prod.mk.injEq] at h; obtain ⟨rfl, rfl⟩ := h; exact ⟨rfl, rfl⟩
      | succ n => simp [splitAtByte] at h
    | cons c s ih =>
      cases n with
      | zero => simp only [splitAtByte, Option.some.injEq, Prod.mk.injEq] at h; obtain ⟨rfl, rfl⟩ := h; exact ⟨rfl, rfl⟩
      | succ n =>
        rw [splitAtByte] at h
        split at h
        · rename_i hle
          cases hr : splitAtByte (n + 1 - c.utf8Size) s with
          | none => rw [hr] at h; cases h
          | some x =>
            obtain ⟨x, y⟩ := x
            rw [hr] at h
            simp only [Option.some.injEq, Prod.mk.injEq] at h
            obtain ⟨rfl, rfl⟩ := h
            obtain ⟨rfl, h2⟩ := ih hr
            refine ⟨rfl, ?_⟩
            rw [byteLen_cons, h2]; omega
        · cases h
  · rintro ⟨rfl, rfl⟩
    exact splitAtByte_append a b

theorem sliceBytes_append (a b c : Str) : sliceBytes (a ++ (b ++ c)) (byteLen a) (byteLen a + byteLen b) = some b := by
  unfold sliceBytes
  rw [← byteLen_append, ← List.append_assoc, splitAtByte_append]
  simp [splitAtByte_append]

theorem findChar_append (c : Char) (a b : Str) (h : c ∉ a) : findChar c (a ++ c :: b) = some (byteLen a) := by
  induction a with
  | nil => simp [findChar, byteLen_nil]
  | cons d a ih =>
    simp only [List.mem_cons, not_or] at h
    rw [List.cons_append, findChar, if_neg (fun e => h.1 e.symm), ih h.2, byteLen_cons]
    simp [Nat.add_comm]

/-! ## Keys of parts -/

/-- Kind and name of a part, if the tree could ask for it. -/
def Spec.Seg.key : Seg → Option (FnTy × Str)
  | .fn ty (some n) _ => (kindOf ty).map (·, n)
  | _ => none

/-- Kind and name of a function of the tree. -/
def fnKey (f : HFn) : FnTy × Str := (f.ty, f.identifier)

theorem matches_at (f : HFn) (s : Seg) (o : Nat) : Matches f (s.at o) ↔ s.key = some (fnKey f) := by
  cases s with
  | other t => simp [Seg.at, Matches, Seg.key]
  | fn ty name t =>
    cases name with
    | none => simp [Seg.at, Matches, Seg.key]
    | some n =>
      simp only [Seg.at, Matches, Seg.key, fnKey, Option.some.injEq, Option.map_eq_some_iff, Prod.mk.injEq]
      constructor
      · rintro ⟨rfl, h⟩; exact ⟨_, h, rfl, rfl⟩
      · rintro ⟨_, h, rfl, rfl⟩; exact ⟨rfl, h⟩

theorem key_newSeg (f : HFn) : (newSeg f).key = some (fnKey f) := by
  obtain ⟨i, ty, sp, m, c⟩ := f
  cases ty <;> rfl

/-- The keys of the parts of a layout. -/
def Spec.Layout.keys (L : Layout) : List (Option (FnTy × Str)) := L.segs.map (fun p => p.1.key)

/-- `x` is first found at index `a`. -/
def KAt (ks : List (Option (FnTy × Str))) (x : FnTy × Str) (a : Nat) : Prop :=
  ks[a]? = some (some x) ∧ ∀ j, j < a → ks[j]? ≠ some (some x)

theorem partsFrom_get (o : Nat) (l : List (Seg × Str)) (i : Nat) :
    ∃ o', (partsFrom o l)[i]? = (l[i]?).map (fun p => p.1.at o') := by
  induction l generalizing o i with
  | nil => exact ⟨0, by simp [partsFrom]⟩
  | cons p l ih =>
    obtain ⟨s, g⟩ := p
    cases i with
    | zero => exact ⟨o, by simp [partsFrom]⟩
    | succ i => simpa [partsFrom] using ih _ i

theorem at_iff_key (o : Nat) (l : List (Seg × Str)) (f : HFn) (a : Nat) :
    At (partsFrom o l) f a ↔ KAt (l.map (fun p => p.1.key)) (fnKey f) a := by
  have e : ∀ j : Nat, (∃ p, (partsFrom o l)[j]? = some p ∧ Matches f p) ↔ (l.map (fun p => p.1.key))[j]? = some (some (fnKey f)) := by
    intro j
    obtain ⟨o', h⟩ := partsFrom_get o l j
    rw [h]
    simp only [Option.map_eq_some_iff, List.getElem?_map]
    constructor
    · rintro ⟨_, ⟨p, hp, rfl⟩, hm⟩
      exact ⟨p, hp, (matches_at f _ _).1 hm⟩
    · rintro ⟨p, hp, hk⟩
      exact ⟨_, ⟨p, hp, rfl⟩, (matches_at f _ _).2 hk⟩
  constructor
  · rintro ⟨h1, h⟩
    refine ⟨(e a).1 h1, fun j hj hk => ?_⟩
    obtain ⟨p, hp, hm⟩ := (e j).2 hk
    exact h j p hj hp hm
  · rintro ⟨h1, h⟩
    exact ⟨(e a).2 h1, fun j p hj hp hm => h j hj ((e j).1 ⟨p, hp, hm⟩)⟩

theorem layout_at (L : Layout) (f : HFn) (a : Nat) : At L.parts f a ↔ KAt L.keys (fnKey f) a := at_iff_key _ _ _ _

theorem layout_present (L : Layout) (f : HFn) : Present L.parts f ↔ some (fnKey f) ∈ L.keys := by
  constructor
  · intro h
    obtain ⟨a, ha⟩ := present_at h
    exact List.mem_of_getElem? ((layout_at L f a).1 ha).1
  · intro h
    have : ∀ (ks : List (Option (FnTy × Str))), some (fnKey f) ∈ ks → ∃ a, KAt ks (fnKey f) a := by
      intro ks
      induction ks with
      | nil => simp
      | cons k ks ih =>
        intro h
        by_cases hk : k = some (fnKey f)
        · exact ⟨0, by simp [hk], by simp⟩
        · obtain ⟨a, h1, h2⟩ := ih (by simpa [Ne.symm hk] using h)
          refine ⟨a + 1, by simpa using h1, ?_⟩
          intro j hj
          cases j with
          | zero => simpa using hk
          | succ j => simpa using h2 j (by omega)
    obtain ⟨a, ha⟩ := this _ h
    exact at_present ((layout_at L f a).2 ha)

theorem insertAfter_keys (f : HFn) (k : Nat) (l : List (Seg × Str)) (hk : k < l.length) :
    (insertAfter f k l).map (fun p => p.1.key) = (l.map (fun p => p.1.key)).insertIdx (k + 1) (some (fnKey f)) := by
  induction l generalizing k with
  | nil => simp at hk
  | cons p l ih =>
    obtain ⟨s, g⟩ := p
    cases k with
    | zero => simp [insertAfter, key_newSeg]
    | succ k =>
      simp only [insertAfter, List.map_cons, List.insertIdx_succ_cons, List.cons.injEq, true_and]
      exact ih k (by simpa using hk)

theorem insert_keys (L : Layout) (f : HFn) (k : Nat) (hk : k ≤ L.segs.length) :
    (L.insert f k).keys = L.keys.insertIdx k (some (fnKey f)) := by
  cases k with
  | zero => simp [Layout.insert, Layout.keys, key_newSeg]
  | succ k => exact insertAfter_keys f k L.segs (by omega)

theorem kat_insert_ne {ks : List (Option (FnTy × Str))} {x : FnTy × Str} {a : Nat} (h : KAt ks x a) {k : Nat} (hk : k ≤ ks.length)
    {y : Option (FnTy × Str)} (hy : y ≠ some x) : KAt (ks.insertIdx k y) x (if a < k then a else a + 1) := by
  obtain ⟨h1, h2⟩ := h
  constructor
  · rw [List.getElem?_insertIdx]
    split
    · simpa using h1
    · rw [if_neg (by omega)]
      rw [if_neg (by omega)]; simpa using h1
  · intro j hj
    rw [List.getElem?_insertIdx]
    split
    · apply h2; split at hj <;> omega
    · split
      · rw [if_pos (by omega)]; simpa using hy
      · apply h2
        split at hj <;> omega

theorem kat_insert_new {ks : List (Option (FnTy × Str))} {x : FnTy × Str} (h : some x ∉ ks) {k : Nat} (hk : k ≤ ks.length) :
    KAt (ks.insertIdx k (some x)) x k := by
  constructor
  · rw [List.getElem?_insertIdx]; simp [hk]
  · intro j hj
    rw [List.getElem?_insertIdx, if_pos hj]
    intro hm
    exact h (List.mem_of_getElem? hm)

theorem kat_unique {ks : List (Option (FnTy × Str))} {x : FnTy × Str} {a b : Nat} (h1 : KAt ks x a) (h2 : KAt ks x b) : a = b := by
  rcases Nat.lt_trichotomy a b with h | h | h
  · exact absurd h1.1 (h2.2 a h)
  · exact h
  · exact absurd h2.1 (h1.2 b h)

/-! ## The text of a layout with a function inserted -/

theorem trimEnd_append_of_not_ws (a : Str) (c : Char) (b : Str) (hc : isWs c = false) (hb : ∀ d ∈ b, isWs d = true) :
    trimEnd (a ++ c :: b) = a ++ [c] := by
  unfold trimEnd
  have : (a ++ c :: b).reverse = b.reverse ++ c :: a.reverse := by simp
  rw [this, List.dropWhile_append_of_pos (by simpa using hb), List.dropWhile_cons_of_neg (by simp [hc])]
  simp

theorem emitFunction_shape (f : HFn) : ∃ c r, isWs c = false ∧ emitFunction f = c!"  " ++ (c :: r ++ c!"}\n\n") := by
  obtain ⟨i, ty, sp, m, ch⟩ := f
  cases ty with
  | modifier =>
    refine ⟨'m', c!"odifier " ++ i ++ c!"() {\n" ++ indent2 ++ c!"_;\n" ++ indent1, by decide, ?_⟩
    simp only [emitFunction, emitModifier]
    simp [indent1, spaces, List.append_assoc, List.replicate]
  | function =>
    cases m with
    | none =>
      refine ⟨'f', c!"unction " ++ (i ++ (c!"() external {\n" ++ ((ch.getD []).flatMap emitBodyItem ++ indent1))), by decide, ?_⟩
      simp only [emitFunction, emitFnHeader]
      simp [indent1, spaces, List.append_assoc, List.replicate]
    | some m =>
      refine ⟨'f', c!"unction " ++ (i ++ (c!"()\n" ++ (indent2 ++ (c!"external\n" ++ (m.flatMap (fun m => indent2 ++ m ++ c!"\n")
        ++ (indent1 ++ (c!"{\n" ++ ((ch.getD []).flatMap emitBodyItem ++ indent1)))))))), by decide, ?_⟩
      simp only [emitFunction, emitFnHeader]
      simp [indent1, spaces, List.append_assoc, List.replicate]

/-- The inserted text: two spaces and the text of the part. -/
theorem trimEnd_emitFunction (f : HFn) : trimEnd (emitFunction f) = c!"  " ++ (newSeg f).text := by
  obtain ⟨c, r, hc, h⟩ := emitFunction_shape f
  have e1 : trimEnd (emitFunction f) = c!"  " ++ (c :: r ++ c!"}") := by
    rw [h]
    have := trimEnd_append_of_not_ws (c!"  " ++ c :: r) '}' c!"\n\n" (by decide) (by decide)
    simpa using this
  have e2 : trim (emitFunction f) = c :: r ++ c!"}" := by
    unfold trim trimStart
    rw [h]
    have : List.dropWhile isWs (c!"  " ++ (c :: r ++ c!"}\n\n")) = c :: r ++ c!"}\n\n" := by
      rw [List.dropWhile_append_of_pos (by decide)]
      rw [List.cons_append, List.dropWhile_cons_of_neg (by simp [hc])]
    rw [this]
    have := trimEnd_append_of_not_ws (c :: r) '}' c!"\n\n" (by decide) (by decide)
    simpa using this
  rw [e1]
  show _ = c!"  " ++ trim (emitFunction f)
  rw [e2]

/-- A layout split behind its part with index `k`. -/
theorem segs_split (o : Nat) (l : List (Seg × Str)) (k : Nat) (hk : k < l.length) :
    ∃ a b s, segsText l = a ++ b ∧ l[k]? = some s ∧ (partsFrom o l)[k]? = some (s.1.at (o + byteLen a - byteLen s.1.text)) ∧
      byteLen s.1.text ≤ byteLen a ∧
      ∀ f, segsText (insertAfter f k l) = a ++ (c!"\n\n" ++ (trimEnd (emitFunction f) ++ b)) := by
  induction l generalizing o k with
  | nil => simp at hk
  | cons p l ih =>
    obtain ⟨s, g⟩ := p
    cases k with
    | zero =>
      refine ⟨s.text, g ++ segsText l, (s, g), by simp [segsText], rfl, ?_, Nat.le_refl _, ?_⟩
      · simp [partsFrom]
      · intro f
        simp [insertAfter, segsText, trimEnd_emitFunction]
    | succ k =>
      obtain ⟨a, b, t, h1, h2, h3, h4, h5⟩ := ih (o + byteLen s.text + byteLen g) k (by simpa using hk)
      refine ⟨s.text ++ g ++ a, b, t, ?_, by simpa using h2, ?_, ?_, ?_⟩
      · simp only [segsText, List.flatMap_cons] at h1 ⊢; rw [h1]; simp
      · simp only [partsFrom, List.getElem?_cons_succ, h3, byteLen_append]
        congr 2
        omega
      · simp only [byteLen_append]; omega
      · intro f
        have := h5 f
        simp only [insertAfter, segsText, List.flatMap_cons] at this ⊢
        rw [this]; simp

/-- Inserting a function at the end of a part. -/
theorem insert_text_succ (L : Layout) (f : HFn) (k : Nat) (p : SolPart) (hp : L.parts[k]? = some p) :
    insertFunctionAt L.text f p.stop = .ok (L.insert f (k + 1)).text := by
  have hk : k < L.segs.length := by
    obtain ⟨o', h⟩ := partsFrom_get (byteLen L.front) L.segs k
    have h' : (L.segs[k]?).map (fun p => p.1.at o') = some p := by rw [← h]; exact hp
    rcases Option.map_eq_some_iff.1 h' with ⟨x, hx, _⟩
    exact (List.getElem?_eq_some_iff.1 hx).1
  obtain ⟨a, b, s, h1, h2, h3, h4, h5⟩ := segs_split (byteLen L.front) L.segs k hk
  have hp' : p = s.1.at (byteLen L.front + byteLen a - byteLen s.1.text) := by
    have : L.parts[k]? = some (s.1.at (byteLen L.front + byteLen a - byteLen s.1.text)) := h3
    rw [hp] at this; exact Option.some.inj this
  have hs : p.stop = byteLen (L.front ++ a) := by
    rw [hp', byteLen_append]
    cases hs1 : s.1 with
    | fn ty n t => rw [hs1] at h4; simp only [Seg.at, SolPart.stop, Seg.text] at h4 ⊢; omega
    | other t => rw [hs1] at h4; simp only [Seg.at, SolPart.stop, Seg.text] at h4 ⊢; omega
  unfold insertFunctionAt
  have ht : L.text = (L.front ++ a) ++ (b ++ '}' :: L.rest) := by
    simp [Layout.text, h1]
  rw [ht, hs, splitAtByte_append]
  simp only [Layout.insert, Layout.text, h5 f]
  simp [Layout.front]

/-- Inserting a function behind the opening brace. -/
theorem insert_text_zero (L : Layout) (hb : '{' ∉ L.header) (f : HFn) :
    ∃ o, findContractBodyStart L.contract L.text = .ok o ∧ insertFunctionAt L.text f o = .ok (L.insert f 0).text := by
  refine ⟨byteLen L.before + byteLen L.header + 1, ?_, ?_⟩
  · unfold findContractBodyStart
    have ht : L.text = L.before ++ (L.header ++ '{' :: (L.lead ++ (segsText L.segs ++ '}' :: L.rest))) := by
      simp [Layout.text, Layout.front]
    have hs : L.contract.start = byteLen L.before := rfl
    rw [ht, hs, splitAtByte_append]
    simp only [findChar_append _ _ _ hb]
  · unfold insertFunctionAt
    have ht : L.text = (L.before ++ (L.header ++ c!"{")) ++ (L.lead ++ (segsText L.segs ++ '}' :: L.rest)) := by
      simp [Layout.text, Layout.front]
    have hl : byteLen L.before + byteLen L.header + 1 = byteLen (L.before ++ (L.header ++ c!"{")) := by
      rw [byteLen_append, byteLen_append]
      have : byteLen c!"{" = 1 := by decide
      omega
    rw [ht, hl, splitAtByte_append]
    simp [Layout.insert, Layout.text, Layout.front, trimEnd_emitFunction, segsText]

theorem insert_sublist (L : Layout) (f : HFn) (k : Nat) (hk : k ≤ L.segs.length) : L.text.Sublist (L.insert f k).text := by
  cases k with
  | zero =>
    simp only [Layout.insert, Layout.text, Layout.front, segsText, List.flatMap_cons, List.append_assoc, List.cons_append]
    refine List.Sublist.append_left (List.Sublist.append_left (List.Sublist.cons_cons _ ?_) _) _
    exact ((List.sublist_append_right (newSeg f).text _).trans (List.sublist_append_right c!"\n\n  " _))
  | succ k =>
    obtain ⟨a, b, s, h1, _, _, _, h5⟩ := segs_split 0 L.segs k (by omega)
    simp only [Layout.insert, Layout.text, Layout.front, h1, h5 f, List.append_assoc]
    refine List.Sublist.append_left (List.Sublist.append_left (List.Sublist.append_left (List.Sublist.append_left ?_ _) _) _) _
    exact (List.sublist_append_right _ _).trans (List.sublist_append_right _ _)

theorem insertAfter_map (f : HFn) (k : Nat) (l : List (Seg × Str)) (hk : k < l.length) :
    (insertAfter f k l).map Prod.fst = (l.map Prod.fst).insertIdx (k + 1) (newSeg f) := by
  induction l generalizing k with
  | nil => simp at hk
  | cons p l ih =>
    obtain ⟨s, g⟩ := p
    cases k with
    | zero => simp [insertAfter]
    | succ k =>
      simp only [insertAfter, List.map_cons, List.insertIdx_succ_cons, List.cons.injEq, true_and]
      exact ih k (by simpa using hk)

theorem insert_map (L : Layout) (f : HFn) (k : Nat) (hk : k ≤ L.segs.length) :
    (L.insert f k).segs.map Prod.fst = (L.segs.map Prod.fst).insertIdx k (newSeg f) := by
  cases k with
  | zero => simp [Layout.insert]
  | succ k => exact insertAfter_map f k L.segs (by omega)

end Bulloak
