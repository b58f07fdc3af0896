import Verif.Props.Fix
/-! # Computing what the specification of fixing describes

Used to meet the hypotheses of the theorems about fixing with concrete files. -/

namespace Bulloak
open Spec
set_option linter.unusedSectionVars false

/-- A parser that knows some files. -/
def knows (Ls : List Layout) : SolParser := fun s =>
  (Ls.find? (fun L => decide (L.text = s))).map (fun L => [.contract L.contract])

theorem knows_sound {Ls : List Layout} {src : Str} {u : SolUnit} (h : knows Ls src = some u) :
    ∃ L ∈ Ls, L.text = src ∧ FirstContract u L.contract := by
  obtain ⟨L, hL, rfl⟩ := Option.map_eq_some_iff.1 h
  exact ⟨L, List.mem_of_find?_eq_some hL, by simpa using List.find?_some hL, 0, [], rfl⟩

theorem readsAs_of {P : SolParser} {L : Layout} (h : P L.text = some [.contract L.contract]) : ReadsAs P L :=
  ⟨_, h, 0, [], rfl⟩

/-- Computes `Place`. -/
def placeOf (fns : List HFn) (L : Layout) : Nat → Option Nat
  | 0 => some 0
  | k + 1 => match fns[k]? with
    | none => none
    | some g => (findMatchingFn L.contract g).map (fun p => p.1 + 1)

/-- Computes `Filling`. -/
def fillingOf (skip : Bool) (fns : List HFn) (L : Layout) : Nat → Option Layout
  | 0 => some L
  | k + 1 => match fillingOf skip fns L k, fns[k]? with
    | some L', some f =>
      if Reported skip L f then (placeOf fns L' k).map (L'.insert f) else some L'
    | _, _ => none

theorem placeOf_eq {fns : List HFn} {L : Layout} {k p : Nat} (h : Place fns L k p) : placeOf fns L k = some p := by
  rcases h with ⟨rfl, rfl⟩ | ⟨i, g, a, rfl, hg, ha, rfl⟩
  · rfl
  · simp only [placeOf, hg]
    rcases findMatchingFn_cases L.contract g with ⟨_, hno⟩ | ⟨b, _, h, _, hb⟩
    · exact absurd (at_present ha) hno
    · rw [h, at_unique hb ha]; rfl

theorem fillingOf_eq {skip : Bool} {fns : List HFn} {L L' : Layout} {k : Nat} (h : Filling skip fns L k L') :
    fillingOf skip fns L k = some L' := by
  induction h with
  | start => rfl
  | insert _ hf hr hp ih => rw [fillingOf, ih, hf]; simp only [hr, if_true, placeOf_eq hp, Option.map_some]
  | keep _ hf hr ih => rw [fillingOf, ih, hf]; simp only [hr, if_false]

theorem filling_le {skip : Bool} {fns : List HFn} {L L' : Layout} {k : Nat} (h : Filling skip fns L k L') : k ≤ fns.length := by
  cases h with
  | start => omega
  | insert _ hf _ _ => have := (List.getElem?_eq_some_iff.1 hf).1; omega
  | keep _ hf _ => have := (List.getElem?_eq_some_iff.1 hf).1; omega

/-- Checks that a parser reads all files that occur while filling in functions. -/
def readsAll (P : SolParser) (skip : Bool) (fns : List HFn) (L : Layout) : Bool :=
  (List.range (fns.length + 1)).all (fun k =>
    match fillingOf skip fns L k with
    | some L' => decide (P L'.text = some [.contract L'.contract])
    | none => true)

theorem readsAll_reads {P : SolParser} {skip : Bool} {fns : List HFn} {L : Layout} (h : readsAll P skip fns L = true) :
    ∀ k L', Filling skip fns L k L' → ReadsAs P L' := by
  intro k L' hf
  unfold readsAll at h
  rw [List.all_eq_true] at h
  have := h k (by have := filling_le hf; simp; omega)
  rw [fillingOf_eq hf] at this
  exact readsAs_of (by simpa using this)

/-! ## Separation -/

theorem index_unique {d : Char} : ∀ {s a b a' b' : Str}, s.count d = 1 → s = a ++ d :: b → s = a' ++ d :: b' → a.length = a'.length := by
  intro s a
  induction a generalizing s with
  | nil =>
    intro b a' b' hc h1 h2
    subst h1
    cases a' with
    | nil => rfl
    | cons c a' =>
      simp only [List.nil_append, List.cons_append, List.cons.injEq] at h2
      rw [List.nil_append, List.count_cons_self] at hc
      have : 0 < b.count d := List.count_pos_iff.2 (by rw [h2.2]; simp)
      omega
  | cons c a ih =>
    intro b a' b' hc h1 h2
    subst h1
    cases a' with
    | nil =>
      simp only [List.nil_append, List.cons_append, List.cons.injEq] at h2
      rw [h2.1, List.cons_append, List.count_cons_self, List.count_append, List.count_cons_self] at hc
      omega
    | cons c' a' =>
      simp only [List.cons_append, List.cons.injEq] at h2
      have hc' : (a ++ d :: b).count d = 1 := by
        have h3 : 0 < (a ++ d :: b).count d := List.count_pos_iff.2 (by simp)
        rw [List.cons_append, List.count_cons] at hc
        omega
      have := ih hc' rfl h2.2
      simp [this]

/-- A text with a character that occurs nowhere else occurs once. -/
theorem once_of_char {x t y : Str} {d : Char} (hd : d ∈ t) (hc : (x ++ (t ++ y)).count d = 1) : Once x t y := by
  intro a b e
  obtain ⟨p, q, rfl⟩ := List.append_of_mem hd
  have h := index_unique (a := x ++ p) (b := q ++ y) (a' := a ++ p) (b' := q ++ b) hc (by simp) (by rw [e]; simp)
  simp only [List.length_append] at h
  have hl : x.length = a.length := by omega
  have h2 := congrArg (List.take a.length) e
  rw [List.take_left, ← hl, List.take_left] at h2
  exact h2.symm

theorem blanked_count {d : Char} (hd : d ≠ ' ') (B : Nat → Bool) (l : List (Seg × Str)) : ∀ k,
    (blanked B k l).count d ≤ (segsText l).count d := by
  induction l with
  | nil => intro k; simp [blanked]
  | cons p l ih =>
    intro k
    obtain ⟨s, g⟩ := p
    have := ih (k + 1)
    have hs : (spaces (byteLen s.text)).count d = 0 := by
      rw [List.count_eq_zero]
      intro h
      exact hd (List.eq_of_mem_replicate h)
    have e : segsText ((s, g) :: l) = s.text ++ (g ++ segsText l) := by simp [segsText]
    rw [e, blanked]
    simp only [List.count_append]
    split
    · omega
    · omega

/-- Checks `Separate` for files in which every part has one of the given characters, which occurs nowhere else. -/
def separateOf (marks : Str) (L : Layout) : Bool :=
  L.segs.all (fun p => marks.any (fun d => d != ' ' && decide (d ∈ p.1.text) && L.text.count d == 1))

theorem separateOf_separate {marks : Str} {L : Layout} (h : separateOf marks L = true) : Separate L := by
  intro B pre s g post e
  simp only [separateOf, List.all_eq_true, List.any_eq_true, Bool.and_eq_true, bne_iff_ne, beq_iff_eq, decide_eq_true_eq] at h
  obtain ⟨d, _, ⟨hne, hd⟩, hc⟩ := h (s, g) (by rw [e]; simp)
  simp only at hd
  refine ⟨List.ne_nil_of_mem hd, once_of_char hd ?_⟩
  have et : L.text = L.front ++ (segsText pre ++ (s.text ++ (g ++ (segsText post ++ '}' :: L.rest)))) := by
    unfold Layout.text
    rw [e, segsText_append]
    simp [segsText]
  rw [et] at hc
  have h1 := blanked_count hne B pre 0
  have h2 := blanked_count hne B post (pre.length + 1)
  have h3 : 0 < s.text.count d := List.count_pos_iff.2 hd
  simp only [List.count_append] at hc ⊢
  omega

/-! ## The sorted functions -/

instance (f : HFn) : (s : Seg) → Decidable (s.Is f)
  | .fn ty name _ => inferInstanceAs (Decidable (name = some f.identifier ∧ kindOf ty = some f.ty))
  | .other _ => isFalse (fun h => h)

/-- The parts in the order of the tree, if each function is there exactly once. -/
def sortedOf (fns : List HFn) (ss : List Seg) : List Seg := fns.filterMap (fun f => ss.find? (fun s => decide (s.Is f)))

theorem sortedOf_eq {fns : List HFn} {ss : List Seg} (h : Each Seg.Is fns ss) {all : List Seg} (hs : ∀ s ∈ ss, s ∈ all)
    (hu : ∀ f ∈ fns, (all.filter (fun s => decide (s.Is f))).length ≤ 1) : ss = sortedOf fns all := by
  induction h with
  | nil => rfl
  | @cons f s fs ss hi _ ih =>
    have ih := ih (fun s hs' => hs s (by simp [hs'])) (fun f hf => hu f (by simp [hf]))
    have hf : all.find? (fun s => decide (s.Is f)) = some s := by
      have hm : s ∈ all.filter (fun s => decide (s.Is f)) := List.mem_filter.2 ⟨hs s (by simp), by simpa using hi⟩
      have h1 := hu f (by simp)
      rw [← List.head?_filter]
      match hl : all.filter (fun s => decide (s.Is f)) with
      | [] => rw [hl] at hm; cases hm
      | [x] => rw [hl] at hm; simp only [List.mem_singleton] at hm; rw [hl, hm]; rfl
      | x :: y :: r => rw [hl] at h1; simp at h1
    unfold sortedOf at ih ⊢
    rw [List.filterMap_cons, hf]
    simp only
    rw [← ih]

/-- Checks that a parser reads the sorted file. -/
def readsSorted (marks : Str) (P : SolParser) (fns : List HFn) (L : Layout) : Bool :=
  match fillingOf false fns L fns.length with
  | none => true
  | some L' => separateOf marks L' && fns.all (fun f => decide (((L'.segs.map Prod.fst).filter (fun s => decide (s.Is f))).length ≤ 1)) &&
      decide (P (L'.reordered (sortedOf fns (L'.segs.map Prod.fst))).text =
        some [.contract (L'.reordered (sortedOf fns (L'.segs.map Prod.fst))).contract])

theorem readsSorted_reads {marks : Str} {P : SolParser} {fns : List HFn} {L : Layout} (h : readsSorted marks P fns L = true) :
    ∀ L', Filling false fns L fns.length L' → Separate L' ∧ ∀ ss, Each Seg.Is fns ss → ss.Perm (L'.segs.map Prod.fst) →
      ReadsAs P (L'.reordered ss) := by
  intro L' hf
  unfold readsSorted at h
  rw [fillingOf_eq hf] at h
  simp only [Bool.and_eq_true, List.all_eq_true, decide_eq_true_eq] at h
  refine ⟨separateOf_separate h.1.1, ?_⟩
  intro ss he hp
  rw [sortedOf_eq he (fun s hs => hp.mem_iff.1 hs) h.1.2]
  exact readsAs_of h.2

/-- Checks `OnlyTree`. -/
def onlyTreeOf (fns : List HFn) (L : Layout) : Bool :=
  (L.segs.map Prod.fst).all (fun s => fns.any (fun f => decide (s.Is f))) && decide L.keys.Nodup

theorem onlyTreeOf_only {fns : List HFn} {L : Layout} (h : onlyTreeOf fns L = true) : OnlyTree fns L := by
  simp only [onlyTreeOf, Bool.and_eq_true, List.all_eq_true, List.any_eq_true, decide_eq_true_eq] at h
  refine ⟨h.1, ?_⟩
  have e : L.keys = (L.segs.map Prod.fst).map Seg.key := by simp [Layout.keys, Function.comp_def]
  have h2 := h.2
  rw [e, List.nodup_iff_pairwise_ne, List.pairwise_map] at h2
  refine h2.imp ?_
  intro s t hst f hs ht
  exact hst (((@is_iff_key asciiUcd f s).1 hs).trans ((@is_iff_key asciiUcd f t).1 ht).symm)

/-- Checks `Distinct`. -/
def distinctOf (fns : List HFn) : Bool := decide (fns.map (fun f => (f.identifier, f.ty))).Nodup

theorem distinctOf_distinct {fns : List HFn} (h : distinctOf fns = true) : Distinct fns := by
  simp only [distinctOf, decide_eq_true_eq] at h
  rw [List.nodup_iff_pairwise_ne, List.pairwise_map] at h
  refine h.imp ?_
  rintro f g h ⟨h1, h2⟩
  exact h (by rw [h1, h2])

/-- Checks `Ascii`. -/
def asciiOf (s : Str) : Bool := s.all (fun c => decide (c.toNat < 128))

theorem asciiOf_ascii {s : Str} (h : asciiOf s = true) : Ascii s := by
  simp only [asciiOf, List.all_eq_true, decide_eq_true_eq] at h
  exact h

/-- The index of a function in the contract. -/
def posOf (fns : List HFn) (L : Layout) (i : Nat) : Option Nat :=
  match fns[i]? with
  | none => none
  | some f => (findMatchingFn L.contract f).map Prod.fst

theorem posOf_eq {fns : List HFn} {L : Layout} {i a : Nat} {f : HFn} (hf : fns[i]? = some f) (ha : At L.parts f a) :
    posOf fns L i = some a := by
  simp only [posOf, hf]
  rcases findMatchingFn_cases L.contract f with ⟨_, hno⟩ | ⟨b, _, h, _, hb⟩
  · exact absurd (at_present ha) hno
  · rw [h, at_unique hb ha]; rfl

/-- Checks `InOrder`. -/
def inOrderOf (fns : List HFn) (L : Layout) : Bool :=
  (List.range fns.length).all (fun i => (List.range fns.length).all (fun j =>
    match posOf fns L i, posOf fns L j with
    | some a, some b => !decide (i < j) || decide (a ≤ b)
    | _, _ => true))

theorem inOrderOf_inOrder {fns : List HFn} {L : Layout} (h : inOrderOf fns L = true) : InOrder fns L.parts := by
  rw [@inOrder_iff asciiUcd]
  intro i j f g hij hf hg a b ha hb
  simp only [inOrderOf, List.all_eq_true, List.mem_range] at h
  have := h i (List.getElem?_eq_some_iff.1 hf).1 j (List.getElem?_eq_some_iff.1 hg).1
  rw [posOf_eq hf ha, posOf_eq hg hb] at this
  simp [hij] at this
  exact this

/-- Checks `NoReversedTriple`. -/
def noTripleOf (fns : List HFn) (L : Layout) : Bool :=
  (List.range fns.length).all (fun i => (List.range fns.length).all (fun j => (List.range fns.length).all (fun k =>
    match posOf fns L i, posOf fns L j, posOf fns L k with
    | some a, some b, some c => !decide (i < j ∧ j < k) || !decide (c < b ∧ b < a)
    | _, _, _ => true)))

theorem noTripleOf_triple {fns : List HFn} {L : Layout} (h : noTripleOf fns L = true) : NoReversedTriple fns L.parts := by
  intro i j k f g q a b c hij hjk hf hg hq ha hb hc
  simp only [noTripleOf, List.all_eq_true, List.mem_range] at h
  have := h i (List.getElem?_eq_some_iff.1 hf).1 j (List.getElem?_eq_some_iff.1 hg).1 k (List.getElem?_eq_some_iff.1 hq).1
  rw [posOf_eq hf ha, posOf_eq hg hb, posOf_eq hq hc] at this
  simp only [hij, hjk, and_self, decide_true, Bool.not_true, Bool.false_or, Bool.not_eq_true', decide_eq_false_iff_not] at this
  exact this

theorem posOf_at {fns : List HFn} {L : Layout} {i a : Nat} (h : posOf fns L i = some a) :
    ∃ f, fns[i]? = some f ∧ At L.parts f a := by
  unfold posOf at h
  cases hf : fns[i]? with
  | none => rw [hf] at h; cases h
  | some f =>
    rw [hf] at h
    simp only at h
    refine ⟨f, rfl, ?_⟩
    rcases findMatchingFn_cases L.contract f with ⟨h1, _⟩ | ⟨b, g, h1, _, hb⟩
    · rw [h1] at h; cases h
    · rw [h1] at h
      simp only [Option.map_some, Option.some.injEq] at h
      rw [← h]; exact hb

/-- Shows a reversed triple. -/
theorem triple_of_pos {fns : List HFn} {L : Layout} (i j k : Nat) {a b c : Nat} (hij : i < j) (hjk : j < k)
    (ha : posOf fns L i = some a) (hb : posOf fns L j = some b) (hc : posOf fns L k = some c) (h1 : c < b) (h2 : b < a) :
    ¬ NoReversedTriple fns L.parts := by
  intro h
  obtain ⟨f, hf, haf⟩ := posOf_at ha
  obtain ⟨g, hg, hag⟩ := posOf_at hb
  obtain ⟨q, hq, haq⟩ := posOf_at hc
  exact h i j k f g q a b c hij hjk hf hg hq haf hag haq ⟨h1, h2⟩

/-- Shows an inversion. -/
theorem not_inOrder_of_pos {fns : List HFn} {L : Layout} (i j : Nat) {a b : Nat} (hij : i < j)
    (ha : posOf fns L i = some a) (hb : posOf fns L j = some b) (h1 : b < a) : ¬ InOrder fns L.parts := by
  intro h
  obtain ⟨f, hf, haf⟩ := posOf_at ha
  obtain ⟨g, hg, hag⟩ := posOf_at hb
  have := (@inOrder_iff asciiUcd fns L.parts).1 h i j f g hij hf hg a b haf hag
  omega

end Bulloak
