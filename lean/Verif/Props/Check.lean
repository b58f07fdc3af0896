import Verif.Lemmas.Check
import Verif.Props.Sol
/-!
# `check` (C37 to C42)
-/

set_option linter.unusedSectionVars false

namespace Bulloak
open Spec

section
variable [U : Ucd]

theorem findContract_none (u : SolUnit) : findContract u = none ↔ ∀ s, ¬ FirstContract u s := by
  constructor
  · intro h s hs
    rw [(findContract_iff u s).2 hs] at h
    cases h
  · intro h
    cases hc : findContract u with
    | none => rfl
    | some s => exact absurd ((findContract_iff u s).1 hc) (h s)

/-- The structure of the list of violations. -/
theorem check_report {ctx : Context} {n : Str} {fns : List HFn} (hh : ctx.hir = ⟨[⟨n, fns⟩]⟩) {s : SolContract}
    (hs : FirstContract ctx.pt s) {vs : List Violation} (hv : checkCtx ctx = .ok vs) :
    ∃ v1 v3, checkContractNames ctx ⟨n, fns⟩ s = .ok v1 ∧ vs = v1 ++ ((presentAndMissing ctx s 0 fns).2 ++ v3) ∧
      Each (fun p v => ∃ g line, s.parts[p.2]? = some (.fn g) ∧ offsetToLine ctx.src g.start = .ok line ∧
        v = ⟨.functionOrderMismatch g p.2 p.1, .code ctx.sol line⟩) (unsortedPairs (presentAndMissing ctx s 0 fns).1) v3 := by
  unfold checkCtx at hv
  rw [(findContract_iff _ _).2 hs, hh] at hv
  simp only [HRoot.findContract, List.head?_cons] at hv
  obtain ⟨v1, h1, hv⟩ := Res.bind_eq_ok.1 hv
  obtain ⟨v2, h2, hv⟩ := Res.bind_eq_ok.1 hv
  cases hv
  refine ⟨v1, ?_⟩
  unfold checkFnsStructure at h2
  simp only at h2
  by_cases he : (presentAndMissing ctx s 0 fns).1.isEmpty = true
  · rw [if_pos he] at h2
    cases h2
    have he' : (presentAndMissing ctx s 0 fns).1 = [] := List.isEmpty_iff.1 he
    exact ⟨[], h1, by simp, by rw [he']; exact .nil⟩
  · rw [if_neg he] at h2
    obtain ⟨v3, h3, h2⟩ := Res.bind_eq_ok.1 h2
    cases h2
    refine ⟨v3, h1, rfl, orderViolations_ok ?_ h3⟩
    intro p hp
    obtain ⟨i, a⟩ := p
    obtain ⟨f, _, _, ha⟩ := ((presentAndMissing_present ctx s fns 0).mem i a).1 ((unsorted_sublist _).subset hp)
    rcases findMatchingFn_cases s f with ⟨_, hn⟩ | ⟨j, g, _, hg, hj⟩
    · exact absurd (at_present ha) hn
    · rw [at_unique ha hj]; exact ⟨g, hg⟩

/-- What the name rule yields. -/
theorem names_report {ctx : Context} {h : HContract} {s : SolContract} {v1 : List Violation}
    (h1 : checkContractNames ctx h s = .ok v1) :
    (v1 = [] ∧ ∀ m, s.name = some m → m = sanitize h.identifier) ∨
    ∃ m line, s.name = some m ∧ m ≠ sanitize h.identifier ∧ offsetToLine ctx.src s.start = .ok line ∧
      v1 = [⟨.contractNameNotMatches (sanitize h.identifier) m, .code ctx.sol line⟩] := by
  unfold checkContractNames at h1
  cases hn : s.name with
  | none => rw [hn] at h1; cases h1; exact Or.inl ⟨rfl, by simp⟩
  | some m =>
    rw [hn] at h1
    simp only at h1
    by_cases he : m = sanitize h.identifier
    · rw [if_neg (by simp [he])] at h1
      cases h1
      exact Or.inl ⟨rfl, by rintro _ ⟨⟩; exact he⟩
    · rw [if_pos he] at h1
      obtain ⟨line, h2, h3⟩ := Res.bind_eq_ok.1 h1
      cases h3
      exact Or.inr ⟨m, line, rfl, he, h2, rfl⟩

theorem each_mem_right {α β : Type} {R : α → β → Prop} {as : List α} {bs : List β} (h : Each R as bs) {b : β} (hb : b ∈ bs) :
    ∃ a ∈ as, R a b := by
  induction h with
  | nil => cases hb
  | cons h _ ih =>
    rcases List.mem_cons.1 hb with rfl | hb
    · exact ⟨_, by simp, h⟩
    · obtain ⟨a, ha, hr⟩ := ih hb
      exact ⟨a, by simp [ha], hr⟩

theorem each_mem_left {α β : Type} {R : α → β → Prop} {as : List α} {bs : List β} (h : Each R as bs) {a : α} (ha : a ∈ as) :
    ∃ b ∈ bs, R a b := by
  induction h with
  | nil => cases ha
  | cons h _ ih =>
    rcases List.mem_cons.1 ha with rfl | ha
    · exact ⟨_, by simp, h⟩
    · obtain ⟨b, hb, hr⟩ := ih ha
      exact ⟨b, by simp [hb], hr⟩

/-- Membership in the reported inversions. -/
theorem mem_inversions (ctx : Context) (s : SolContract) (fns : List HFn) (i a : Nat) :
    (i, a) ∈ unsortedPairs (presentAndMissing ctx s 0 fns).1 ↔
      ∃ f, fns[i]? = some f ∧ At s.parts f a ∧ ∃ j g b, i < j ∧ fns[j]? = some g ∧ At s.parts g b ∧ b < a := by
  have hp := presentAndMissing_present ctx s fns 0
  rw [mem_unsorted hp.inc, hp.mem]
  constructor
  · rintro ⟨⟨f, _, h1, h2⟩, j, b, hjb, h3, h4⟩
    obtain ⟨g, _, h5, h6⟩ := (hp.mem j b).1 hjb
    exact ⟨f, by simpa using h1, h2, j, g, b, h3, by simpa using h5, h6, h4⟩
  · rintro ⟨f, h1, h2, j, g, b, h3, h5, h6, h4⟩
    exact ⟨⟨f, Nat.zero_le _, by simpa using h1, h2⟩, j, b, (hp.mem j b).2 ⟨g, Nat.zero_le _, by simpa using h5, h6⟩, h3, h4⟩

/-- **C37**, no contract: the only violation is that the contract is missing. -/
theorem C37_no_contract {ctx : Context} {n : Str} {fns : List HFn} (hh : ctx.hir = ⟨[⟨n, fns⟩]⟩)
    (hs : ∀ s, ¬ FirstContract ctx.pt s) : checkCtx ctx = .ok [⟨.contractMissing n, .file ctx.tree⟩] := by
  unfold checkCtx
  rw [(findContract_none _).2 hs, hh]
  rfl

/-- **C37.** `check` reports nothing exactly if there is a contract, it has the name of the tree, every function of
the tree (except modifiers with `-m`) is there, and the functions come in the order of the tree. -/
theorem C37_silent_iff {ctx : Context} {n : Str} {fns : List HFn} (hh : ctx.hir = ⟨[⟨n, fns⟩]⟩) :
    checkCtx ctx = .ok [] ↔ ∃ s, FirstContract ctx.pt s ∧ (∀ m, s.name = some m → m = sanitize n) ∧
      (∀ f ∈ fns, Present s.parts f ∨ (ctx.skipModifiers = true ∧ f.ty = .modifier)) ∧
      fns.Pairwise (fun f g => ∀ i j, At s.parts f i → At s.parts g j → i ≤ j) := by
  constructor
  · intro h
    cases hc : findContract ctx.pt with
    | none =>
      rw [C37_no_contract hh ((findContract_none _).1 hc)] at h
      cases h
    | some s =>
      have hs := (findContract_iff _ _).1 hc
      obtain ⟨v1, v3, h1, h2, h3⟩ := check_report hh hs h
      have h2' := h2.symm
      simp only [List.append_eq_nil_iff] at h2'
      obtain ⟨rfl, hm, rfl⟩ := h2'
      refine ⟨s, hs, ?_, ?_, ?_⟩
      · rcases names_report h1 with ⟨_, h⟩ | ⟨_, _, _, _, _, h⟩
        · exact h
        · cases h
      · intro f hf
        by_cases hp : Present s.parts f
        · exact Or.inl hp
        · by_cases hsk : ctx.skipModifiers = true ∧ f.ty = .modifier
          · exact Or.inr hsk
          · obtain ⟨i, hi⟩ := List.mem_iff_getElem?.1 hf
            have := (presentAndMissing_missing ctx s fns 0).2.1 f i (Nat.zero_le _) (by simpa using hi) hp hsk
            rw [hm] at this
            cases this
      · rw [List.pairwise_iff_getElem]
        intro i j hi hj hij a b ha hb
        rcases Nat.lt_or_ge b a with hlt | hge
        · exfalso
          have := (mem_inversions ctx s fns i a).2 ⟨fns[i], by simp [hi], ha, j, fns[j], b, hij, by simp [hj], hb, hlt⟩
          obtain ⟨v, hv, _⟩ := each_mem_left h3 this
          cases hv
        · exact hge
  · rintro ⟨s, hs, hname, hpres, hord⟩
    have hm : (presentAndMissing ctx s 0 fns).2 = [] := by
      apply List.eq_nil_iff_forall_not_mem.2
      intro v hv
      obtain ⟨f, i, _, hi, _, h4, h5⟩ := (presentAndMissing_missing ctx s fns 0).1 v hv
      rcases hpres f (List.mem_of_getElem? hi) with h | h
      · exact h4 h
      · exact h5 h
    have hu : unsortedPairs (presentAndMissing ctx s 0 fns).1 = [] := by
      apply List.eq_nil_iff_forall_not_mem.2
      rintro ⟨i, a⟩ hp
      obtain ⟨f, hf, ha, j, g, b, hij, hg, hb, hlt⟩ := (mem_inversions ctx s fns i a).1 hp
      rw [List.pairwise_iff_getElem] at hord
      obtain ⟨hi, rfl⟩ := List.getElem?_eq_some_iff.1 hf
      obtain ⟨hj, rfl⟩ := List.getElem?_eq_some_iff.1 hg
      have := hord i j hi hj hij a b ha hb
      omega
    have hn : checkContractNames ctx ⟨n, fns⟩ s = .ok [] := by
      unfold checkContractNames
      cases he : s.name with
      | none => rfl
      | some m => simp only; rw [if_neg (by simpa using hname m he)]
    have hf : checkFnsStructure ctx ⟨n, fns⟩ s = .ok [] := by
      unfold checkFnsStructure
      simp only [hm, hu, orderViolations]
      split <;> rfl
    unfold checkCtx
    rw [(findContract_iff _ _).2 hs, hh]
    simp only [HRoot.findContract, List.head?_cons]
    rw [hn, hf]
    rfl

/-- **C37**, names: the name is reported exactly if it differs. -/
theorem C37_name {ctx : Context} {n : Str} {fns : List HFn} (hh : ctx.hir = ⟨[⟨n, fns⟩]⟩) {s : SolContract}
    (hs : FirstContract ctx.pt s) {vs : List Violation} (hv : checkCtx ctx = .ok vs) (a b : Str) (loc : Location) :
    ⟨.contractNameNotMatches a b, loc⟩ ∈ vs ↔
      a = sanitize n ∧ s.name = some b ∧ b ≠ sanitize n ∧ ∃ line, offsetToLine ctx.src s.start = .ok line ∧ loc = .code ctx.sol line := by
  obtain ⟨v1, v3, h1, rfl, h3⟩ := check_report hh hs hv
  have hno : ⟨.contractNameNotMatches a b, loc⟩ ∉ (presentAndMissing ctx s 0 fns).2 ++ v3 := by
    intro h
    rcases List.mem_append.1 h with h | h
    · obtain ⟨_, _, _, _, h, _⟩ := (presentAndMissing_missing ctx s fns 0).1 _ h
      cases h
    · obtain ⟨_, _, _, _, _, _, h⟩ := each_mem_right h3 h
      cases h
  rw [List.mem_append]
  constructor
  · rintro (h | h)
    · rcases names_report h1 with ⟨rfl, _⟩ | ⟨m, line, h4, h5, h6, rfl⟩
      · cases h
      · simp only [List.mem_singleton, Violation.mk.injEq, ViolationKind.contractNameNotMatches.injEq] at h
        obtain ⟨⟨rfl, rfl⟩, rfl⟩ := h
        exact ⟨rfl, h4, h5, line, h6, rfl⟩
    · exact absurd h hno
  · rintro ⟨rfl, h4, h5, line, h6, rfl⟩
    left
    rcases names_report h1 with ⟨_, h⟩ | ⟨m, line', h4', _, h6', rfl⟩
    · exact absurd (h b h4) h5
    · rw [h4] at h4'; cases h4'
      rw [h6] at h6'; cases h6'
      simp

/-- **C38.** Exactly the functions of the tree that the contract lacks are reported as missing, each once, in tree
order, with the line of the tree they come from; with `-m`, modifiers are not reported. -/
theorem C38_missing {ctx : Context} {n : Str} {fns : List HFn} (hh : ctx.hir = ⟨[⟨n, fns⟩]⟩) {s : SolContract}
    (hs : FirstContract ctx.pt s) {vs : List Violation} (hv : checkCtx ctx = .ok vs) :
    (∀ f i loc, ⟨.matchingFunctionMissing f i, loc⟩ ∈ vs ↔ fns[i]? = some f ∧ ¬ Present s.parts f ∧
      ¬ (ctx.skipModifiers = true ∧ f.ty = .modifier) ∧ loc = .code ctx.tree f.span.start.line) ∧
    Increasing (vs.filterMap missingIdx) := by
  obtain ⟨v1, v3, h1, rfl, h3⟩ := check_report hh hs hv
  obtain ⟨m1, m2, m3⟩ := presentAndMissing_missing ctx s fns 0
  have n1 : v1.filterMap missingIdx = [] := by
    rcases names_report h1 with ⟨rfl, _⟩ | ⟨_, _, _, _, _, rfl⟩ <;> rfl
  have n3 : v3.filterMap missingIdx = [] := by
    apply List.filterMap_eq_nil_iff.2
    intro v hv
    obtain ⟨_, _, _, _, _, _, rfl⟩ := each_mem_right h3 hv
    rfl
  constructor
  · intro f i loc
    rw [List.mem_append, List.mem_append]
    constructor
    · rintro (h | h | h)
      · have : i ∈ v1.filterMap missingIdx := List.mem_filterMap.2 ⟨_, h, rfl⟩
        rw [n1] at this; cases this
      · obtain ⟨f', i', _, h2, he, h4, h5⟩ := m1 _ h
        simp only [Violation.mk.injEq, ViolationKind.matchingFunctionMissing.injEq] at he
        obtain ⟨⟨rfl, rfl⟩, rfl⟩ := he
        exact ⟨by simpa using h2, h4, h5, rfl⟩
      · have : i ∈ v3.filterMap missingIdx := List.mem_filterMap.2 ⟨_, h, rfl⟩
        rw [n3] at this; cases this
    · rintro ⟨h2, h4, h5, rfl⟩
      exact Or.inr (Or.inl (m2 f i (Nat.zero_le _) (by simpa using h2) h4 h5))
  · rw [List.filterMap_append, List.filterMap_append, n1, n3]
    simpa using m3

theorem each_filterMap {l : List (Nat × Nat)} {vs : List Violation} {R : Nat × Nat → Violation → Prop}
    (hR : ∀ p v, R p v → orderIdx v = some p.1) (h : Each R l vs) : vs.filterMap orderIdx = l.map Prod.fst := by
  induction h with
  | nil => rfl
  | cons h _ ih => rw [List.filterMap_cons, hR _ _ h]; simp [ih]

/-- **C39.** Exactly those functions are reported as misplaced that come, in the contract, after a function following
them in the tree; each once, in tree order, with its place in the contract. -/
theorem C39_order {ctx : Context} {n : Str} {fns : List HFn} (hh : ctx.hir = ⟨[⟨n, fns⟩]⟩) {s : SolContract}
    (hs : FirstContract ctx.pt s) {vs : List Violation} (hv : checkCtx ctx = .ok vs) :
    (∀ i, i ∈ vs.filterMap orderIdx ↔ Misplaced fns s.parts i) ∧ Increasing (vs.filterMap orderIdx) ∧
    ∀ g a i loc, ⟨.functionOrderMismatch g a i, loc⟩ ∈ vs → ∃ f line, fns[i]? = some f ∧ At s.parts f a ∧
      s.parts[a]? = some (.fn g) ∧ offsetToLine ctx.src g.start = .ok line ∧ loc = .code ctx.sol line := by
  obtain ⟨v1, v3, h1, rfl, h3⟩ := check_report hh hs hv
  have n1 : v1.filterMap orderIdx = [] := by
    rcases names_report h1 with ⟨rfl, _⟩ | ⟨_, _, _, _, _, rfl⟩ <;> rfl
  have n2 : (presentAndMissing ctx s 0 fns).2.filterMap orderIdx = [] := by
    apply List.filterMap_eq_nil_iff.2
    intro v hv
    obtain ⟨_, _, _, _, rfl, _⟩ := (presentAndMissing_missing ctx s fns 0).1 v hv
    rfl
  have n3 := each_filterMap (fun p v => by rintro ⟨_, _, _, _, rfl⟩; rfl) h3
  have e : (v1 ++ ((presentAndMissing ctx s 0 fns).2 ++ v3)).filterMap orderIdx =
      (unsortedPairs (presentAndMissing ctx s 0 fns).1).map Prod.fst := by
    rw [List.filterMap_append, List.filterMap_append, n1, n2, n3]; rfl
  rw [e]
  refine ⟨?_, ?_, ?_⟩
  · intro i
    rw [List.mem_map]
    constructor
    · rintro ⟨⟨i, a⟩, hp, rfl⟩
      obtain ⟨f, h2, h4, j, g, b, h5, h6, h7, h8⟩ := (mem_inversions ctx s fns i a).1 hp
      exact ⟨f, a, j, g, b, h2, h4, h5, h6, h7, h8⟩
    · rintro ⟨f, a, j, g, b, h2, h4, h5, h6, h7, h8⟩
      exact ⟨(i, a), (mem_inversions ctx s fns i a).2 ⟨f, h2, h4, j, g, b, h5, h6, h7, h8⟩, rfl⟩
  · exact (presentAndMissing_present ctx s fns 0).inc.sublist ((unsorted_sublist _).map _)
  · intro g a i loc hm
    rw [List.mem_append, List.mem_append] at hm
    rcases hm with h | h | h
    · have : i ∈ v1.filterMap orderIdx := List.mem_filterMap.2 ⟨_, h, rfl⟩
      rw [n1] at this; cases this
    · have : i ∈ (presentAndMissing ctx s 0 fns).2.filterMap orderIdx := List.mem_filterMap.2 ⟨_, h, rfl⟩
      rw [n2] at this; cases this
    · obtain ⟨⟨i', a'⟩, hp, g', line, h4, h5, he⟩ := each_mem_right h3 h
      simp only [Violation.mk.injEq, ViolationKind.functionOrderMismatch.injEq] at he
      obtain ⟨⟨rfl, rfl, rfl⟩, rfl⟩ := he
      obtain ⟨f, h2, h6, _⟩ := (mem_inversions ctx s fns i a).1 hp
      exact ⟨f, line, h2, h6, h4, h5, rfl⟩

/-- All violations are of one of the three kinds, in this order: name, missing functions, misplaced functions. -/
theorem C39_kinds {ctx : Context} {n : Str} {fns : List HFn} (hh : ctx.hir = ⟨[⟨n, fns⟩]⟩) {s : SolContract}
    (hs : FirstContract ctx.pt s) {vs : List Violation} (hv : checkCtx ctx = .ok vs) :
    ∃ v1 v2 v3, vs = v1 ++ v2 ++ v3 ∧ (∀ v ∈ v1, ∃ a b, v.kind = .contractNameNotMatches a b) ∧ v1.length ≤ 1 ∧
      (∀ v ∈ v2, ∃ f i, v.kind = .matchingFunctionMissing f i) ∧ ∀ v ∈ v3, ∃ g a i, v.kind = .functionOrderMismatch g a i := by
  obtain ⟨v1, v3, h1, rfl, h3⟩ := check_report hh hs hv
  refine ⟨v1, _, v3, (List.append_assoc _ _ _).symm, ?_, ?_, ?_, ?_⟩
  · rcases names_report h1 with ⟨rfl, _⟩ | ⟨_, _, _, _, _, rfl⟩
    · simp
    · intro v hv; rw [List.mem_singleton.1 hv]; exact ⟨_, _, rfl⟩
  · rcases names_report h1 with ⟨rfl, _⟩ | ⟨_, _, _, _, _, rfl⟩ <;> simp
  · intro v hv
    obtain ⟨f, i, _, _, rfl, _⟩ := (presentAndMissing_missing ctx s fns 0).1 v hv
    exact ⟨f, i, rfl⟩
  · intro v hv
    obtain ⟨p, _, g, _, _, _, rfl⟩ := each_mem_right h3 hv
    exact ⟨_, _, _, rfl⟩

/-! ## Additions -/

theorem samePart_matches {p q : SolPart} (h : SamePart p q) (f : HFn) : Matches f p ↔ Matches f q := by
  cases h <;> exact Iff.rfl

/-- The parts of the smaller contract keep their order in the larger one. -/
theorem extends_map {fns : List HFn} {ps qs : List SolPart} (h : Extends fns ps qs) : ∃ φ : Nat → Nat,
    (∀ a b, a < b → φ a < φ b) ∧ (∀ i p, ps[i]? = some p → ∃ q, qs[φ i]? = some q ∧ SamePart p q) ∧
    ∀ j q, qs[j]? = some q → (∃ i p, ps[i]? = some p ∧ j = φ i) ∨ ∀ f ∈ fns, ¬ Matches f q := by
  induction h with
  | nil => exact ⟨id, fun _ _ h => h, by simp, by simp⟩
  | @keep p q ps qs hpq _ ih =>
    obtain ⟨φ, h1, h2, h3⟩ := ih
    refine ⟨fun i => match i with | 0 => 0 | i + 1 => φ i + 1, ?_, ?_, ?_⟩
    · intro a b hab
      cases b with
      | zero => omega
      | succ b =>
        cases a with
        | zero => simp
        | succ a => simp only; have := h1 a b (by omega); omega
    · intro i x hx
      cases i with
      | zero => simp only [List.getElem?_cons_zero, Option.some.injEq] at hx; subst hx; exact ⟨q, rfl, hpq⟩
      | succ i =>
        obtain ⟨y, hy, hs⟩ := h2 i x (by simpa using hx)
        exact ⟨y, by simpa using hy, hs⟩
    · intro j y hy
      cases j with
      | zero => exact Or.inl ⟨0, p, rfl, rfl⟩
      | succ j =>
        rcases h3 j y (by simpa using hy) with ⟨i, x, hx, rfl⟩ | h
        · exact Or.inl ⟨i + 1, x, by simpa using hx, rfl⟩
        · exact Or.inr h
  | @extra q ps qs hq _ ih =>
    obtain ⟨φ, h1, h2, h3⟩ := ih
    refine ⟨fun i => φ i + 1, fun a b hab => Nat.succ_lt_succ (h1 a b hab), ?_, ?_⟩
    · intro i x hx
      obtain ⟨y, hy, hs⟩ := h2 i x hx
      exact ⟨y, by simpa using hy, hs⟩
    · intro j y hy
      cases j with
      | zero => simp only [List.getElem?_cons_zero, Option.some.injEq] at hy; subst hy; exact Or.inr hq
      | succ j =>
        rcases h3 j y (by simpa using hy) with ⟨i, x, hx, rfl⟩ | h
        · exact Or.inl ⟨i, x, hx, rfl⟩
        · exact Or.inr h

theorem extends_at {fns : List HFn} {ps qs : List SolPart} {φ : Nat → Nat} (h1 : ∀ a b, a < b → φ a < φ b)
    (h2 : ∀ i p, ps[i]? = some p → ∃ q, qs[φ i]? = some q ∧ SamePart p q)
    (h3 : ∀ j q, qs[j]? = some q → (∃ i p, ps[i]? = some p ∧ j = φ i) ∨ ∀ f ∈ fns, ¬ Matches f q)
    {f : HFn} (hf : f ∈ fns) {a : Nat} (ha : At ps f a) : At qs f (φ a) := by
  obtain ⟨⟨p, hp, hm⟩, hn⟩ := ha
  obtain ⟨q, hq, hs⟩ := h2 a p hp
  refine ⟨⟨q, hq, (samePart_matches hs f).1 hm⟩, ?_⟩
  intro j y hj hy
  rcases h3 j y hy with ⟨i, x, hx, rfl⟩ | h
  · have hi : i < a := by
      rcases Nat.lt_trichotomy i a with h | h | h
      · exact h
      · subst h; omega
      · have := h1 a i h; omega
    obtain ⟨y', hy', hs'⟩ := h2 i x hx
    rw [hy] at hy'; cases hy'
    exact fun hmy => hn i x hi hx ((samePart_matches hs' f).2 hmy)
  · exact h f hf

theorem extends_present {fns : List HFn} {ps qs : List SolPart} (h : Extends fns ps qs) {f : HFn} (hf : f ∈ fns) :
    Present ps f ↔ Present qs f := by
  induction h with
  | nil => exact Iff.rfl
  | keep hs _ ih => simp only [Present, List.mem_cons, exists_eq_or_imp] at ih ⊢; rw [ih, samePart_matches hs]
  | extra hq _ ih => simp only [Present, List.mem_cons, exists_eq_or_imp] at ih ⊢; rw [ih]; simp [hq f hf]

theorem missing_said {ctx ctx' : Context} (hsk : ctx.skipModifiers = ctx'.skipModifiers) {s s' : SolContract} (fns : List HFn)
    (h : ∀ f ∈ fns, Present s.parts f ↔ Present s'.parts f) : ∀ k,
    (presentAndMissing ctx s k fns).2.map said = (presentAndMissing ctx' s' k fns).2.map said := by
  induction fns with
  | nil => intro k; rfl
  | cons f fns ih =>
    intro k
    have ih := ih (fun g hg => h g (by simp [hg])) (k + 1)
    have hf := h f (by simp)
    rw [presentAndMissing, presentAndMissing]
    rcases findMatchingFn_cases s f with ⟨h1, h2⟩ | ⟨i, g, h1, _, h2⟩ <;>
      rcases findMatchingFn_cases s' f with ⟨h1', h2'⟩ | ⟨i', g', h1', _, h2'⟩
    · rw [h1, h1', hsk]
      simp only
      split
      · exact ih
      · simp only [List.map_cons, ih]; rfl
    · exact absurd (hf.2 (at_present h2')) h2
    · exact absurd (hf.1 (at_present h2)) h2'
    · rw [h1, h1']; exact ih

theorem present_map {ctx ctx' : Context} {s s' : SolContract} {φ : Nat → Nat} (fns : List HFn)
    (hp : ∀ f ∈ fns, Present s.parts f ↔ Present s'.parts f)
    (ha : ∀ f ∈ fns, ∀ a, At s.parts f a → At s'.parts f (φ a)) : ∀ k,
    (presentAndMissing ctx' s' k fns).1 = (presentAndMissing ctx s k fns).1.map (fun p => (p.1, φ p.2)) := by
  have e : ∀ (c : Prop) [Decidable c] (x : List (Nat × Nat)) (y z : List Violation), (if c then (x, y) else (x, z)).1 = x := by
    intro c _ x y z; split <;> rfl
  induction fns with
  | nil => intro k; rfl
  | cons f fns ih =>
    intro k
    have ih := ih (fun g hg => hp g (by simp [hg])) (fun g hg => ha g (by simp [hg])) (k + 1)
    have hf := hp f (by simp)
    rw [presentAndMissing, presentAndMissing]
    rcases findMatchingFn_cases s f with ⟨h1, h2⟩ | ⟨i, g, h1, _, h2⟩ <;>
      rcases findMatchingFn_cases s' f with ⟨h1', h2'⟩ | ⟨i', g', h1', _, h2'⟩
    · rw [h1, h1']
      simp only
      rw [e, e, ih]
    · exact absurd (hf.2 (at_present h2')) h2
    · exact absurd (hf.1 (at_present h2)) h2'
    · rw [h1, h1']
      simp only [List.map_cons, ih]
      rw [at_unique h2' (ha f (by simp) i h2)]

theorem unsorted_map {φ : Nat → Nat} (h : ∀ a b, a < b → φ a < φ b) (l : List (Nat × Nat)) :
    unsortedPairs (l.map (fun p => (p.1, φ p.2))) = (unsortedPairs l).map (fun p => (p.1, φ p.2)) := by
  have hiff : ∀ a b, φ a < φ b ↔ a < b := by
    intro a b
    constructor
    · intro hab
      rcases Nat.lt_trichotomy a b with h' | h' | h'
      · exact h'
      · subst h'; omega
      · have := h b a h'; omega
    · exact h a b
  induction l with
  | nil => rfl
  | cons p l ih =>
    obtain ⟨i, a⟩ := p
    rw [List.map_cons, unsortedPairs, unsortedPairs, ih]
    have : (l.map (fun p => (p.1, φ p.2))).any (fun p => decide (p.2 < φ a)) = l.any (fun p => decide (p.2 < a)) := by
      rw [List.any_map]
      congr 1
      funext p
      simp [hiff]
    rw [this]
    split <;> rfl

theorem order_said {s s' : SolContract} {φ : Nat → Nat} {ctx ctx' : Context} {l : List (Nat × Nat)} {vs vs' : List Violation}
    (hφ : ∀ i p, s.parts[i]? = some p → ∃ q, s'.parts[φ i]? = some q ∧ SamePart p q)
    (h : Each (fun p v => ∃ g line, s.parts[p.2]? = some (.fn g) ∧ offsetToLine ctx.src g.start = .ok line ∧
      v = ⟨.functionOrderMismatch g p.2 p.1, .code ctx.sol line⟩) l vs)
    (h' : Each (fun p v => ∃ g line, s'.parts[p.2]? = some (.fn g) ∧ offsetToLine ctx'.src g.start = .ok line ∧
      v = ⟨.functionOrderMismatch g p.2 p.1, .code ctx'.sol line⟩) (l.map (fun p => (p.1, φ p.2))) vs') :
    vs.map said = vs'.map said := by
  induction h generalizing vs' with
  | nil => cases h'; rfl
  | cons hv _ ih =>
    cases h' with
    | cons hv' h' =>
      rw [List.map_cons, List.map_cons, ih h']
      congr 1
      obtain ⟨g, _, hg, _, rfl⟩ := hv
      obtain ⟨g', _, hg', _, rfl⟩ := hv'
      obtain ⟨q, hq, hs⟩ := hφ _ _ hg
      simp only at hg'
      rw [hg'] at hq
      cases hq
      cases hs
      rfl

/-- **C40.** Further parts that are not functions of the tree, and whatever follows the first contract, do not
change what is reported (apart from line numbers and positions in the Solidity file). -/
theorem C40_extra_code {ctx ctx' : Context} {n : Str} {fns : List HFn} (hh : ctx.hir = ⟨[⟨n, fns⟩]⟩) (hh' : ctx'.hir = ctx.hir)
    (hsk : ctx.skipModifiers = ctx'.skipModifiers) {s s' : SolContract} (hs : FirstContract ctx.pt s) (hs' : FirstContract ctx'.pt s')
    (hn : s.name = s'.name) (hx : Extends fns s.parts s'.parts) {vs vs' : List Violation}
    (hv : checkCtx ctx = .ok vs) (hv' : checkCtx ctx' = .ok vs') : vs.map said = vs'.map said := by
  obtain ⟨v1, v3, h1, rfl, h3⟩ := check_report hh hs hv
  obtain ⟨v1', v3', h1', rfl, h3'⟩ := check_report (hh'.trans hh) hs' hv'
  obtain ⟨φ, p1, p2, p3⟩ := extends_map hx
  have hat : ∀ f ∈ fns, ∀ a, At s.parts f a → At s'.parts f (φ a) := fun f hf a ha => extends_at p1 p2 p3 hf ha
  have hpr : ∀ f ∈ fns, Present s.parts f ↔ Present s'.parts f := fun f hf => extends_present hx hf
  rw [present_map (ctx := ctx) fns hpr hat 0, unsorted_map p1] at h3'
  simp only [List.map_append]
  rw [missing_said hsk fns hpr 0, order_said p2 h3 h3']
  congr 1
  rcases names_report h1 with ⟨rfl, h⟩ | ⟨m, line, h4, h5, _, rfl⟩ <;>
    rcases names_report h1' with ⟨rfl, h'⟩ | ⟨m', line', h4', h5', _, rfl⟩
  · rfl
  · rw [← hn] at h4'; exact absurd (h m' h4') h5'
  · rw [hn] at h4; exact absurd (h' m h4) h5
  · rw [hn, h4'] at h4; cases h4; rfl

/-- **C40**, silence: it stays silent. -/
theorem C40_silent {ctx ctx' : Context} {n : Str} {fns : List HFn} (hh : ctx.hir = ⟨[⟨n, fns⟩]⟩) (hh' : ctx'.hir = ctx.hir)
    (hsk : ctx.skipModifiers = ctx'.skipModifiers) {s s' : SolContract} (hs : FirstContract ctx.pt s) (hs' : FirstContract ctx'.pt s')
    (hn : s.name = s'.name) (hx : Extends fns s.parts s'.parts) : checkCtx ctx = .ok [] ↔ checkCtx ctx' = .ok [] := by
  obtain ⟨φ, p1, p2, p3⟩ := extends_map hx
  have hat : ∀ f ∈ fns, ∀ a, At s.parts f a → At s'.parts f (φ a) := fun f hf a ha => extends_at p1 p2 p3 hf ha
  have hpr : ∀ f ∈ fns, Present s.parts f ↔ Present s'.parts f := fun f hf => extends_present hx hf
  have uniq : ∀ u t t', FirstContract u t → FirstContract u t' → t = t' := by
    intro u t t' h h'
    rw [← findContract_iff] at h h'
    rw [h] at h'; cases h'; rfl
  rw [C37_silent_iff hh, C37_silent_iff (hh'.trans hh)]
  constructor
  · rintro ⟨t, ht, h1, h2, h3⟩
    cases uniq _ _ _ hs ht
    refine ⟨s', hs', by rw [← hn]; exact h1, ?_, ?_⟩
    · intro f hf; rw [← hpr f hf, ← hsk]; exact h2 f hf
    · refine List.Pairwise.imp_of_mem ?_ h3
      intro f g hf hg hfg i j hi hj
      obtain ⟨a, ha⟩ := present_at ((hpr f hf).2 (at_present hi))
      obtain ⟨b, hb⟩ := present_at ((hpr g hg).2 (at_present hj))
      rw [at_unique hi (hat f hf a ha), at_unique hj (hat g hg b hb)]
      rcases Nat.lt_or_eq_of_le (hfg a b ha hb) with h | h
      · exact Nat.le_of_lt (p1 a b h)
      · rw [h]; exact Nat.le_refl _
  · rintro ⟨t, ht, h1, h2, h3⟩
    cases uniq _ _ _ hs' ht
    refine ⟨s, hs, by rw [hn]; exact h1, ?_, ?_⟩
    · intro f hf; rw [hpr f hf, hsk]; exact h2 f hf
    · refine List.Pairwise.imp_of_mem ?_ h3
      intro f g hf hg hfg i j hi hj
      have := hfg _ _ (hat f hf i hi) (hat g hg j hj)
      rcases Nat.lt_or_ge j i with h | h
      · have := p1 j i h; omega
      · exact h

/-! ## Scaffolded files -/

theorem written_pairwise {fs : List HFn} {ps : List SolPart} (h : Written fs ps)
    (hd : (fs.map (fun f => (f.identifier, f.ty))).Nodup) :
    (∀ f ∈ fs, Present ps f) ∧ (∀ f, Present ps f → (f.identifier, f.ty) ∈ fs.map (fun f => (f.identifier, f.ty))) ∧
    fs.Pairwise (fun f g => ∀ i j, At ps f i → At ps g j → i ≤ j) := by
  induction h with
  | nil => exact ⟨by simp, by simp [Present], .nil⟩
  | @cons f g fs ps hn ht h ih =>
    simp only [List.map_cons, List.nodup_cons] at hd
    obtain ⟨h1, h2, h3⟩ := ih hd.2
    have hm : Matches f (.fn g) := ⟨hn, ht⟩
    have hnot : ∀ x ∈ fs, ¬ Matches x (.fn g) := by
      intro x hx hmx
      apply hd.1
      obtain ⟨hmn, hmt⟩ := hmx
      rw [hn] at hmn; rw [ht] at hmt
      have e1 : f.identifier = x.identifier := Option.some.inj hmn
      have e2 : f.ty = x.ty := Option.some.inj hmt
      rw [e1, e2]
      exact List.mem_map_of_mem (f := fun f : HFn => (f.identifier, f.ty)) hx
    have hat : ∀ x ∈ fs, ∀ j, At (.fn g :: ps) x j → ∃ j', j = j' + 1 ∧ At ps x j' := by
      intro x hx j hj
      obtain ⟨⟨p, hp, hm'⟩, hj2⟩ := hj
      cases j with
      | zero => simp at hp; subst hp; exact absurd hm' (hnot x hx)
      | succ j =>
        refine ⟨j, rfl, ⟨p, by simpa using hp, hm'⟩, ?_⟩
        intro i q hi hq
        exact hj2 (i + 1) q (by omega) (by simpa using hq)
    refine ⟨?_, ?_, ?_⟩
    · intro x hx
      rcases List.mem_cons.1 hx with rfl | hx
      · exact ⟨_, by simp, hm⟩
      · obtain ⟨p, hp, hm'⟩ := h1 x hx
        exact ⟨p, by simp [hp], hm'⟩
    · rintro x ⟨p, hp, hm'⟩
      rcases List.mem_cons.1 hp with rfl | hp
      · obtain ⟨hmn, hmt⟩ := hm'
        rw [hn] at hmn; rw [ht] at hmt
        have e1 : f.identifier = x.identifier := Option.some.inj hmn
        have e2 : f.ty = x.ty := Option.some.inj hmt
        simp [e1, e2]
      · exact List.mem_cons_of_mem _ (h2 x ⟨p, hp, hm'⟩)
    · rw [List.pairwise_cons]
      constructor
      · intro x _ i j hi _
        have : i = 0 := at_unique hi ⟨⟨_, rfl, hm⟩, by intro j p hj; omega⟩
        omega
      · refine List.Pairwise.imp_of_mem ?_ h3
        intro x y hx hy hxy i j hi hj
        obtain ⟨i', rfl, hi'⟩ := hat x hx i hi
        obtain ⟨j', rfl, hj'⟩ := hat y hy j hj
        have := hxy i' j' hi' hj'
        omega

theorem keys_nodup {fns : List HFn} (h1 : ((fns.filter HFn.isFunction).map HFn.identifier).Nodup)
    (h2 : ((fns.filter HFn.isModifier).map HFn.identifier).Nodup) : (fns.map (fun f => (f.identifier, f.ty))).Nodup := by
  induction fns with
  | nil => simp
  | cons f fns ih =>
    obtain ⟨i, ty, sp, m, c⟩ := f
    have key : ∀ (t : FnTy), (i, t) ∈ fns.map (fun f => (f.identifier, f.ty)) → i ∈ ((fns.filter (fun f => decide (f.ty = t))).map HFn.identifier) := by
      intro t ht
      obtain ⟨g, hg, he⟩ := List.mem_map.1 ht
      cases he
      exact List.mem_map.2 ⟨g, List.mem_filter.2 ⟨hg, by simp⟩, rfl⟩
    cases ty with
    | function =>
      rw [List.filter_cons_of_pos (by rfl), List.map_cons, List.nodup_cons] at h1
      rw [List.filter_cons_of_neg (by simp [HFn.isModifier])] at h2
      rw [List.map_cons, List.nodup_cons]
      exact ⟨fun h => h1.1 (key _ h), ih h1.2 h2⟩
    | modifier =>
      rw [List.filter_cons_of_neg (by simp [HFn.isFunction])] at h1
      rw [List.filter_cons_of_pos (by rfl), List.map_cons, List.nodup_cons] at h2
      rw [List.map_cons, List.nodup_cons]
      exact ⟨fun h => h2.1 (key _ h), ih h1 h2.2⟩

/-- The modifiers of a translated file have distinct names. -/
theorem translate_modifiers [LawfulUcd] {order : HashOrder} (ho : ∀ l, (order l).Perm l) {cfg : Config} {text : Str} {n : Str}
    {fns : List HFn} (h : translate order cfg text = .ok ⟨[⟨n, fns⟩]⟩) : ((fns.filter HFn.isModifier).map HFn.identifier).Nodup := by
  cases hp : parse order text with
  | panic => exact absurd hp (C05_parse_never_panics order text)
  | err e => simp [translate, hp, Res.mapErr] at h
  | ok asts =>
    rcases translate_cases hp cfg with ⟨ast, rfl, hA⟩ | ⟨rfl, hA⟩ | ⟨hl, _, _, _, _, hA⟩ | ⟨hl, n, A, a, B, e', ha, hA', hb, hA⟩
    · rw [h] at hA; cases hA
      obtain ⟨t, ht⟩ := parse_accepted hp ast (by simp)
      obtain ⟨n', fns', h1, h2, _⟩ := C21_declared_before_use ho ht cfg
      rw [translateOne_eq ht cfg] at h1
      cases h1
      exact h2
    · rw [h] at hA; cases hA; simp
    · obtain ⟨n', fns', h1, h2, _⟩ := C58_combined_consistent hp hl cfg h
      cases h1
      exact (List.filter_sublist.map _).nodup h2
    · rw [h] at hA; cases hA

/-- What `check` sees of a file: the names and kinds of the functions do not depend on the configuration. -/
theorem translate_default [LawfulUcd] {order : HashOrder} {cfg : Config} {text : Str} {n : Str} {fns : List HFn}
    (h : translate order cfg text = .ok ⟨[⟨n, fns⟩]⟩) : ∃ fns', translate order .default text = .ok ⟨[⟨n, fns'⟩]⟩ ∧
      (fns = fns' ∨ fns = fns'.map addSkip) := by
  cases hc : cfg.emitVmSkip with
  | false => exact ⟨fns, by rw [← h]; exact translate_flags (by rw [hc]; rfl) _ _, Or.inl rfl⟩
  | true =>
    cases hd : translate order .default text with
    | panic => exact absurd hd (C57_translate_never_panics _ _ _)
    | err e =>
      have := ((C24_vm_skip (cfg := .default) (cfg' := cfg) rfl hc text).2 e).1 hd
      rw [h] at this; cases this
    | ok r =>
      obtain ⟨n', fns', rfl, _⟩ := translate_ok hd
      have := ((C24_vm_skip (cfg := .default) (cfg' := cfg) rfl hc text).1 n' fns' hd).1
      rw [h] at this
      cases this
      exact ⟨fns', rfl, Or.inr rfl⟩

theorem matches_congr {f g : HFn} (h1 : f.identifier = g.identifier) (h2 : f.ty = g.ty) (p : SolPart) : Matches f p ↔ Matches g p := by
  cases p with
  | fn q => simp only [Matches, h1, h2]
  | other => exact Iff.rfl

theorem at_congr {f g : HFn} (h1 : f.identifier = g.identifier) (h2 : f.ty = g.ty) {ps : List SolPart} {i : Nat} (h : At ps f i) : At ps g i := by
  obtain ⟨⟨p, hp, hm⟩, hn⟩ := h
  exact ⟨⟨p, hp, (matches_congr h1 h2 p).1 hm⟩, fun j q hj hq hmq => hn j q hj hq ((matches_congr h1 h2 q).2 hmq)⟩

/-- **C41** (partial).  If the generated tests have distinct names, `check` reports nothing for a file whose first contract
has the name and the functions `scaffold` writes.  (That parsing the formatted output gives such a contract is
the assumption about the external formatter and parser.)
Missing: colliding test names, for which the claim is false (`C41_collision_false`). -/
theorem C41_scaffold_partial [LawfulUcd] {order : HashOrder} (ho : ∀ l, (order l).Perm l) {cfg : Config} {text : Str} {n : Str}
    {fns : List HFn} (h : translate order cfg text = .ok ⟨[⟨n, fns⟩]⟩)
    (hd : ((fns.filter HFn.isFunction).map HFn.identifier).Nodup) {ctx : Context} (hh : translate order .default text = .ok ctx.hir)
    (hsk : cfg.skipModifiers = true → ctx.skipModifiers = true) {s : SolContract} (hs : FirstContract ctx.pt s)
    (hname : s.name = some (sanitize n)) (hw : Written (written cfg fns) s.parts) : checkCtx ctx = .ok [] := by
  have hkeys := keys_nodup hd (translate_modifiers ho h)
  obtain ⟨fns', h', hrel⟩ := translate_default h
  rw [h'] at hh
  have hh' : ctx.hir = ⟨[⟨n, fns'⟩]⟩ := (Res.ok.inj hh).symm
  have hsub : (written cfg fns).Sublist fns := by
    unfold written; split
    · exact List.filter_sublist
    · exact List.Sublist.refl _
  obtain ⟨w1, w2, w3⟩ := written_pairwise hw ((hsub.map _).nodup hkeys)
  -- the statement for the functions of `scaffold`
  have hpres : ∀ f ∈ fns, Present s.parts f ∨ (ctx.skipModifiers = true ∧ f.ty = .modifier) := by
    intro f hf
    by_cases hsm : cfg.skipModifiers = true
    · cases hty : f.ty with
      | modifier => exact Or.inr ⟨hsk hsm, rfl⟩
      | function =>
        refine Or.inl (w1 f ?_)
        unfold written
        rw [if_pos hsm]
        exact List.mem_filter.2 ⟨hf, by simp [HFn.isFunction, hty]⟩
    · refine Or.inl (w1 f ?_)
      unfold written
      rw [if_neg hsm]; exact hf
  have hord : fns.Pairwise (fun f g => ∀ i j, At s.parts f i → At s.parts g j → i ≤ j) := by
    by_cases hsm : cfg.skipModifiers = true
    · unfold written at w2 w3
      rw [if_pos hsm] at w2 w3
      have isF : ∀ x, Present s.parts x → x.isFunction = true := by
        intro x hx
        obtain ⟨y, hy, he⟩ := List.mem_map.1 (w2 x hx)
        have := (List.mem_filter.1 hy).2
        simp only [HFn.isFunction] at this ⊢
        cases he' : x.ty with
        | function => rfl
        | modifier => simp only [Prod.mk.injEq] at he; rw [he.2, he'] at this; cases this
      rw [List.pairwise_filter] at w3
      exact w3.imp (fun {f g} hfg i j hi hj => hfg (isF f (at_present hi)) (isF g (at_present hj)) i j hi hj)
    · unfold written at w3
      rw [if_neg hsm] at w3
      exact w3
  refine (C37_silent_iff hh').2 ⟨s, hs, ?_, ?_, ?_⟩
  · intro m hm; rw [hname] at hm; cases hm; rfl
  · intro f hf
    rcases hrel with rfl | rfl
    · exact hpres f hf
    · rcases hpres (addSkip f) (List.mem_map_of_mem hf) with ⟨p, hp, hm⟩ | h
      · exact Or.inl ⟨p, hp, (matches_congr (addSkip_id f).1 (addSkip_id f).2 p).1 hm⟩
      · exact Or.inr ⟨h.1, by rw [← (addSkip_id f).2]; exact h.2⟩
  · rcases hrel with rfl | rfl
    · exact hord
    · rw [List.pairwise_map] at hord
      refine hord.imp ?_
      intro f g hfg i j hi hj
      exact hfg i j (at_congr (addSkip_id f).1.symm (addSkip_id f).2.symm hi) (at_congr (addSkip_id g).1.symm (addSkip_id g).2.symm hj)

/-- **C41**, several trees: names are always distinct, so freshly scaffolded files pass. -/
theorem C41_several_trees [LawfulUcd] {order : HashOrder} (ho : ∀ l, (order l).Perm l) {cfg : Config} {text : Str} {asts : List Ast}
    (hp : parse order text = .ok asts) (hl : 2 ≤ asts.length) {n : Str} {fns : List HFn}
    (h : translate order cfg text = .ok ⟨[⟨n, fns⟩]⟩) {ctx : Context} (hh : translate order .default text = .ok ctx.hir)
    (hsk : cfg.skipModifiers = true → ctx.skipModifiers = true) {s : SolContract} (hs : FirstContract ctx.pt s)
    (hname : s.name = some (sanitize n)) (hw : Written (written cfg fns) s.parts) : checkCtx ctx = .ok [] := by
  refine C41_scaffold_partial ho h ?_ hh hsk hs hname hw
  obtain ⟨n', fns', h1, h2, _⟩ := C58_combined_consistent hp hl cfg h
  cases h1
  exact (List.filter_sublist.map _).nodup h2

/-- **C41**, one tree without top-level actions: names are distinct, so freshly scaffolded files pass. -/
theorem C41_conditions_only [LawfulUcd] {order : HashOrder} (ho : ∀ l, (order l).Perm l) {cfg : Config} {text : Str} {ast : Ast}
    (hp : parse order text = .ok [ast]) (ha : ∀ a ∈ kids ast, a.isAction = false) {n : Str} {fns : List HFn}
    (h : translate order cfg text = .ok ⟨[⟨n, fns⟩]⟩) {ctx : Context} (hh : translate order .default text = .ok ctx.hir)
    (hsk : cfg.skipModifiers = true → ctx.skipModifiers = true) {s : SolContract} (hs : FirstContract ctx.pt s)
    (hname : s.name = some (sanitize n)) (hw : Written (written cfg fns) s.parts) : checkCtx ctx = .ok [] := by
  refine C41_scaffold_partial ho h ?_ hh hsk hs hname hw
  obtain ⟨t, ht⟩ := parse_accepted hp ast (by simp)
  obtain ⟨n', fns', h1, _, h2⟩ := C26_unique_partial ho ht cfg
  rw [translateOne_eq ht cfg] at h1
  rcases translate_cases hp cfg with ⟨a, he, h'⟩ | ⟨he, h'⟩ | ⟨hl, _⟩ | ⟨hl, _⟩
  · cases he
    rw [h] at h'; cases h'
    cases h1
    exact h2 ha
  · cases he
  · simp at hl
  · simp at hl

/-! ## `-m` -/

/-- The violation is about a missing modifier. -/
def Spec.missingModifier (v : Violation) : Bool :=
  match v.kind with
  | .matchingFunctionMissing f _ => decide (f.ty = .modifier)
  | _ => false

theorem presentAndMissing_skip (ctx : Context) (s : SolContract) (fns : List HFn) : ∀ k,
    (presentAndMissing { ctx with skipModifiers := true } s k fns).1 = (presentAndMissing { ctx with skipModifiers := false } s k fns).1 ∧
    (presentAndMissing { ctx with skipModifiers := true } s k fns).2 =
      (presentAndMissing { ctx with skipModifiers := false } s k fns).2.filter (fun v => !missingModifier v) := by
  induction fns with
  | nil => intro k; exact ⟨rfl, rfl⟩
  | cons f fns ih =>
    intro k
    obtain ⟨ih1, ih2⟩ := ih (k + 1)
    rw [presentAndMissing, presentAndMissing]
    cases h : findMatchingFn s f with
    | some x => exact ⟨by simp only [ih1], ih2⟩
    | none =>
      simp only [Bool.true_and, Bool.false_and, Bool.false_eq_true, if_false]
      cases hm : f.isModifier with
      | true =>
        refine ⟨by simp only [if_true, ih1], ?_⟩
        have : missingModifier ⟨.matchingFunctionMissing f k, .code ctx.tree f.span.start.line⟩ = true := by
          simpa [missingModifier, HFn.isModifier] using hm
        rw [List.filter_cons_of_neg (by simp [this])]
        exact ih2
      | false =>
        refine ⟨by simp only [Bool.false_eq_true, if_false, ih1], ?_⟩
        have : missingModifier ⟨.matchingFunctionMissing f k, .code ctx.tree f.span.start.line⟩ = false := by
          simpa [missingModifier, HFn.isModifier] using hm
        rw [List.filter_cons_of_pos (by simp [this])]
        simp only [Bool.false_eq_true, if_false, ih2]

theorem names_skip (ctx : Context) (b : Bool) (h : HContract) (s : SolContract) :
    checkContractNames { ctx with skipModifiers := b } h s = checkContractNames ctx h s := rfl

theorem orderViolations_skip (ctx : Context) (b : Bool) (h : HContract) (s : SolContract) (l : List (Nat × Nat)) :
    orderViolations { ctx with skipModifiers := b } h s l = orderViolations ctx h s l := by
  induction l with
  | nil => rfl
  | cons p l ih =>
    obtain ⟨i, a⟩ := p
    rw [orderViolations, orderViolations, ih]

/-- **C42.** With `-m`, `check` reports exactly what it reports without, except for missing modifiers. -/
theorem C42_skip_modifiers {ctx : Context} {n : Str} {fns : List HFn} (hh : ctx.hir = ⟨[⟨n, fns⟩]⟩) {vs : List Violation} :
    checkCtx { ctx with skipModifiers := false } = .ok vs →
    checkCtx { ctx with skipModifiers := true } = .ok (vs.filter (fun v => !missingModifier v)) := by
  intro hv
  cases hc : findContract ctx.pt with
  | none =>
    have := (findContract_none _).1 hc
    rw [C37_no_contract (ctx := { ctx with skipModifiers := false }) hh this] at hv
    rw [C37_no_contract (ctx := { ctx with skipModifiers := true }) hh this]
    cases hv
    rfl
  | some s =>
    have hs := (findContract_iff _ _).1 hc
    obtain ⟨v1, v3, h1, rfl, h3⟩ := check_report (ctx := { ctx with skipModifiers := false }) hh hs hv
    obtain ⟨e1, e2⟩ := presentAndMissing_skip ctx s fns 0
    unfold checkCtx at hv ⊢
    have hfc : ctx.hir.findContract = some ⟨n, fns⟩ := by rw [hh]; rfl
    simp only [hc, hfc, names_skip] at hv ⊢
    rw [names_skip] at h1
    rw [h1, Res.bind_ok] at hv ⊢
    have f1 : v1.filter (fun v => !missingModifier v) = v1 := by
      rcases names_report h1 with ⟨rfl, _⟩ | ⟨_, _, _, _, _, rfl⟩ <;> rfl
    have f3 : v3.filter (fun v => !missingModifier v) = v3 := by
      apply List.filter_eq_self.2
      intro v hv
      obtain ⟨_, _, _, _, _, _, rfl⟩ := each_mem_right h3 hv
      rfl
    rw [List.filter_append, List.filter_append, f1, f3, ← e2]
    unfold checkFnsStructure at hv ⊢
    simp only [orderViolations_skip] at hv ⊢
    rw [e1]
    by_cases he : (presentAndMissing { ctx with skipModifiers := false } s 0 fns).1.isEmpty = true
    · rw [if_pos he] at hv ⊢
      have he' := List.isEmpty_iff.1 he
      rw [he'] at h3
      cases h3
      simp [Res.bind_ok]
    · rw [if_neg he] at hv ⊢
      cases ho : orderViolations ctx ⟨n, fns⟩ s (unsortedPairs (presentAndMissing { ctx with skipModifiers := false } s 0 fns).1) with
      | panic => rw [ho] at hv; cases hv
      | err e => rw [ho] at hv; cases hv
      | ok w =>
        rw [ho] at hv
        simp only [Res.bind_ok, Res.ok.injEq, List.append_cancel_left_eq] at hv ⊢
        exact hv

/-- **C42**, panics: the flag does not influence whether `check` panics. -/
theorem C42_panic (ctx : Context) : checkCtx { ctx with skipModifiers := false } = .panic ↔
    checkCtx { ctx with skipModifiers := true } = .panic := by
  unfold checkCtx
  cases hc : findContract ctx.pt with
  | none => cases hh : ctx.hir.findContract <;> simp [hc, hh]
  | some s =>
    cases hh : ctx.hir.findContract with
    | none => simp [hc, hh]
    | some h =>
      simp only [hc, hh, names_skip]
      cases checkContractNames ctx h s with
      | panic => exact ⟨fun _ => rfl, fun _ => rfl⟩
      | err e => exact nomatch e
      | ok v1 =>
        simp only [Res.bind_ok]
        unfold checkFnsStructure
        simp only [orderViolations_skip]
        obtain ⟨e1, e2⟩ := presentAndMissing_skip ctx s h.children 0
        rw [e1]
        by_cases he : (presentAndMissing { ctx with skipModifiers := false } s 0 h.children).1.isEmpty = true
        · rw [if_pos he, if_pos he]; simp [Res.bind_ok]
        · rw [if_neg he, if_neg he]
          cases orderViolations ctx h s (unsortedPairs (presentAndMissing { ctx with skipModifiers := false } s 0 h.children).1) with
          | panic => exact ⟨fun _ => rfl, fun _ => rfl⟩
          | err e => exact nomatch e
          | ok w => simp [Res.bind_ok]

end

/-! ## Counterexample and non-vacuity -/

/-- The contract part the parser yields for a written function. -/
def partOf (f : HFn) : SolPart :=
  .fn ⟨match f.ty with | .function => .function | .modifier => .modifier, some f.identifier, 0, 0⟩

theorem written_parts (fs : List HFn) : Written fs (fs.map partOf) := by
  induction fs with
  | nil => exact .nil
  | cons f fs ih =>
    refine .cons rfl ?_ ih
    obtain ⟨i, ty, sp, m, c⟩ := f
    cases ty <;> rfl

set_option maxRecDepth 8000 in
/-- Full C41 is false: the test of `it when x` and the test of `when x` have the same name; the test between them is
reported as misplaced. -/
theorem C41_collision_false : ∃ (U : Ucd) (_ : @LawfulUcd U), ¬ ∀ (order : HashOrder) (text : Str) (n : Str) (fns : List HFn)
    (ctx : Context) (s : SolContract), (∀ l, (order l).Perm l) → @translate U order .default text = .ok ⟨[⟨n, fns⟩]⟩ →
    @translate U order .default text = .ok ctx.hir → FirstContract ctx.pt s → s.name = some (@sanitize U n) →
    Written fns s.parts → @checkCtx U ctx = .ok [] := by
  refine ⟨asciiUcd, lawful_ascii, ?_⟩
  intro h
  cases hc : @contractOf asciiUcd c!"A\n├── it when x\n├── it y\n└── when x\n    └── it z" with
  | none =>
    have : (@contractOf asciiUcd c!"A\n├── it when x\n├── it y\n└── when x\n    └── it z").isSome = true := by cbv
    rw [hc] at this; cases this
  | some c =>
    have h2 := contractOf_eq hc
    have e1 : (@contractOf asciiUcd c!"A\n├── it when x\n├── it y\n└── when x\n    └── it z").map
      (fun c => c.children.map (fun f => (f.identifier, f.ty))) =
      some [(c!"test_WhenX", .function), (c!"test_Y", .function), (c!"test_WhenX", .function)] := by cbv
    rw [hc] at e1
    simp only [Option.map_some, Option.some.injEq] at e1
    have hr := h id _ c.identifier c.children ⟨[], ⟨[c]⟩, [], [], [.contract ⟨some (@sanitize asciiUcd c.identifier), 0, 0, c.children.map partOf⟩], false⟩
      ⟨some (@sanitize asciiUcd c.identifier), 0, 0, c.children.map partOf⟩ (fun l => List.Perm.refl _) h2 h2 ⟨0, [], rfl⟩ rfl (written_parts _)
    obtain ⟨s, ⟨k, rest, hs⟩, _, _, hord⟩ := (@C37_silent_iff asciiUcd _ c.identifier c.children rfl).1 hr
    have hk : k = 0 := by
      cases k with
      | zero => rfl
      | succ k => simp [List.replicate_succ] at hs
    subst hk
    simp only [List.replicate_zero, List.nil_append, List.cons.injEq, SolUnitPart.contract.injEq] at hs
    rw [← hs.1] at hord
    simp only at hord
    match hcs : c.children with
    | [] => rw [hcs] at e1; cases e1
    | [_] => rw [hcs] at e1; simp at e1
    | [_, _] => rw [hcs] at e1; simp at e1
    | a :: b :: d :: rest =>
      rw [hcs] at e1 hord
      simp only [List.map_cons, List.cons.injEq, Prod.mk.injEq] at e1
      obtain ⟨⟨a1, a2⟩, ⟨b1, b2⟩, ⟨d1, d2⟩, _⟩ := e1
      have hbd := (List.pairwise_cons.1 (List.pairwise_cons.1 hord).2).1 d (by simp)
      have hb : At ((a :: b :: d :: rest).map partOf) b 1 := by
        refine ⟨⟨partOf b, rfl, ?_⟩, ?_⟩
        · exact ⟨rfl, by rw [b2]; rfl⟩
        · intro j p hj hp
          have : j = 0 := by omega
          subst this
          simp at hp; subst hp
          rintro ⟨h1, _⟩
          rw [b1] at h1
          simp only at h1
          rw [a1] at h1
          exact absurd h1 (by decide)
      have hd : At ((a :: b :: d :: rest).map partOf) d 0 := by
        refine ⟨⟨partOf a, rfl, ?_⟩, fun j p hj => by omega⟩
        exact ⟨by show some a.identifier = some d.identifier; rw [a1, d1], by rw [d2, a2]; rfl⟩
      exact absurd (hbd 1 0 hb hd) (by decide)

section
attribute [local instance] asciiUcd

/-- A tree with three functions `whenA`, `test_WhenA`, `test_WhenB` ... -/
private def hirA : HRoot := ⟨[⟨c!"Foo", [
  ⟨c!"whenA", .modifier, ⟨⟨5, 2, 1⟩, ⟨9, 2, 5⟩⟩, none, none⟩,
  ⟨c!"test_WhenA", .function, ⟨⟨5, 2, 1⟩, ⟨9, 2, 5⟩⟩, some [c!"whenA"], none⟩,
  ⟨c!"test_WhenB", .function, ⟨⟨15, 4, 5⟩, ⟨19, 4, 9⟩⟩, some [c!"whenA"], none⟩]⟩]⟩

/-- ... and a contract with other things, the two tests swapped and the modifier missing. -/
private def ctxA : Context := ⟨c!"a.tree", hirA, c!"a.t.sol",
  c!"contract Fou {\n uint x;\n function test_WhenB() {}\n function test_WhenA() {}\n}\n",
  [.other, .contract ⟨some c!"Fou", 0, 74, [.other 15 21,
    .fn ⟨.function, some c!"test_WhenB", 24, 48⟩, .fn ⟨.function, some c!"test_WhenA", 50, 74⟩]⟩], false⟩

example : checkCtx ctxA = .ok [
    ⟨.contractNameNotMatches c!"Foo" c!"Fou", .code c!"a.t.sol" 1⟩,
    ⟨.matchingFunctionMissing ⟨c!"whenA", .modifier, ⟨⟨5, 2, 1⟩, ⟨9, 2, 5⟩⟩, none, none⟩ 0, .code c!"a.tree" 2⟩,
    ⟨.functionOrderMismatch ⟨.function, some c!"test_WhenA", 50, 74⟩ 2 1, .code c!"a.t.sol" 4⟩] := by cbv

example : checkCtx { ctxA with skipModifiers := true } = .ok [
    ⟨.contractNameNotMatches c!"Foo" c!"Fou", .code c!"a.t.sol" 1⟩,
    ⟨.functionOrderMismatch ⟨.function, some c!"test_WhenA", 50, 74⟩ 2 1, .code c!"a.t.sol" 4⟩] := by cbv

/-- The hypotheses of C40 are met by adding a helper, a constructor and a second contract. -/
example : Extends [⟨c!"test_WhenA", .function, ⟨⟨5, 2, 1⟩, ⟨9, 2, 5⟩⟩, none, none⟩]
    [.fn ⟨.function, some c!"test_WhenA", 10, 20⟩]
    [.fn ⟨.constructor, none, 10, 15⟩, .fn ⟨.function, some c!"test_WhenA", 20, 30⟩, .fn ⟨.function, some c!"helper", 31, 40⟩] := by
  refine .extra (by simp [Matches]) (.keep .fn (.extra ?_ .nil))
  intro f hf
  simp only [List.mem_singleton] at hf
  subst hf
  simp [Matches]

end
end Bulloak
