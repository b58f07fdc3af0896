import Verif.Props.EditRuns
import Verif.Props.EditRuns2
import Verif.Props.EditCases2
import Verif.Props.RetitleCases
import Verif.Props.TreeOrder
/-! # The exit code of `check` after trees are edited: concrete cases -/

namespace Bulloak
open Spec

attribute [local instance] asciiUcd

/-- A tree file and its Solidity file. -/
private def deskOf (text : Str) (L : Layout) : Fs :=
  ⟨fun p => if p = ⟨[], c!"a.tree"⟩ then .text text else if p = ⟨[], c!"a.t.sol"⟩ then .text L.text else .absent, fun _ => true⟩

/-- A parser that reads one Solidity file. -/
private def envOf (L : Layout) : Env := ⟨some, fun s => if s = L.text then some [.contract L.contract] else none, fun c => some c.src, id⟩

private def argsOf (skip : Bool) : CheckArgs := ⟨[⟨[], c!"a.tree"⟩], false, false, skip⟩

private theorem a_sol : SolOf ⟨[], c!"a.tree"⟩ ⟨[], c!"a.t.sol"⟩ := (solOf_iff _ _).2 (by decide +kernel)

private theorem desk_tree (text : Str) (L : Layout) : (deskOf text L).state ⟨[], c!"a.tree"⟩ = .text text := by simp [deskOf]

private theorem desk_sol (text : Str) (L : Layout) : (deskOf text L).state ⟨[], c!"a.t.sol"⟩ = .text L.text := by simp [deskOf]

private theorem desk_same (x y : Str) (L : Layout) (skip : Bool) : ∀ t ∈ (argsOf skip).files, ∀ p, SolOf t p → (deskOf y L).state p = (deskOf x L).state p := by
  intro t ht p hp
  rw [List.mem_singleton.1 ht] at hp
  have e : p = ⟨[], c!"a.t.sol"⟩ := ((solOf_iff _ _).1 hp).trans ((solOf_iff _ _).1 a_sol).symm
  rw [e, desk_sol, desk_sol]

private theorem desk_parse (L : Layout) : (envOf L).solParse L.text = some [.contract L.contract] := by simp [envOf]

section
attribute [local irreducible] treeOf astsOf onlyOf

private theorem desk_passes {text : Str} {L : Layout} {skip : Bool} (ht : translate id .default text = .ok ⟨[treeOf text]⟩)
    (hc : checkCtx (caseOf text L skip) = .ok []) : (checkRun (envOf L) (argsOf skip) (deskOf text L)).exit = .code 0 := by
  haveI := lawful_ascii
  have ho : Opens (envOf L) skip (deskOf text L) ⟨[], c!"a.tree"⟩ (caseOf text L skip) :=
    ⟨text, _, _, L.text, _, desk_tree text L, ht, a_sol, desk_sol text L, desk_parse L, rfl⟩
  rcases C51_exit (env := envOf L) (a := argsOf skip) (fs := deskOf text L) rfl with ⟨h, _⟩ | ⟨_, _, t, hm, h⟩ | ⟨_, t, hm, ctx, h1, h2⟩
  · exact h
  · rw [List.mem_singleton.1 hm] at h
    exact absurd hc (h _ ho)
  · rw [List.mem_singleton.1 hm] at h1
    rw [opens_unique h1 ho, hc] at h2
    cases h2

private theorem hir_eq {text : Str} {n : Str} (h : (treeOf text).identifier = n) : (⟨[treeOf text]⟩ : HRoot) = ⟨[⟨n, (treeOf text).children⟩]⟩ := by rw [← h]

end

set_option maxRecDepth 16000 in
private theorem pq_root : (treeOf treePQ).identifier = titleOf (onlyOf treePQ) := by cbv

set_option maxRecDepth 16000 in
private theorem prq_root : (treeOf treePRQ).identifier = titleOf (onlyOf treePRQ) := by cbv

set_option maxRecDepth 16000 in
private theorem prq_new : ((treeOf treePRQ).children.any (fun f => decide (nameOf f ∉ (treeOf treePQ).children.map nameOf ∧ f.ty = .function))) = true := by cbv

set_option maxRecDepth 16000 in
private theorem qrp_places : ((treeOf treeQRP).children.take 2).map (fun f => (findMatchingFn filePRQ.contract f).map Prod.fst) = [some 1, some 0] := by cbv

set_option maxRecDepth 16000 in
private theorem re_title : titleOf (onlyOf treeRetitled) = titleOf (onlyOf treePRQ) := by cbv

/-- A file for `tripleFGH`. -/
private def fileThree : Layout := ⟨[], some c!"A", c!"contract A ", c!"\n",
  [(fnSeg c!"test_FWhenP" c!"a();", c!"\n"), (fnSeg c!"test_FWhenQ" c!"b();", c!"\n"),
    (.fn .modifier (some c!"whenX") c!"modifier whenX() { _; }", c!"\n"), (fnSeg c!"test_GWhenZ" c!"c();", c!"\n"), (fnSeg c!"test_HWhenW" c!"d();", c!"\n")], c!"\n"⟩

set_option maxRecDepth 16000 in
private theorem three_check : checkCtx (caseOf tripleFGH fileThree false) = .ok [] := by cbv

/-- The trees of `tripleFGH` in another order. -/
private def tripleFHG : Str := c!"A::f\n├── when p\n│   └── it a\n└── when q\n    └── it b\n\nA::h\n└── when x\n    └── when w\n        └── it d\n\nA::g\n└── when x\n    └── when z\n        └── it c"

set_option maxRecDepth 16000 in
private theorem fgh_split : splitTrees tripleFGH = [c!"A::f\n├── when p\n│   └── it a\n└── when q\n    └── it b", c!"A::g\n└── when x\n    └── when z\n        └── it c",
    c!"A::h\n└── when x\n    └── when w\n        └── it d"] := by cbv
set_option maxRecDepth 16000 in
private theorem fhg_split : splitTrees tripleFHG = [c!"A::f\n├── when p\n│   └── it a\n└── when q\n    └── it b", c!"A::h\n└── when x\n    └── when w\n        └── it d",
    c!"A::g\n└── when x\n    └── when z\n        └── it c"] := by cbv

private theorem fgh_perm : [c!"A::f\n├── when p\n│   └── it a\n└── when q\n    └── it b", c!"A::g\n└── when x\n    └── when z\n        └── it c",
    c!"A::h\n└── when x\n    └── when w\n        └── it d"].Perm [c!"A::f\n├── when p\n│   └── it a\n└── when q\n    └── it b", c!"A::h\n└── when x\n    └── when w\n        └── it d",
    c!"A::g\n└── when x\n    └── when z\n        └── it c"] := .cons _ (.swap _ _ _)

set_option maxRecDepth 16000 in
private theorem fhg_places : (treeOf tripleFHG).children.map (fun f => (findMatchingFn fileThree.contract f).map Prod.fst) = [some 0, some 1, some 2, some 4, some 3] := by cbv

set_option maxRecDepth 16000 in
private theorem fhg_translate : translate id .default tripleFHG = .ok ⟨[treeOf tripleFHG]⟩ := treeOf_eq (by cbv)

set_option maxRecDepth 16000 in
private theorem fhg_check : (match checkCtx { caseOf tripleFGH fileThree false with hir := ⟨[treeOf tripleFHG]⟩ } with | .ok vs => vs.length | _ => 9) = 1 := by cbv

section
attribute [local irreducible] treeOf astsOf onlyOf

/-- C96: the branches that `treePRQ` has more than `treePQ` are removed, `check` still succeeds. -/
example : (checkRun (envOf filePRQ) (argsOf false) (deskOf treePQ filePRQ)).exit = .code 0 := by
  haveI := lawful_ascii
  refine C96_exit rfl (desk_same treePRQ treePQ filePRQ false) (fun t ht => .inr ?_) (desk_passes prq_translate prq_check)
  rw [List.mem_singleton.1 ht]
  exact ⟨_, _, _, _, desk_tree _ _, desk_tree _ _, prq_parse, pq_parse, pq_title, pq_extended⟩

/-- C98: the third tree is removed, `check` still succeeds. -/
example : (checkRun (envOf fileThree) (argsOf false) (deskOf pairFG fileThree)).exit = .code 0 := by
  haveI := lawful_ascii
  refine C98_exit rfl (desk_same tripleFGH pairFG fileThree false) (fun t ht => .inr ?_) (desk_passes three_translate three_check)
  rw [List.mem_singleton.1 ht]
  have h3 := astsOf_length three_length
  rw [three_more] at h3
  exact ⟨_, _, _, _, desk_tree _ _, desk_tree _ _, h3, astsOf_length two_length, by rw [two_length]; exact Nat.le_refl _⟩

/-- C95: the branches are added, `check` fails, also with `-m`. -/
example (skip : Bool) : (checkRun (envOf filePQ) (argsOf skip) (deskOf treePRQ filePQ)).exit = .code 1 := by
  haveI := lawful_ascii
  have k1 : translate id .default treePQ = .ok ⟨[⟨titleOf (onlyOf treePQ), (treeOf treePQ).children⟩]⟩ := by rw [pq_translate, hir_eq pq_root]
  have k2 : translate id .default treePRQ = .ok ⟨[⟨titleOf (onlyOf treePRQ), (treeOf treePRQ).children⟩]⟩ := by rw [prq_translate, hir_eq prq_root]
  refine (C95_exit (env := envOf filePQ) (a := argsOf skip) (text := treePQ) (text' := treePRQ) (ast := onlyOf treePQ) (ast' := onlyOf treePRQ)
    (fns := (treeOf treePQ).children) (fns' := (treeOf treePRQ).children) rfl (desk_same treePQ treePRQ filePQ skip) (List.mem_singleton.2 rfl) (fun u hu hne => absurd (List.mem_singleton.1 hu) hne)
    (desk_tree _ _) (desk_tree _ _) pq_parse prq_parse pq_title.symm pq_extended k1 k2 (distinctOf_distinct prq_distinct) ?_ (desk_passes pq_translate (pq_check skip))).1 ?_
  · intro p src u s hp hsrc hu hs f hf hm
    have e : p = ⟨[], c!"a.t.sol"⟩ := ((solOf_iff _ _).1 hp).trans ((solOf_iff _ _).1 a_sol).symm
    rw [e, desk_sol] at hsrc
    cases hsrc
    rw [desk_parse] at hu
    cases hu
    rw [first_case hs]
    exact absentOf_absent prq_absent f hf hm
  · obtain ⟨f, hf, h⟩ := List.any_eq_true.1 prq_new
    obtain ⟨h1, h2⟩ := of_decide_eq_true h
    exact ⟨f, hf, h1, fun h3 => by rw [h2] at h3; cases h3.2⟩

/-- C107: the branches are put in another order, `check` fails. -/
example : (checkRun (envOf filePRQ) (argsOf false) (deskOf treeQRP filePRQ)).exit ≠ .code 0 := by
  haveI := lawful_ascii
  intro h0
  have h := (C107_exit (env := envOf filePRQ) (a := argsOf false) (text := treePRQ) (text' := treeQRP) (ast := onlyOf treePRQ) (ast' := onlyOf treeQRP)
    (n' := (treeOf treeQRP).identifier) (fns' := (treeOf treeQRP).children) rfl (desk_same treePRQ treeQRP filePRQ false) (List.mem_singleton.2 rfl)
    (fun u hu hne => absurd (List.mem_singleton.1 hu) hne) (desk_tree _ _) (desk_tree _ _) prq_parse qrp_parse qrp_title qrp_rearranged qrp_translate
    (desk_passes prq_translate prq_check)).1 h0 _ _ _ filePRQ.contract a_sol (desk_sol _ _) (desk_parse _) (caseOf_pt treePRQ filePRQ false)
  have key : ∀ {f g : HFn} {rest : List HFn}, (treeOf treeQRP).children = f :: g :: rest → False := by
    intro f g rest e
    have hp := qrp_places
    rw [e] at h hp
    have hle := (List.pairwise_cons.1 h).1 g (by simp)
    simp only [List.take_succ_cons, List.take_zero, List.map_cons, List.map_nil, List.cons.injEq, and_true] at hp
    rcases findMatchingFn_cases filePRQ.contract f with ⟨hf, _⟩ | ⟨i, _, hf, _, hi⟩
    · rw [hf] at hp; exact absurd hp.1 (by simp)
    · rcases findMatchingFn_cases filePRQ.contract g with ⟨hg, _⟩ | ⟨j, _, hg, _, hj⟩
      · rw [hg] at hp; exact absurd hp.2 (by simp)
      · rw [hf, hg] at hp
        have := hle i j hi hj
        simp only [Option.map_some, Option.some.injEq] at hp
        omega
  have hl := congrArg List.length qrp_places
  rw [List.length_map, List.length_take] at hl
  match hc : (treeOf treeQRP).children with
  | [] => rw [hc] at hl; simp at hl
  | [_] => rw [hc] at hl; simp at hl
  | _ :: _ :: _ => exact key hc

/-- C108: a condition gets another title, `check` fails. -/
example : (checkRun (envOf filePRQ) (argsOf false) (deskOf treeRetitled filePRQ)).exit = .code 1 := by
  haveI := lawful_ascii
  have h := C108_exit (env := envOf filePRQ) (a := argsOf false) (text := treePRQ) (text' := treeRetitled) (ast := onlyOf treePRQ) (ast' := onlyOf treeRetitled)
    (t := c!"when q") (t' := c!"when new") (k := underQ)
    (n' := (treeOf treeRetitled).identifier) (fns' := (treeOf treeRetitled).children) rfl (desk_same treePRQ treeRetitled filePRQ false) (List.mem_singleton.2 rfl)
    (fun u hu hne => absurd (List.mem_singleton.1 hu) hne) (desk_tree _ _) (desk_tree _ _) prq_parse re_parse re_title re_retitled re_translate
    (distinctOf_distinct re_distinct) (by
      intro p src u s hp hsrc hu hs f hf hm
      have e : p = ⟨[], c!"a.t.sol"⟩ := ((solOf_iff _ _).1 hp).trans ((solOf_iff _ _).1 a_sol).symm
      rw [e, desk_sol] at hsrc
      cases hsrc
      rw [desk_parse] at hu
      cases hu
      rw [first_case hs]
      exact re_new f hf hm) (desk_passes prq_translate prq_check)
  rw [h, if_neg]
  intro hall
  exact absurd (hall _ (by rw [re_own]; exact List.mem_cons_self)).1 (by decide)

/-- C114: the root gets another name, `check` fails. -/
example : (checkRun (envOf (fileVault c!"T")) (argsOf false) (deskOf treeVault (fileVault c!"T"))).exit ≠ .code 0 := by
  haveI := lawful_ascii
  intro h0
  have h := (C114_exit (env := envOf (fileVault c!"T")) (a := argsOf false) (text := treeABC) (text' := treeVault) (n := c!"T") (n' := c!"Vault") rfl
    (desk_same treeABC treeVault (fileVault c!"T") false) (List.mem_singleton.2 rfl) (fun u hu hne => absurd (List.mem_singleton.1 hu) hne)
    (desk_tree _ _) (desk_tree _ _) (onlyOf_eq abc_one) (onlyOf_eq vault_one) abc_vault (by
      intro p src u s hp hsrc hu hs
      have e : p = ⟨[], c!"a.t.sol"⟩ := ((solOf_iff _ _).1 hp).trans ((solOf_iff _ _).1 a_sol).symm
      rw [e, desk_sol] at hsrc
      cases hsrc
      rw [desk_parse] at hu
      cases hu
      rw [first_case hs]
      exact (by decide)) (desk_passes vault_old vault_silent)).1 h0
  revert h
  decide +kernel

/-- C129: the trees are put in another order: one function is out of order, and nothing else is reported. -/
example : ∃ v g i j, checkCtx { caseOf tripleFGH fileThree false with hir := ⟨[treeOf tripleFHG]⟩ } = .ok [v] ∧ v.kind = .functionOrderMismatch g i j := by
  haveI := lawful_ascii
  have h := fhg_check
  cases hv : checkCtx { caseOf tripleFGH fileThree false with hir := ⟨[treeOf tripleFHG]⟩ } with
  | ok vs =>
    rw [hv] at h
    have := C129_check (trees_of_split fgh_split) (trees_of_split fhg_split) fgh_perm (ctx := caseOf tripleFGH fileThree false) three_translate fhg_translate three_check hv
    match vs, h with
    | [v], _ =>
      obtain ⟨g, i, j, e⟩ := this v (List.mem_singleton_self v)
      exact ⟨v, g, i, j, rfl, e⟩
  | err e => exact nomatch e
  | panic => rw [hv] at h; cases h

/-- C129: `check` fails. -/
example : (checkRun (envOf fileThree) (argsOf false) (deskOf tripleFHG fileThree)).exit ≠ .code 0 := by
  haveI := lawful_ascii
  intro h0
  obtain ⟨n, fns, ht, hiff⟩ := C129_exit (env := envOf fileThree) (a := argsOf false) (text := tripleFGH) (text' := tripleFHG) rfl
    (desk_same tripleFGH tripleFHG fileThree false) (List.mem_singleton.2 rfl) (fun u hu hne => absurd (List.mem_singleton.1 hu) hne) (desk_tree _ _) (desk_tree _ _)
    (trees_of_split fgh_split) (trees_of_split fhg_split) fgh_perm (desk_passes three_translate three_check)
  have h := hiff.1 h0 _ _ _ fileThree.contract a_sol (desk_sol _ _) (desk_parse _) (caseOf_pt tripleFGH fileThree false)
  have hp := fhg_places
  rw [show (envOf fileThree).order = id from rfl, fhg_translate] at ht
  have e : treeOf tripleFHG = ⟨n, fns⟩ := by
    have := Res.ok.inj ht
    simpa using this
  rw [e] at hp
  have hl := congrArg List.length hp
  rw [List.length_map] at hl
  clear hiff ht e
  obtain ⟨a1, a2, a3, f, g, rfl⟩ : ∃ a1 a2 a3 f g, fns = [a1, a2, a3, f, g] := by
    rcases fns with _ | ⟨a1, _ | ⟨a2, _ | ⟨a3, _ | ⟨f, _ | ⟨g, _ | ⟨_, _⟩⟩⟩⟩⟩⟩ <;> simp at hl
    exact ⟨a1, a2, a3, f, g, rfl⟩
  · simp only [List.map_cons, List.map_nil, List.cons.injEq, and_true] at hp
    have hle := (List.pairwise_cons.1 (List.pairwise_cons.1 (List.pairwise_cons.1 (List.pairwise_cons.1 h).2).2).2).1 g (by simp)
    rcases findMatchingFn_cases fileThree.contract f with ⟨hf, _⟩ | ⟨i, _, hf, _, hi⟩
    · rw [hf] at hp; exact absurd hp.2.2.2.1 (by simp)
    · rcases findMatchingFn_cases fileThree.contract g with ⟨hg, _⟩ | ⟨j, _, hg, _, hj⟩
      · rw [hg] at hp; exact absurd hp.2.2.2.2 (by simp)
      · rw [hf, hg] at hp
        have := hle i j hi hj
        simp only [Option.map_some, Option.some.injEq] at hp
        omega

end
end Bulloak
