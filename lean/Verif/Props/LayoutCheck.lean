import Verif.Props.Layout
import Verif.Props.CliCheck
import Verif.Props.Exact
/-!
# C72: the layout of a tree does not change what `check` says
-/

namespace Bulloak.Spec
open Bulloak

/-- The same violation, except for the line in the tree and the comments of a missing function. -/
inductive SameReport : Violation → Violation → Prop where
  | refl {v} : SameReport v v
  | missing {f f' i file l l'} : f.identifier = f'.identifier → f.ty = f'.ty →
      SameReport ⟨.matchingFunctionMissing f i, .code file l⟩ ⟨.matchingFunctionMissing f' i, .code file l'⟩

end Bulloak.Spec

namespace Bulloak
open Spec
set_option linter.unusedSectionVars false

theorem matching_congr {f f' : HFn} (h1 : f.identifier = f'.identifier) (h2 : f.ty = f'.ty) (s : SolContract) :
    findMatchingFn s f = findMatchingFn s f' := by
  unfold findMatchingFn
  generalize 0 = k
  induction s.parts generalizing k with
  | nil => rfl
  | cons p ps ih =>
    cases p with
    | fn g =>
      have e : fnsMatch f g = fnsMatch f' g := by unfold fnsMatch; rw [h1, h2]
      simp only [findMatchingFnFrom, e, ih]
    | other => simp only [findMatchingFnFrom, ih]

theorem presentAndMissing_keys {ctx ctx' : Context} (ht : ctx.tree = ctx'.tree) (hk : ctx.skipModifiers = ctx'.skipModifiers) (s : SolContract) :
    ∀ {fns fns' : List HFn} (_ : fns.map keyOf = fns'.map keyOf) (i : Nat),
    (presentAndMissing ctx s i fns).1 = (presentAndMissing ctx' s i fns').1 ∧
    Each SameReport (presentAndMissing ctx s i fns).2 (presentAndMissing ctx' s i fns').2 := by
  intro fns
  induction fns with
  | nil =>
    intro fns' h i
    cases fns' with
    | nil => exact ⟨rfl, .nil⟩
    | cons => cases h
  | cons f fns ih =>
    intro fns' h i
    cases fns' with
    | nil => cases h
    | cons f' fns' =>
      rw [List.map_cons, List.map_cons, List.cons.injEq] at h
      have h1 : f.identifier = f'.identifier := congrArg Prod.fst h.1
      have h2 : f.ty = f'.ty := congrArg Prod.snd h.1
      obtain ⟨e1, e2⟩ := ih h.2 (i + 1)
      have hm : f.isModifier = f'.isModifier := by simp only [HFn.isModifier, h2]
      simp only [presentAndMissing, matching_congr h1 h2, hk, hm, ht]
      cases findMatchingFn s f' with
      | some p => exact ⟨by simp [e1], e2⟩
      | none =>
        simp only
        split
        · exact ⟨e1, e2⟩
        · exact ⟨e1, .cons (.missing h1 h2) e2⟩

theorem orderViolations_keys {ctx ctx' : Context} (hs : ctx.sol = ctx'.sol) (hc : ctx.src = ctx'.src) {n : Str} {fns fns' : List HFn}
    (hl : fns.length = fns'.length) (s : SolContract) : ∀ l : List (Nat × Nat),
    orderViolations ctx ⟨n, fns⟩ s l = orderViolations ctx' ⟨n, fns'⟩ s l := by
  intro l
  induction l with
  | nil => rfl
  | cons p l ih =>
    obtain ⟨i, a⟩ := p
    simp only [orderViolations, ih, hs, hc]
    rcases Nat.lt_or_ge i fns.length with hlt | hge
    · rw [List.getElem?_eq_getElem hlt, List.getElem?_eq_getElem (l := fns') (by omega)]
      cases s.parts[a]? with
      | none => rfl
      | some q => cases q <;> rfl
    · rw [List.getElem?_eq_none_iff.2 hge, List.getElem?_eq_none_iff (l := fns').2 (by omega)]

section
variable [U : Ucd]

/-- Contexts with the same Solidity file and functions of the same names. -/
theorem check_keys {ctx ctx' : Context} (ht : ctx.tree = ctx'.tree) (hs : ctx.sol = ctx'.sol) (hc : ctx.src = ctx'.src) (hp : ctx.pt = ctx'.pt)
    (hk : ctx.skipModifiers = ctx'.skipModifiers) {n : Str} {fns fns' : List HFn} (hh : ctx.hir = ⟨[⟨n, fns⟩]⟩) (hh' : ctx'.hir = ⟨[⟨n, fns'⟩]⟩)
    (h : fns.map keyOf = fns'.map keyOf) :
    (checkCtx ctx = .panic ∧ checkCtx ctx' = .panic) ∨
    ∃ vs vs', checkCtx ctx = .ok vs ∧ checkCtx ctx' = .ok vs' ∧ Each SameReport vs vs' := by
  have hr : ∀ l : List Violation, Each SameReport l l := fun l => by
    induction l with
    | nil => exact .nil
    | cons v l ih => exact .cons .refl ih
  have happ : ∀ {a b c d : List Violation}, Each SameReport a b → Each SameReport c d → Each SameReport (a ++ c) (b ++ d) := by
    intro a b c d h h'
    induction h with
    | nil => exact h'
    | cons h _ ih => exact .cons h ih
  have hl : fns.length = fns'.length := by simpa using congrArg List.length h
  unfold checkCtx
  rw [hh, hh', hp]
  cases findContract ctx'.pt with
  | none => rw [ht]; exact .inr ⟨_, _, rfl, rfl, hr _⟩
  | some s =>
    simp only [HRoot.findContract, List.head?_cons]
    have e1 : checkContractNames ctx ⟨n, fns⟩ s = checkContractNames ctx' ⟨n, fns'⟩ s := by
      simp only [checkContractNames, hs, hc]
    rw [e1]
    cases checkContractNames ctx' ⟨n, fns'⟩ s with
    | panic => exact .inl ⟨rfl, rfl⟩
    | err e => cases e
    | ok v1 =>
      simp only [Res.bind_ok, checkFnsStructure]
      obtain ⟨e2, e3⟩ := presentAndMissing_keys ht hk s h 0
      rw [e2, orderViolations_keys hs hc hl]
      split
      · exact .inr ⟨_, _, rfl, rfl, happ (hr _) e3⟩
      · cases orderViolations ctx' ⟨n, fns'⟩ s (unsortedPairs (presentAndMissing ctx' s 0 fns').1) with
        | panic => exact .inl ⟨rfl, rfl⟩
        | err e => cases e
        | ok v2 => exact .inr ⟨_, _, rfl, rfl, happ (hr _) (happ e3 (hr _))⟩

theorem look_keys {D : Str → Str} {fns fns' : List HFn} (h : fns.map (look D) = fns'.map (look D)) : fns.map keyOf = fns'.map keyOf := by
  have := congrArg (List.map keyOf) h
  rw [List.map_map, List.map_map] at this
  exact this

/-- **C72.** Two tree files whose trees read the same and are indented alike are both accepted or both rejected, and `check` says the same
about them and a Solidity file, apart from the lines of missing functions in the tree. -/
theorem C72_same_report [LawfulUcd] {order order' : HashOrder} (ho : ∀ l, (order l).Perm l) (ho' : ∀ l, (order' l).Perm l)
    {text text' : Str} {bs bs' : List Str} (hb : Trees text bs) (hb' : Trees text' bs') (h : Each SameIndent bs bs') :
    ((∃ hir, translate order .default text = .ok hir) ↔ ∃ hir', translate order' .default text' = .ok hir') ∧
    ∀ {ctx : Context} {hir' : HRoot}, translate order .default text = .ok ctx.hir → translate order' .default text' = .ok hir' →
      (checkCtx ctx = .panic ∧ checkCtx { ctx with hir := hir' } = .panic) ∨
      ∃ vs vs', checkCtx ctx = .ok vs ∧ checkCtx { ctx with hir := hir' } = .ok vs' ∧ Each SameReport vs vs' := by
  refine ⟨⟨?_, ?_⟩, ?_⟩
  · rintro ⟨hir, ht⟩
    obtain ⟨n, fns, rfl, _⟩ := translate_ok ht
    obtain ⟨fns', h1, _⟩ := translate_related (D := trimStart) trimStart_idem (fun b b' toks h ht => alike_indent h ht) ho ho' hb hb' h ht
    exact ⟨_, h1⟩
  · rintro ⟨hir, ht⟩
    obtain ⟨n, fns, rfl, _⟩ := translate_ok ht
    obtain ⟨fns', h1, _⟩ := translate_related (D := trimStart) trimStart_idem (fun b b' toks h ht => alike_indent h ht) ho' ho hb' hb
      (each_symm (fun _ _ => sameIndent_symm) h) ht
    exact ⟨_, h1⟩
  · intro ctx hir' ht ht'
    obtain ⟨n, fns, hh, _⟩ := translate_ok ht
    rw [hh] at ht
    obtain ⟨fns', h1, h2⟩ := translate_related (D := trimStart) trimStart_idem (fun b b' toks h ht => alike_indent h ht) ho ho' hb hb' h ht
    rw [ht'] at h1
    cases h1
    exact check_keys (ctx := ctx) (ctx' := { ctx with hir := ⟨[⟨n, fns'⟩]⟩ }) rfl rfl rfl rfl rfl hh rfl (look_keys h2)

/-- Two file systems that are the same except that the trees of the tree files `files` may have another layout. -/
def SameButLayout (fs fs' : Fs) (files : List FPath) : Prop :=
  (∀ t ∈ files, (fs.state t = fs'.state t) ∨ ∃ text text' bs bs', fs.state t = .text text ∧ fs'.state t = .text text' ∧
    Trees text bs ∧ Trees text' bs' ∧ Each SameIndent bs bs') ∧
  ∀ t ∈ files, ∀ p, SolOf t p → fs.state p = fs'.state p

theorem opens_layout [LawfulUcd] {env : Env} (ho : ∀ l, (env.order l).Perm l) {skip : Bool} {fs fs' : Fs} {files : List FPath}
    (h : SameButLayout fs fs' files) {t : FPath} (ht : t ∈ files) {ctx : Context} (hop : Opens env skip fs t ctx) :
    ∃ ctx', Opens env skip fs' t ctx' ∧ ((checkCtx ctx = .panic ↔ checkCtx ctx' = .panic) ∧ (checkCtx ctx = .ok [] ↔ checkCtx ctx' = .ok [])) := by
  obtain ⟨text, hir, p, src, u, h1, h2, h3, h4, h5, rfl⟩ := hop
  have hp : fs'.state p = .text src := by rw [← h.2 t ht p h3]; exact h4
  rcases h.1 t ht with he | ⟨text0, text', bs, bs', ha, hb, hc, hd, he⟩
  · exact ⟨_, ⟨text, hir, p, src, u, by rw [← he]; exact h1, h2, h3, hp, h5, rfl⟩, Iff.rfl, Iff.rfl⟩
  · rw [h1] at ha
    cases ha
    obtain ⟨hir', h6⟩ := (C72_same_report ho ho hc hd he).1.1 ⟨hir, h2⟩
    refine ⟨_, ⟨text', hir', p, src, u, hb, h6, h3, hp, h5, rfl⟩, ?_⟩
    rcases (C72_same_report ho ho hc hd he).2 (ctx := ⟨t.str, hir, p.str, src, u, skip⟩) h2 h6 with ⟨h7, h8⟩ | ⟨vs, vs', h7, h8, h9⟩
    · rw [h7]
      simp only at h8
      rw [h8]
      exact ⟨Iff.rfl, by constructor <;> (intro h; cases h)⟩
    · rw [h7]
      simp only at h8
      rw [h8]
      refine ⟨by constructor <;> (intro h; cases h), ?_⟩
      constructor
      · intro h; cases h; cases h9; rfl
      · intro h; cases h; cases h9; rfl

theorem opens_unique {env : Env} {skip : Bool} {fs : Fs} {t : FPath} {c d : Context} (h1 : Opens env skip fs t c) (h2 : Opens env skip fs t d) :
    c = d := by
  have e1 := contextNew_ok.2 ⟨h1, rfl⟩
  rw [contextNew_ok.2 ⟨h2, rfl⟩] at e1
  cases e1; rfl

theorem sameButLayout_symm {fs fs' : Fs} {files : List FPath} (h : SameButLayout fs fs' files) : SameButLayout fs' fs files := by
  refine ⟨fun t ht => ?_, fun t ht p hp => (h.2 t ht p hp).symm⟩
  rcases h.1 t ht with h1 | ⟨text, text', bs, bs', ha, hb, hc, hd, he⟩
  · exact .inl h1.symm
  · exact .inr ⟨text', text, bs', bs, hb, ha, hd, hc, each_symm (fun _ _ => sameIndent_symm) he⟩

/-- **C72**, exit code: changing the layout of trees does not change the exit code of `check`. -/
theorem C72_exit [LawfulUcd] {env : Env} (ho : ∀ l, (env.order l).Perm l) {a : CheckArgs} (hf : a.fix = false) {fs fs' : Fs}
    (h : SameButLayout fs fs' a.files) : (checkRun env a fs).exit = (checkRun env a fs').exit := by
  have hopen : ∀ {fs fs' : Fs}, SameButLayout fs fs' a.files → ∀ t ∈ a.files, ∀ ctx, Opens env a.skipModifiers fs t ctx →
      ∃ ctx', Opens env a.skipModifiers fs' t ctx' ∧ ((checkCtx ctx = .panic ↔ checkCtx ctx' = .panic) ∧ (checkCtx ctx = .ok [] ↔ checkCtx ctx' = .ok [])) :=
    fun h t ht ctx hop => opens_layout ho h ht hop
  have h' := sameButLayout_symm h
  rcases C51_exit (env := env) (fs := fs) hf with ⟨e1, c1⟩ | ⟨e1, c1, t, ht, c2⟩ | ⟨e1, t, ht, ctx, c1, c2⟩ <;>
    rcases C51_exit (env := env) (fs := fs') hf with ⟨e2, d1⟩ | ⟨e2, d1, t', ht', d2⟩ | ⟨e2, t', ht', ctx', d1, d2⟩ <;> rw [e1, e2]
  · obtain ⟨ctx, o, c⟩ := c1 t' ht'
    obtain ⟨ctx', o', _, hk⟩ := hopen h t' ht' ctx o
    exact absurd (hk.1 c) (d2 ctx' o')
  · obtain ⟨ctx, o, c⟩ := c1 t' ht'
    obtain ⟨ctx'', o'', hk, _⟩ := hopen h' t' ht' ctx' d1
    have : ctx'' = ctx := opens_unique o'' o
    subst this
    rw [hk.1 d2] at c
    cases c
  · obtain ⟨ctx, o, c⟩ := d1 t ht
    obtain ⟨ctx', o', _, hk⟩ := hopen h' t ht ctx o
    exact absurd (hk.1 c) (c2 ctx' o')
  · obtain ⟨ctx, o, hk, _⟩ := hopen h' t' ht' ctx' d1
    exact absurd (hk.1 d2) (c1 t' ht' ctx o)
  · obtain ⟨ctx'', o, c⟩ := d1 t ht
    obtain ⟨ctx', o', hk, _⟩ := hopen h t ht ctx c1
    have : ctx' = ctx'' := opens_unique o' o
    subst this
    rw [hk.1 c2] at c
    cases c
  · obtain ⟨ctx', o', hk, _⟩ := hopen h t ht ctx c1
    exact absurd (hk.1 c2) (d1 t ht ctx' o')

end

section
attribute [local instance] asciiUcd

private def solText : Str := c!"contract A { function test_Works() external {} }"

/-- Disks with the two drawings of one tree and the same Solidity file, in which a test is missing. -/
private def diskOf (tree : Str) : Fs :=
  ⟨fun p => if p.name = c!"a.tree" then .text tree else if p.name = c!"a.t.sol" then .text solText else .absent, fun _ => false⟩

private def layoutEnv : Env :=
  ⟨some, fun _ => some [.contract ⟨some c!"A", 0, 48, [.fn ⟨.function, some c!"test_Works", 13, 45⟩]⟩], fun c => some c.src, id⟩

private def treePath : FPath := ⟨c!"x/", c!"a.tree"⟩

/-- C72 applies to the two disks. -/
theorem disks_alike : SameButLayout (diskOf (drawn ++ c!"\n")) (diskOf (drawnNarrow ++ c!"\n")) [treePath] := by
  refine ⟨fun t ht => .inr ⟨_, _, _, _, ?_, ?_, trees_drawn, trees_narrow, .cons drawn_indent .nil⟩, fun t ht p hp => ?_⟩
  · rw [List.mem_singleton.1 ht]; rfl
  · rw [List.mem_singleton.1 ht]; rfl
  · rw [(solOf_iff _ _).1 hp, List.mem_singleton.1 ht]
    decide +kernel

example : (checkRun layoutEnv ⟨[treePath], false, false, false⟩ (diskOf (drawn ++ c!"\n"))).exit =
    (checkRun layoutEnv ⟨[treePath], false, false, false⟩ (diskOf (drawnNarrow ++ c!"\n"))).exit := by
  haveI := lawful_ascii
  exact C72_exit (fun _ => .refl _) rfl disks_alike

set_option maxRecDepth 16000 in
/-- Indeed `check` reports the missing test for both. -/
example : (checkRun layoutEnv ⟨[treePath], false, false, false⟩ (diskOf (drawnNarrow ++ c!"\n"))).exit = .code 1 := by cbv

end
end Bulloak
