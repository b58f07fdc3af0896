import Verif.Props.EditRuns2
import Verif.Props.Exact2
import Verif.Props.Cases
/-! # The trees of a file in another order (C129) -/

namespace Bulloak
open Spec

section
variable [U : Ucd] [LawfulUcd]

omit U [LawfulUcd] in
theorem each_perm {α β : Type} {R : α → β → Prop} {as as' : List α} (hp : as.Perm as') : ∀ {bs : List β}, Each R as bs →
    ∃ bs', Each R as' bs' ∧ bs.Perm bs' ∧ (as.zip bs).Perm (as'.zip bs') := by
  induction hp with
  | nil => intro bs h; exact ⟨bs, h, .refl _, .refl _⟩
  | cons a _ ih =>
    intro bs h
    cases h with
    | @cons _ b _ bs r h =>
      obtain ⟨bs', h1, h2, h3⟩ := ih h
      exact ⟨b :: bs', .cons r h1, h2.cons b, h3.cons _⟩
  | swap a b l =>
    intro bs h
    cases h with
    | cons r1 h => cases h with
      | cons r2 h => exact ⟨_, .cons r2 (.cons r1 h), .swap _ _ _, .swap _ _ _⟩
  | trans _ _ ih1 ih2 =>
    intro bs h
    obtain ⟨b1, h1, h2, h3⟩ := ih1 h
    obtain ⟨b2, k1, k2, k3⟩ := ih2 h1
    exact ⟨b2, k1, h2.trans k2, h3.trans k3⟩

omit [LawfulUcd] in
private theorem firstOnly_names {l l' : List HFn} (hk : ∀ f ∈ l, ∀ g ∈ l, f.identifier = g.identifier → f.ty = g.ty) (hp : l.Perm l') :
    ((firstOnly l).map nameOf).Perm ((firstOnly l').map nameOf) := by
  have nd : ∀ m : List HFn, ((firstOnly m).map nameOf).Nodup := by
    intro m
    have h := firstOnly_nodup m
    have e : (firstOnly m).map HFn.identifier = ((firstOnly m).map nameOf).map Prod.snd := by rw [List.map_map]; rfl
    rw [e] at h
    exact List.Pairwise.of_map _ (fun _ _ hne he => hne (congrArg _ he)) h
  have mem : ∀ {m : List HFn}, (∀ f ∈ m, ∀ g ∈ m, f.identifier = g.identifier → f.ty = g.ty) → ∀ x, x ∈ (firstOnly m).map nameOf ↔ x ∈ m.map nameOf := by
    intro m hm x
    constructor
    · exact fun h => ((firstOnly_sublist m).map nameOf).subset h
    · intro h
      obtain ⟨f, hf, rfl⟩ := List.mem_map.1 h
      obtain ⟨g, hg, he⟩ := firstOnly_same hf
      refine List.mem_map.2 ⟨g, hg, ?_⟩
      exact Prod.ext (hm g ((firstOnly_sublist m).subset hg) f hf he) he
  rw [List.perm_ext_iff_of_nodup (nd l) (nd l')]
  intro x
  rw [mem hk, mem (fun f hf g hg => hk f (hp.mem_iff.2 hf) g (hp.mem_iff.2 hg))]
  exact (hp.map nameOf).mem_iff

private theorem perm_cases {order : HashOrder} {text text' : Str} {bs bs' : List Str} (hb : Trees text bs) (hb' : Trees text' bs') (hp : bs.Perm bs')
    {cfg : Config} {r : HRoot} (ht : translate order cfg text = .ok r) :
    ∃ asts asts', parse order text = .ok asts ∧ parse order text' = .ok asts' ∧ asts.Perm asts' ∧
      ((asts.length ≤ 1 ∧ asts' = asts ∧ translate order cfg text' = .ok r) ∨
      2 ≤ asts.length ∧ ∃ n fs fs', Each (fun a f => Splits (titleOf a) n f) asts fs ∧ Each (fun a f => Splits (titleOf a) n f) asts' fs' ∧
        (asts.zip fs).Perm (asts'.zip fs') ∧ r = ⟨[⟨n, firstOnly (prefixedFns cfg.emitVmSkip (asts.zip fs))⟩]⟩ ∧
        translate order cfg text' = .ok ⟨[⟨n, firstOnly (prefixedFns cfg.emitVmSkip (asts'.zip fs'))⟩]⟩) := by
  cases h : parse order text with
  | panic => simp [translate, h, Res.mapErr] at ht
  | err e => simp [translate, h, Res.mapErr] at ht
  | ok asts =>
    have h1 := (C13_parse_ok order text asts).1 h
    rw [split_trees hb] at h1
    obtain ⟨asts', h2, h3, _⟩ := each_perm hp h1
    rw [← split_trees hb'] at h2
    have h' := (C13_parse_ok order text' asts').2 h2
    refine ⟨asts, asts', rfl, h', h3, ?_⟩
    rcases translate_cases h cfg with ⟨ast, rfl, h4⟩ | ⟨rfl, h4⟩ | ⟨hl, n, fs, hn, hs, h4⟩ | ⟨hl, n, A, a, B, e', ha, hA, hb, h4⟩
    · obtain rfl := List.singleton_perm.1 h3
      left
      refine ⟨by simp, rfl, ?_⟩
      rw [translate_single h', ← ht, h4]
    · obtain rfl := List.nil_perm.1 h3
      left
      refine ⟨by simp, rfl, ?_⟩
      rw [← ht, h4]
      rcases translate_cases h' cfg with ⟨ast, e, _⟩ | ⟨_, h5⟩ | ⟨hl, _⟩ | ⟨hl, _⟩
      · cases e
      · exact h5
      · simp at hl
      · simp at hl
    · right
      rw [h4] at ht
      obtain ⟨fs', k1, _, k3⟩ := each_perm h3 hs
      have hl' : 2 ≤ asts'.length := by rw [← h3.length_eq]; exact hl
      exact ⟨hl, n, fs, fs', hs, k1, k3, (Res.ok.inj ht).symm, translate_good h' (by omega) (by intro e; rw [e] at hl'; simp at hl') hn k1⟩
    · rw [h4] at ht
      cases ht

omit [LawfulUcd] in
private theorem prefixed_perm {skip : Bool} {l l' : List (Ast × Str)} (h : l.Perm l') : (prefixedFns skip l).Perm (prefixedFns skip l') :=
  h.flatMap_right _

/-- **C129.** Two files with the same trees, in different orders: if one is accepted, so is the other, for the contract of the same name and with functions and modifiers of the same names. -/
theorem C129_functions {order : HashOrder} {text text' : Str} {bs bs' : List Str} (hb : Trees text bs) (hb' : Trees text' bs') (hp : bs.Perm bs')
    {cfg : Config} {n : Str} {fns : List HFn} (ht : translate order cfg text = .ok ⟨[⟨n, fns⟩]⟩) :
    ∃ fns', translate order cfg text' = .ok ⟨[⟨n, fns'⟩]⟩ ∧ (fns.map nameOf).Perm (fns'.map nameOf) := by
  obtain ⟨asts, asts', h, _, _, ⟨_, _, h3⟩ | ⟨hl, n', fs, fs', h3, _, h5, h6, h7⟩⟩ := perm_cases hb hb' hp ht
  · exact ⟨fns, h3, .refl _⟩
  · simp only [HRoot.mk.injEq, List.cons.injEq, HContract.mk.injEq, and_true] at h6
    obtain ⟨rfl, rfl⟩ := h6
    have hacc : ∀ p ∈ asts.zip fs, Accepted order p.1 := fun p hp => parse_accepted h _ (zip_mem h3 hp).1
    exact ⟨_, h7, firstOnly_names (fun f hf g hg => kindByName_ty (prefixed_kind hacc hf) (prefixed_kind hacc hg)) (prefixed_perm h5)⟩

/-- **C129, tests.** If the trees ask for tests of different names, the tests are the same too, with their comments and modifiers, in another order. -/
theorem C129_tests {order : HashOrder} {text text' : Str} {bs bs' : List Str} (hb : Trees text bs) (hb' : Trees text' bs') (hp : bs.Perm bs')
    {cfg : Config} {n : Str} {fns : List HFn} (ht : translate order cfg text = .ok ⟨[⟨n, fns⟩]⟩) {asts : List Ast} (h : parse order text = .ok asts)
    (hd : asts.length = 1 ∨ ∃ fs, Each (fun a f => Splits (titleOf a) n f) asts fs ∧
      (((prefixedFns cfg.emitVmSkip (asts.zip fs)).filter HFn.isFunction).map HFn.identifier).Nodup) :
    ∃ fns', translate order cfg text' = .ok ⟨[⟨n, fns'⟩]⟩ ∧ (fns.filter HFn.isFunction).Perm (fns'.filter HFn.isFunction) := by
  obtain ⟨asts0, asts', k, h', _, hcases⟩ := perm_cases hb hb' hp ht
  have e0 : asts = asts0 := Res.ok.inj (h.symm.trans k)
  subst e0
  obtain ⟨_, _, h3⟩ | ⟨hl, n', fs, fs', h3, h4, h5, h6, h7⟩ := hcases
  · exact ⟨fns, h3, .refl _⟩
  · simp only [HRoot.mk.injEq, List.cons.injEq, HContract.mk.injEq, and_true] at h6
    obtain ⟨rfl, rfl⟩ := h6
    refine ⟨_, h7, ?_⟩
    have hacc : ∀ p ∈ asts.zip fs, Accepted order p.1 := fun p hp => parse_accepted h _ (zip_mem h3 hp).1
    have hk : ∀ f ∈ prefixedFns cfg.emitVmSkip (asts.zip fs), ∀ g ∈ prefixedFns cfg.emitVmSkip (asts.zip fs), f.identifier = g.identifier → f.isFunction = g.isFunction := by
      intro f hf g hg he
      unfold HFn.isFunction
      rw [kindByName_ty (prefixed_kind hacc hf) (prefixed_kind hacc hg) he]
    have hpp := prefixed_perm (skip := cfg.emitVmSkip) h5
    rw [firstOnly_filter _ hk, firstOnly_filter _ (fun f hf g hg => hk f (hpp.mem_iff.2 hf) g (hpp.mem_iff.2 hg))]
    obtain ⟨fs0, k0, hn⟩ := hd.resolve_left (by omega)
    obtain rfl := (splits_same h3 k0).1
    have hq := hpp.filter HFn.isFunction
    rw [firstOnly_of_nodup hn, firstOnly_of_nodup (((hq.map HFn.identifier).nodup_iff).1 hn)]
    exact hq

/-- **C129, rejections.** If one is rejected, so is the other. -/
theorem C129_rejected {order : HashOrder} {text text' : Str} {bs bs' : List Str} (hb : Trees text bs) (hb' : Trees text' bs') (hp : bs.Perm bs') (cfg : Config) :
    (∃ e, translate order cfg text = .err e) ↔ ∃ e, translate order cfg text' = .err e := by
  have key : ∀ {text text' : Str} {bs bs' : List Str}, Trees text bs → Trees text' bs' → bs.Perm bs' →
      (∃ e, translate order cfg text = .err e) → ∃ e, translate order cfg text' = .err e := by
    rintro text text' bs bs' hb hb' hp ⟨e, he⟩
    cases h : translate order cfg text' with
    | panic => exact absurd h (C57_translate_never_panics order _ _)
    | err e => exact ⟨e, rfl⟩
    | ok r =>
      obtain ⟨n, fns, rfl, _⟩ := translate_ok h
      obtain ⟨_, h1, _⟩ := C129_functions hb' hb hp.symm h
      rw [h1] at he
      cases he
  exact ⟨key hb hb' hp, key hb' hb hp.symm⟩

/-- **C129, checking.** If the Solidity file conforms to the trees, then after putting them in another order `check` reports nothing but functions out of order. -/
theorem C129_check {order : HashOrder} {text text' : Str} {bs bs' : List Str} (hb : Trees text bs) (hb' : Trees text' bs') (hp : bs.Perm bs')
    {cfg : Config} {ctx : Context} {hir' : HRoot} (ht : translate order cfg text = .ok ctx.hir) (ht' : translate order cfg text' = .ok hir')
    (hc : checkCtx ctx = .ok []) {vs : List Violation} (hv : checkCtx { ctx with hir := hir' } = .ok vs) :
    ∀ v ∈ vs, ∃ g i j, v.kind = .functionOrderMismatch g i j := by
  obtain ⟨n, fns, hh, _⟩ := translate_ok ht
  rw [hh] at ht
  obtain ⟨fns', e', hp⟩ := C129_functions hb hb' hp ht
  rw [ht'] at e'
  obtain rfl := Res.ok.inj e'
  obtain ⟨s, h1, h2, h3, _⟩ := (C37_silent_iff hh).1 hc
  obtain ⟨v1, v3, g1, rfl, g3⟩ := check_report (ctx := { ctx with hir := ⟨[⟨n, fns'⟩]⟩ }) rfl h1 hv
  intro v hvm
  rcases List.mem_append.1 hvm with hvm | hvm
  · rcases names_report g1 with ⟨rfl, _⟩ | ⟨m, _, g4, g5, _⟩
    · cases hvm
    · exact absurd (h2 m g4) g5
  rcases List.mem_append.1 hvm with hvm | hvm
  · obtain ⟨f, i, _, hf, _, hnp, hsk⟩ := (presentAndMissing_missing _ s _ 0).1 v hvm
    have hfm := List.mem_map_of_mem (f := nameOf) (List.mem_of_getElem? hf)
    obtain ⟨f0, hf0, e0⟩ := List.mem_map.1 (hp.mem_iff.2 hfm)
    rcases h3 f0 hf0 with h4 | ⟨h4, h5⟩
    · exact absurd ((present_name e0 _).1 h4) hnp
    · exact absurd ⟨h4, (congrArg Prod.fst e0).symm.trans h5⟩ hsk
  · obtain ⟨p, _, g, line, _, _, rfl⟩ := each_mem_right g3 hvm
    exact ⟨_, _, _, rfl⟩

/-- **C129, commands.** If `check` succeeds and the trees of one of the files are put in another order, then it still does so if and only if the functions are in the new order. -/
theorem C129_exit {env : Env} {a : CheckArgs} {fs fs' : Fs} (hf : a.fix = false) (hs : ∀ t ∈ a.files, ∀ p, SolOf t p → fs'.state p = fs.state p)
    {t : FPath} (hta : t ∈ a.files) (hother : ∀ u ∈ a.files, u ≠ t → fs'.state u = fs.state u) {text text' : Str} {bs bs' : List Str}
    (h1 : fs.state t = .text text) (h2 : fs'.state t = .text text') (hb : Trees text bs) (hb' : Trees text' bs') (hp : bs.Perm bs')
    (h0 : (checkRun env a fs).exit = .code 0) :
    ∃ n fns', translate env.order .default text' = .ok ⟨[⟨n, fns'⟩]⟩ ∧
      ((checkRun env a fs').exit = .code 0 ↔ ∀ p src u s, SolOf t p → fs.state p = .text src → env.solParse src = some u → FirstContract u s →
        fns'.Pairwise (fun f g => ∀ i j, At s.parts f i → At s.parts g j → i ≤ j)) := by
  obtain ⟨r, k0⟩ : ∃ r, translate env.order .default text = .ok r := by
    rcases C51_exit (env := env) (fs := fs) hf with ⟨_, h⟩ | ⟨h, _⟩ | ⟨h, _⟩
    · obtain ⟨ctx, ⟨text0, hir0, p, src, u, k1, k2, _⟩, _⟩ := h t hta
      rw [h1] at k1
      cases k1
      exact ⟨_, k2⟩
    · rw [h0] at h; cases h
    · rw [h0] at h; cases h
  obtain ⟨n, fns, rfl, _⟩ := translate_ok k0
  obtain ⟨fns', ht', hp⟩ := C129_functions hb hb' hp k0
  refine ⟨n, fns', ht', ?_⟩
  obtain ⟨p, src, u, m1, m2, m3, m4, m5, _⟩ := edited_exit hf hs hta hother h1 h2 k0 ht' h0
  rw [m5, C37_silent_iff (ctx := ⟨t.str, _, p.str, src, u, a.skipModifiers⟩) rfl]
  obtain ⟨s, q1, q2, q3, q4⟩ := (C37_silent_iff (ctx := ⟨t.str, _, p.str, src, u, a.skipModifiers⟩) rfl).1 m4
  have uniq : ∀ {p' src' u' s'}, SolOf t p' → fs.state p' = .text src' → env.solParse src' = some u' → FirstContract u' s' → s' = s := by
    intro p' src' u' s' r1 r2 r3 r4
    have e := ((solOf_iff _ _).1 r1).trans ((solOf_iff _ _).1 m1).symm
    subst e
    rw [m2] at r2
    cases r2
    rw [m3] at r3
    cases r3
    exact Option.some.inj (((findContract_iff _ _).2 r4).symm.trans ((findContract_iff _ _).2 q1))
  constructor
  · rintro ⟨s', c1, _, _, c4⟩ p' src' u' s'' r1 r2 r3 r4
    obtain rfl := uniq r1 r2 r3 r4
    obtain rfl := uniq m1 m2 m3 c1
    exact c4
  · intro hall
    refine ⟨s, q1, q2, ?_, hall p src u s m1 m2 m3 q1⟩
    intro f hfm
    obtain ⟨f0, hf0, e0⟩ := List.mem_map.1 (hp.mem_iff.2 (List.mem_map_of_mem (f := nameOf) hfm))
    rcases q3 f0 hf0 with h4 | ⟨h4, h5⟩
    · exact .inl ((present_name e0 _).1 h4)
    · exact .inr ⟨h4, (congrArg Prod.fst e0).symm.trans h5⟩

end

/-! ## Cases -/

theorem trees_of_split [Ucd] {text : Str} {bs : List Str} (h : splitTrees text = bs) : Trees text bs := by
  classical
  by_cases hb : Blank text
  · exact .inl ⟨hb, h.symm.trans ((C12_split text).1 hb)⟩
  · obtain ⟨all, h1, _⟩ := (C12_split text).2.1 hb
    have k : Trees text (all.filter (fun b => ¬ OnlyComments b)) := .inr ⟨all, h1, by congr⟩
    rw [← h, split_trees k]
    exact k

section
attribute [local instance] asciiUcd

/-- The trees of `twoFile`, in the other order and with other comments between them. -/
def twoTurned : Str := c!"Foo::qux\n├── it works\n└── when a\n    └── given c\n        └── it should revert\n\nFoo::bar\n└── when a\n    ├── it x\n    └── when b\n        └── it y\n\n// end\n"

set_option maxRecDepth 16000 in
private theorem two_split : splitTrees twoFile =
    [c!"Foo::bar\n└── when a\n    ├── it x\n    └── when b\n        └── it y", c!"Foo::qux\n├── it works\n└── when a\n    └── given c\n        └── it should revert"] := by cbv
set_option maxRecDepth 16000 in
private theorem turned_split : splitTrees twoTurned =
    [c!"Foo::qux\n├── it works\n└── when a\n    └── given c\n        └── it should revert", c!"Foo::bar\n└── when a\n    ├── it x\n    └── when b\n        └── it y"] := by cbv

set_option maxRecDepth 16000 in
private theorem two_titles : (astsOf twoFile).map titleOf = [c!"Foo::bar", c!"Foo::qux"] := by cbv
set_option maxRecDepth 16000 in
private theorem turned_distinct : ((prefixedFns false ((astsOf twoFile).zip [c!"bar", c!"qux"])).filter HFn.isFunction).map HFn.identifier =
    [c!"test_BarWhenA", c!"test_BarWhenB", c!"test_QuxWorks", c!"test_QuxRevertGiven_C"] := by cbv
set_option maxRecDepth 16000 in
private theorem two_name : (contractOf twoFile).map HContract.identifier = some c!"Foo" := by cbv

set_option maxRecDepth 16000 in
/-- C129: the functions of the two trees, in the other order. -/
example : (contractOf twoTurned).map (fun c => (c.identifier, c.children.map HFn.identifier)) =
    some (c!"Foo", [c!"test_QuxWorks", c!"whenA", c!"test_QuxRevertGiven_C", c!"test_BarWhenA", c!"test_BarWhenB"]) := by cbv

section
attribute [local irreducible] treeOf astsOf contractOf

private theorem two_foo : ∃ fns, translate id .default twoFile = .ok ⟨[⟨c!"Foo", fns⟩]⟩ := by
  have h := two_name
  cases hc : contractOf twoFile with
  | none => rw [hc] at h; cases h
  | some c =>
    rw [hc] at h
    obtain ⟨n, fns⟩ := c
    cases Option.some.inj h
    exact ⟨fns, contractOf_eq hc⟩

private theorem two_perm : [c!"Foo::bar\n└── when a\n    ├── it x\n    └── when b\n        └── it y", c!"Foo::qux\n├── it works\n└── when a\n    └── given c\n        └── it should revert"].Perm
    [c!"Foo::qux\n├── it works\n└── when a\n    └── given c\n        └── it should revert", c!"Foo::bar\n└── when a\n    ├── it x\n    └── when b\n        └── it y"] := .swap _ _ _

/-- C129 -/
example : ∃ fns fns', translate id .default twoFile = .ok ⟨[⟨c!"Foo", fns⟩]⟩ ∧ translate id .default twoTurned = .ok ⟨[⟨c!"Foo", fns'⟩]⟩ ∧
    (fns.map nameOf).Perm (fns'.map nameOf) := by
  haveI := lawful_ascii
  obtain ⟨fns, h⟩ := two_foo
  obtain ⟨fns', h1, h2⟩ := C129_functions (trees_of_split two_split) (trees_of_split turned_split) two_perm h
  exact ⟨fns, fns', h, h1, h2⟩

/-- C129 -/
example : ∃ fns fns', translate id .default twoFile = .ok ⟨[⟨c!"Foo", fns⟩]⟩ ∧ translate id .default twoTurned = .ok ⟨[⟨c!"Foo", fns'⟩]⟩ ∧
    (fns.filter HFn.isFunction).Perm (fns'.filter HFn.isFunction) := by
  haveI := lawful_ascii
  obtain ⟨fns, h⟩ := two_foo
  have hs : Each (fun a f => Splits (titleOf a) c!"Foo" f) (astsOf twoFile) [c!"bar", c!"qux"] := by
    have ht := two_titles
    generalize astsOf twoFile = l at ht
    match l, ht with
    | [], ht => cases ht
    | [_], ht => simp at ht
    | _ :: _ :: _ :: _, ht => simp at ht
    | [a, b], ht =>
      simp only [List.map_cons, List.map_nil, List.cons.injEq, and_true] at ht
      refine .cons ?_ (.cons ?_ .nil)
      · rw [ht.1]; exact ⟨rfl, by decide +kernel⟩
      · rw [ht.2]; exact ⟨rfl, by decide +kernel⟩
  obtain ⟨fns', h1, h2⟩ := C129_tests (trees_of_split two_split) (trees_of_split turned_split) two_perm h twoFile_parsed
    (.inr ⟨_, hs, by
      have e := turned_distinct
      show (List.map HFn.identifier (List.filter HFn.isFunction (prefixedFns false ((astsOf twoFile).zip [c!"bar", c!"qux"])))).Nodup
      rw [e]
      decide +kernel⟩)
  exact ⟨fns, fns', h, h1, h2⟩

set_option maxRecDepth 16000 in
private theorem bad_split : splitTrees badFile = [c!"Foo::bar\n└── it x", c!"Bar::baz\n└── it x"] := by cbv
set_option maxRecDepth 16000 in
private theorem bad_turned : splitTrees c!"Bar::baz\n└── it x\n\n\n\nFoo::bar\n└── it x" = [c!"Bar::baz\n└── it x", c!"Foo::bar\n└── it x"] := by cbv

/-- C129 -/
example : ∃ e, translate id .default c!"Bar::baz\n└── it x\n\n\n\nFoo::bar\n└── it x" = .err e := by
  haveI := lawful_ascii
  exact (C129_rejected (trees_of_split bad_split) (trees_of_split bad_turned) (.swap _ _ _) .default).1 ⟨_, badFile_rejected⟩

end

set_option maxRecDepth 16000 in
/-- The condition of `C129_tests` is needed: of two tests of the same name, the one of the first tree is kept … -/
example : (contractOf c!"Foo::bar\n└── when a\n    └── it x\n\nFoo::Bar\n└── when a\n    └── it y").map (fun c => c.children.map (fun f => (f.identifier, comments f))) =
    some [(c!"test_BarWhenA", [c!"it x"])] := by cbv
set_option maxRecDepth 16000 in
/-- … and that is another one if the trees change places. -/
example : (contractOf c!"Foo::Bar\n└── when a\n    └── it y\n\nFoo::bar\n└── when a\n    └── it x").map (fun c => c.children.map (fun f => (f.identifier, comments f))) =
    some [(c!"test_BarWhenA", [c!"it y"])] := by cbv

end

end Bulloak
