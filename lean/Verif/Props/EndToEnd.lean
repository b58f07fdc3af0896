import Verif.Props.CliCheck
/-!
# Commands after each other (C59, C60)
-/

set_option linter.unusedSectionVars false

namespace Bulloak
open Spec

section
variable [U : Ucd]

/-- The formatter and the parser are faithful on the code generated from `text`: what is written is parsed into a contract with
the name and the functions that were generated. -/
def Spec.Faithful (env : Env) (cfg : Config) (text out : Str) : Prop :=
  ∀ n fns, translate env.order cfg text = .ok ⟨[⟨n, fns⟩]⟩ → ∃ u s, env.solParse out = some u ∧ FirstContract u s ∧
    s.name = some (sanitize n) ∧ Written (written cfg fns) s.parts

/-- The tests generated from `text` have different names. -/
def Spec.DistinctTests (env : Env) (cfg : Config) (text : Str) : Prop :=
  ∀ n fns, translate env.order cfg text = .ok ⟨[⟨n, fns⟩]⟩ → ((fns.filter HFn.isFunction).map HFn.identifier).Nodup

/-- The Solidity files next to the trees differ. -/
def Spec.OwnFiles (files : List FPath) : Prop := files.Pairwise (fun f g => ∀ p, SolOf f p → ¬ SolOf g p)

theorem scaffold_state_same [LawfulUcd] {env : Env} {a : ScaffoldArgs} {fs : Fs} (hn : NoTests a.files) {q : FPath}
    (hq : ¬ c!".t.sol" <:+ q.name) : (scaffoldRun env a fs).fs.state q = fs.state q :=
  Classical.byContradiction fun hc => by
    obtain ⟨f, _, hs, _⟩ := C48_contents hn hc
    exact hq ((solOf_iff _ _).1 hs ▸ withSolExt_suffix f)

/-- **C59.** After `scaffold -w`, `check` on the same trees exits with 0, if all trees are accepted, their tests have different
names, and their Solidity files differ, can be written and are new (or `-f` is given). -/
theorem C59_scaffold_then_check [LawfulUcd] {env : Env} (ho : ∀ l, (env.order l).Perm l) {a : ScaffoldArgs} {fs : Fs} (hn : NoTests a.files)
    (hw : a.writeFiles = true) (hown : OwnFiles a.files)
    (hgood : ∀ f ∈ a.files, ∃ text out, fs.state f = .text text ∧ Yields env a.config text out ∧ Faithful env a.config text out ∧
      DistinctTests env a.config text)
    (hout : ∀ f ∈ a.files, ∀ p, SolOf f p → fs.writable p = true ∧ (a.forceWrite = true ∨ fs.state p = .absent))
    {b : CheckArgs} (hb : ∀ f ∈ b.files, f ∈ a.files) (hfix : b.fix = false) (hskip : a.skipModifiers = true → b.skipModifiers = true) :
    (checkRun env b (scaffoldRun env a fs).fs).exit = .code 0 := by
  have hu : ∀ f ∈ a.files, ¬ Unformatted env a.config fs f := by
    intro f hf
    obtain ⟨text, out, h1, h2, _⟩ := hgood f hf
    exact good_formatted ⟨text, h1, h2⟩
  have hok : ∀ t ∈ b.files, ∃ ctx, Opens env b.skipModifiers (scaffoldRun env a fs).fs t ctx ∧ checkCtx ctx = .ok [] := by
    intro t ht
    have hta := hb t ht
    obtain ⟨text, out, h1, h2, h3, h4⟩ := hgood t hta
    have hsol : SolOf t t.withSolExt := (solOf_iff _ _).2 rfl
    obtain ⟨hwr, hnew⟩ := hout t hta _ hsol
    obtain ⟨A, B, hAB⟩ := List.append_of_mem hta
    have hp := hown
    unfold OwnFiles at hp
    rw [hAB, List.pairwise_append] at hp
    have hstate : (scaffoldRun env a fs).fs.state t.withSolExt = .text out := by
      cases hf : a.forceWrite with
      | true =>
        refine C49_written_force hn hu hw hf hAB ⟨text, h1, h2⟩ hsol hwr ?_
        intro g hg _ _ hs
        exact (List.pairwise_cons.1 hp.2.1).1 g hg _ hsol hs
      | false =>
        rw [hf] at hnew
        refine C49_written hn hu hw hf hAB ⟨text, h1, h2⟩ hsol hwr (by simpa using hnew) ?_
        intro g hg _ _ hs
        exact hp.2.2 g hg t (by simp) _ hs hsol
    have htree : (scaffoldRun env a fs).fs.state t = .text text := by
      rw [scaffold_state_same hn (hn t hta), h1]
    obtain ⟨src, once, h5, _⟩ := id h2
    unfold scaffoldSource at h5
    obtain ⟨r, hr, _⟩ := Res.bind_eq_ok.1 h5
    obtain ⟨n, fns, rfl, _⟩ := translate_ok hr
    obtain ⟨u, s, h6, h7, h8, h9⟩ := h3 n fns hr
    obtain ⟨fns', hr', _⟩ := translate_default hr
    refine ⟨_, ⟨text, _, _, out, u, htree, hr', hsol, hstate, h6, rfl⟩, ?_⟩
    exact C41_scaffold_partial ho hr (h4 n fns hr) hr' hskip h7 h8 h9
  rcases C51_exit (env := env) (fs := (scaffoldRun env a fs).fs) hfix with ⟨h, _⟩ | ⟨_, _, t, ht, h⟩ | ⟨_, t, ht, ctx, h1, h2⟩
  · exact h
  · obtain ⟨ctx, h1, h2⟩ := hok t ht
    exact absurd h2 (h ctx h1)
  · obtain ⟨ctx', h3, h4⟩ := hok t ht
    have e1 := contextNew_ok.2 ⟨h1, rfl⟩
    rw [contextNew_ok.2 ⟨h3, rfl⟩] at e1
    cases e1
    rw [h2] at h4; cases h4

/-! ## Fixing, then checking -/

/-- The tree side of a context is unchanged. -/
def SameTree (c c' : Context) : Prop := c'.tree = c.tree ∧ c'.hir = c.hir ∧ c'.sol = c.sol ∧ c'.skipModifiers = c.skipModifiers

theorem SameTree.refl (c : Context) : SameTree c c := ⟨rfl, rfl, rfl, rfl⟩
theorem SameTree.trans {c d e : Context} (h : SameTree c d) (h' : SameTree d e) : SameTree c e :=
  ⟨h'.1.trans h.1, h'.2.1.trans h.2.1, h'.2.2.1.trans h.2.2.1, h'.2.2.2.trans h.2.2.2⟩

theorem reparse_same {P : SolParser} {ctx ctx' : Context} {s : Str} (h : reparse P ctx s = .ok ctx') : SameTree ctx ctx' := by
  unfold reparse at h
  split at h
  · cases h; exact ⟨rfl, rfl, rfl, rfl⟩
  · cases h

theorem fixViolation_same {P : SolParser} {v : ViolationKind} {ctx ctx' : Context} (h : fixViolation P v ctx = .ok ctx') : SameTree ctx ctx' := by
  unfold fixViolation at h
  split at h
  · exact reparse_same h
  · exact reparse_same h
  · split at h
    · cases h; exact .refl _
    · split at h
      · cases h; exact .refl _
      · obtain ⟨_, _, h⟩ := Res.bind_eq_ok.1 h
        obtain ⟨_, _, h⟩ := Res.bind_eq_ok.1 h
        exact reparse_same h
  · cases h; exact .refl _

theorem fixAll_same {P : SolParser} : ∀ {vs : List Violation} {ctx ctx' : Context}, fixAll P vs ctx = .ok ctx' → SameTree ctx ctx' := by
  intro vs
  induction vs with
  | nil => intro ctx ctx' h; cases h; exact .refl _
  | cons v vs ih =>
    intro ctx ctx' h
    obtain ⟨c, h1, h2⟩ := Res.bind_eq_ok.1 h
    exact (fixViolation_same h1).trans (ih h2)

theorem fixOrder_same {P : SolParser} {vs : List ViolationKind} {s : SolContract} {h : HContract} {ctx ctx' : Context}
    (he : fixOrder P vs s h ctx = .ok ctx') : SameTree ctx ctx' := by
  unfold fixOrder at he
  obtain ⟨_, _, he⟩ := Res.bind_eq_ok.1 he
  exact reparse_same he

theorem fixContext_same {P : SolParser} {ctx ctx' : Context} {n : Nat} (h : fixContext P ctx = .ok (ctx', n)) : SameTree ctx ctx' := by
  unfold fixContext at h
  obtain ⟨vs, _, h⟩ := Res.bind_eq_ok.1 h
  obtain ⟨c, h1, h⟩ := Res.bind_eq_ok.1 h
  obtain ⟨ws, _, h⟩ := Res.bind_eq_ok.1 h
  simp only at h
  split at h
  · cases h; exact fixAll_same h1
  · split at h
    · obtain ⟨d, h2, h⟩ := Res.bind_eq_ok.1 h
      cases h
      exact (fixAll_same h1).trans (fixOrder_same h2)
    · cases h; exact fixAll_same h1

theorem matches_seen {f : HFn} {p q : SolPart} (h : seen p = seen q) : Matches f p ↔ Matches f q := by
  cases p <;> cases q <;> simp [seen, Matches] at h ⊢
  rw [h.1, h.2]

theorem at_seen {ps qs : List SolPart} (h : qs.map seen = ps.map seen) {f : HFn} {i : Nat} (ha : At ps f i) : At qs f i := by
  have hl : qs.length = ps.length := by simpa using congrArg List.length h
  have hs : ∀ (k : Nat) (p q : SolPart), ps[k]? = some p → qs[k]? = some q → seen p = seen q := by
    intro k p q h1 h2
    have := congrArg (·[k]?) h
    simp only [List.getElem?_map, h1, h2, Option.map_some, Option.some.injEq] at this
    exact this.symm
  obtain ⟨⟨p, h1, h2⟩, h3⟩ := ha
  have hi : i < ps.length := (List.getElem?_eq_some_iff.1 h1).1
  refine ⟨⟨qs[i]'(by omega), List.getElem?_eq_getElem _, ?_⟩, ?_⟩
  · exact (matches_seen (hs i p _ h1 (List.getElem?_eq_getElem (by omega)))).1 h2
  · intro j q hj hq hm
    have hjl : j < ps.length := by omega
    exact h3 j ps[j] hj (List.getElem?_eq_getElem hjl) ((matches_seen (hs j _ q (List.getElem?_eq_getElem hjl) hq)).2 hm)

theorem present_seen {ps qs : List SolPart} (h : qs.map seen = ps.map seen) {f : HFn} (hp : Present ps f) : Present qs f := by
  obtain ⟨p, hp, hm⟩ := hp
  have : seen p ∈ qs.map seen := by rw [h]; exact List.mem_map_of_mem hp
  obtain ⟨q, hq, he⟩ := List.mem_map.1 this
  exact ⟨q, hq, (matches_seen he.symm).1 hm⟩

/-- Being silent depends only on names, kinds and order. -/
theorem silent_same {ctx ctx' : Context} (ht : SameTree ctx ctx') (hs : SameContract ctx.pt ctx'.pt) {n : Str} {fns : List HFn}
    (hh : ctx.hir = ⟨[⟨n, fns⟩]⟩) (h : checkCtx ctx = .ok []) : checkCtx ctx' = .ok [] := by
  obtain ⟨s, h1, h2, h3, h4⟩ := (C37_silent_iff hh).1 h
  obtain ⟨s', g1, g2, g3⟩ := hs s h1
  refine (C37_silent_iff (ht.2.1.trans hh)).2 ⟨s', g1, by rw [g2]; exact h2, ?_, ?_⟩
  · intro f hf
    rcases h3 f hf with h | ⟨h, h'⟩
    · exact Or.inl (present_seen g3 h)
    · exact Or.inr ⟨ht.2.2.2.trans h, h'⟩
  · exact h4.imp fun h i j hi hj => h i j (at_seen g3.symm hi) (at_seen g3.symm hj)

/-- The fixed code conforms, and formatting and parsing it again keeps the contract. -/
def Spec.FixesWell (env : Env) (ctx : Context) : Prop :=
  ∃ ctx' n out u, fixContext env.solParse ctx = .ok (ctx', n) ∧ checkCtx ctx' = .ok [] ∧ env.ctxFmt ctx' = some out ∧
    env.solParse out = some u ∧ SameContract ctx'.pt u

/-- **C60.** After `check --fix`, `check` exits with 0 if every tree could be opened, the Solidity files differ and can be
written, and the fixed code conforms (see C43, C44, C46) and survives formatting. -/
theorem C60_fix_then_check [LawfulUcd] {env : Env} {a : CheckArgs} {fs : Fs} (hn : NoTests a.files)
    (hfix : a.fix = true) (hst : a.stdout = false) (hown : OwnFiles a.files)
    (hwell : ∀ t ∈ a.files, ∃ ctx, Opens env a.skipModifiers fs t ctx ∧ FixesWell env ctx)
    (hw : ∀ t ∈ a.files, ∀ p, SolOf t p → fs.writable p = true) :
    (checkRun env a fs).exit = .code 0 ∧
    (checkRun env { a with fix := false } (checkRun env a fs).fs).exit = .code 0 := by
  have huniq : ∀ {fs : Fs} {t : FPath} {c d : Context}, Opens env a.skipModifiers fs t c → Opens env a.skipModifiers fs t d → c = d := by
    intro fs t c d h1 h2
    have e1 := contextNew_ok.2 ⟨h1, rfl⟩
    rw [contextNew_ok.2 ⟨h2, rfl⟩] at e1
    cases e1; rfl
  have hnc : ∀ t ∈ a.files, ∀ ctx, Opens env a.skipModifiers fs t ctx → ¬ FixCrashes env ctx := by
    intro t ht ctx ho
    obtain ⟨c, hc, ctx', n, out, u, h1, _, h2, _⟩ := hwell t ht
    cases huniq ho hc
    rintro (h | ⟨_, _, h, h'⟩)
    · rw [h1] at h; cases h
    · rw [h1] at h; cases h
      rw [h2] at h'; cases h'
  have hok : ∀ t ∈ a.files, ∃ ctx, Opens env a.skipModifiers (checkRun env a fs).fs t ctx ∧ checkCtx ctx = .ok [] := by
    intro t ht
    obtain ⟨c, hc, ctx', n, out, u, h1, h2, h3, h4, h5⟩ := hwell t ht
    have hsol : SolOf t t.withSolExt := (solOf_iff _ _).2 rfl
    obtain ⟨A, B, hAB⟩ := List.append_of_mem ht
    have hp := hown
    unfold OwnFiles at hp
    rw [hAB, List.pairwise_append] at hp
    have hstate : (checkRun env a fs).fs.state t.withSolExt = .text out := by
      refine C50_written hfix hst hAB (fun g hg => hnc g (by rw [hAB]; simp [hg])) ?_ hc ⟨ctx', n, h1, h3⟩ hsol (hw t ht _ hsol)
      intro g hg hs
      exact (List.pairwise_cons.1 hp.2.1).1 g hg _ hsol hs
    obtain ⟨text, hir, p, src, u0, g1, g2, g3, g4, g5, rfl⟩ := hc
    have htree : (checkRun env a fs).fs.state t = .text text := by
      rw [← g1]
      refine Classical.byContradiction fun hc => ?_
      obtain ⟨_, _, _, g, _, hs, _⟩ := C50_only_sol hc
      exact hn t ht ((solOf_iff _ _).1 hs ▸ withSolExt_suffix g)
    obtain ⟨m, fns, rfl, _⟩ := translate_ok g2
    have hsame := fixContext_same h1
    refine ⟨⟨t.str, _, t.withSolExt.str, out, u, a.skipModifiers⟩, ⟨text, _, _, out, u, htree, g2, hsol, hstate, h4, rfl⟩, ?_⟩
    refine silent_same (ctx := ctx') ⟨?_, ?_, ?_, ?_⟩ h5 (n := m) (fns := fns) ?_ h2
    · exact hsame.1.symm
    · exact hsame.2.1.symm
    · rw [(solOf_iff _ _).1 g3] at hsame
      exact hsame.2.2.1.symm
    · exact hsame.2.2.2.symm
    · exact hsame.2.1
  constructor
  · rcases C51_exit_fix (env := env) (fs := fs) hfix with ⟨h, _⟩ | ⟨_, t, ht, ctx, h1, h2⟩
    · exact h
    · exact absurd h2 (hnc t ht ctx h1)
  · rcases C51_exit (env := env) (a := { a with fix := false }) (fs := (checkRun env a fs).fs) rfl with ⟨h, _⟩ | ⟨_, _, t, ht, h⟩ | ⟨_, t, ht, ctx, h1, h2⟩
    · exact h
    · obtain ⟨ctx, h1, h2⟩ := hok t ht
      exact absurd h2 (h ctx h1)
    · obtain ⟨ctx', h3, h4⟩ := hok t ht
      cases huniq h1 h3
      rw [h2] at h4; cases h4

end
end Bulloak
