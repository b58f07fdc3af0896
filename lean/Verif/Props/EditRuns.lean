import Verif.Props.Edit
import Verif.Props.Edit2
import Verif.Props.Reword
/-!
# The exit code of `check` after trees are edited (C95, C96, C98)
-/

namespace Bulloak
open Spec

section
variable [U : Ucd] [LawfulUcd]

/-- If whatever passed still passes after the trees were changed, a run of `check` that succeeded still succeeds. -/
private theorem still_passes {env : Env} {a : CheckArgs} {fs fs' : Fs} (hf : a.fix = false)
    (hs : ∀ t ∈ a.files, ∀ p, SolOf t p → fs'.state p = fs.state p)
    (ht : ∀ t ∈ a.files, fs'.state t = fs.state t ∨ ∃ text text', fs.state t = .text text ∧ fs'.state t = .text text' ∧
      ∀ hir, translate env.order .default text = .ok hir → ∃ hir', translate env.order .default text' = .ok hir' ∧
        ∀ ctx : Context, ctx.hir = hir → checkCtx ctx = .ok [] → checkCtx { ctx with hir := hir' } = .ok [])
    (h0 : (checkRun env a fs).exit = .code 0) : (checkRun env a fs').exit = .code 0 := by
  have hp : ∀ t ∈ a.files, ∃ ctx, Opens env a.skipModifiers fs t ctx ∧ checkCtx ctx = .ok [] := by
    rcases C51_exit (env := env) (fs := fs) hf with ⟨_, h⟩ | ⟨h, _⟩ | ⟨h, _⟩
    · exact h
    · rw [h0] at h; cases h
    · rw [h0] at h; cases h
  have hp' : ∀ t ∈ a.files, ∃ ctx, Opens env a.skipModifiers fs' t ctx ∧ checkCtx ctx = .ok [] := by
    intro t hta
    obtain ⟨ctx, ⟨text, hir, p, src, u, h1, h2, h3, h4, h5, rfl⟩, hc⟩ := hp t hta
    have h4' := (hs t hta p h3).trans h4
    rcases ht t hta with e | ⟨x, x', e1, e2, hr⟩
    · exact ⟨_, ⟨text, hir, p, src, u, e.trans h1, h2, h3, h4', h5, rfl⟩, hc⟩
    · rw [h1] at e1
      cases e1
      obtain ⟨hir', h6, h7⟩ := hr hir h2
      exact ⟨_, ⟨x', hir', p, src, u, e2, h6, h3, h4', h5, rfl⟩, h7 _ rfl hc⟩
  rcases C51_exit (env := env) (fs := fs') hf with ⟨h, _⟩ | ⟨_, _, t, ht, h⟩ | ⟨_, t, ht, ctx, h1, h2⟩
  · exact h
  · obtain ⟨ctx, h1, h2⟩ := hp' t ht
    exact absurd h2 (h ctx h1)
  · obtain ⟨ctx', h3, h4⟩ := hp' t ht
    rw [opens_unique h1 h3, h4] at h2
    cases h2

/-- **C96**, commands: if `check` succeeds, it still does so after branches were removed from any of the trees. -/
theorem C96_exit {env : Env} {a : CheckArgs} {fs fs' : Fs} (hf : a.fix = false) (hs : ∀ t ∈ a.files, ∀ p, SolOf t p → fs'.state p = fs.state p)
    (ht : ∀ t ∈ a.files, fs'.state t = fs.state t ∨ ∃ text text' ast ast', fs.state t = .text text ∧ fs'.state t = .text text' ∧
      parse env.order text = .ok [ast] ∧ parse env.order text' = .ok [ast'] ∧ titleOf ast' = titleOf ast ∧ Extended (kids ast') (kids ast))
    (h0 : (checkRun env a fs).exit = .code 0) : (checkRun env a fs').exit = .code 0 := by
  refine still_passes hf hs (fun t h => (ht t h).imp_right ?_) h0
  rintro ⟨x, x', ast, ast', h1, h2, h3, h4, h5, h6⟩
  refine ⟨x, x', h1, h2, fun hir hh => ⟨_, translate_single h4 .default, fun ctx hc hp => ?_⟩⟩
  exact C96_remove h4 h3 h5 h6 .default (translate_single h4 .default) (hc ▸ hh) hp

/-- **C98**, commands: if `check` succeeds, it still does so after trees were removed from the end of tree files, two trees or more remaining in each. -/
theorem C98_exit {env : Env} {a : CheckArgs} {fs fs' : Fs} (hf : a.fix = false) (hs : ∀ t ∈ a.files, ∀ p, SolOf t p → fs'.state p = fs.state p)
    (ht : ∀ t ∈ a.files, fs'.state t = fs.state t ∨ ∃ text text' asts more, fs.state t = .text text ∧ fs'.state t = .text text' ∧
      parse env.order text = .ok (asts ++ more) ∧ parse env.order text' = .ok asts ∧ 2 ≤ asts.length)
    (h0 : (checkRun env a fs).exit = .code 0) : (checkRun env a fs').exit = .code 0 := by
  refine still_passes hf hs (fun t h => (ht t h).imp_right ?_) h0
  rintro ⟨x, x', asts, more, h1, h2, h3, h4, h5⟩
  refine ⟨x, x', h1, h2, fun hir hh => ?_⟩
  have hacc : ∃ r, translate env.order .default x' = .ok r := by
    rcases (C28_accepted_iff h3 .default).1 ⟨hir, hh⟩ with h6 | ⟨n, h6⟩
    · rw [List.length_append] at h6; omega
    · exact (C28_accepted_iff h4 .default).2 (.inr ⟨n, fun b hb => h6 b (List.mem_append_left _ hb)⟩)
  obtain ⟨r, hr⟩ := hacc
  refine ⟨r, hr, fun ctx hc hp => ?_⟩
  obtain ⟨_, _, _, _, _, _, h7⟩ := C98_append h4 h3 h5 .default hr hh
  exact h7 ctx hc hp

/-- **C95**, commands: if `check` succeeds and branches are added to one of the trees whose functions differ from one another and are not in the Solidity file, then `check` exits with 1,
unless only modifiers are new and `-m` is given, when it still succeeds. -/
theorem C95_exit {env : Env} {a : CheckArgs} {fs fs' : Fs} (hf : a.fix = false) (hs : ∀ t ∈ a.files, ∀ p, SolOf t p → fs'.state p = fs.state p)
    {t : FPath} (hta : t ∈ a.files) (hother : ∀ u ∈ a.files, u ≠ t → fs'.state u = fs.state u) {text text' : Str} {ast ast' : Ast}
    (h1 : fs.state t = .text text) (h2 : fs'.state t = .text text') (h : parse env.order text = .ok [ast]) (h' : parse env.order text' = .ok [ast'])
    (hn : titleOf ast' = titleOf ast) (he : Extended (kids ast) (kids ast')) {fns fns' : List HFn}
    (ht : translate env.order .default text = .ok ⟨[⟨titleOf ast, fns⟩]⟩) (ht' : translate env.order .default text' = .ok ⟨[⟨titleOf ast', fns'⟩]⟩) (hd : Distinct fns')
    (hnew : ∀ p src u s, SolOf t p → fs.state p = .text src → env.solParse src = some u → FirstContract u s →
      ∀ f ∈ fns', nameOf f ∉ fns.map nameOf → ¬ Present s.parts f)
    (h0 : (checkRun env a fs).exit = .code 0) :
    ((∃ f ∈ fns', nameOf f ∉ fns.map nameOf ∧ ¬ (a.skipModifiers = true ∧ f.ty = .modifier)) → (checkRun env a fs').exit = .code 1) ∧
    ((∀ f ∈ fns', nameOf f ∉ fns.map nameOf → a.skipModifiers = true ∧ f.ty = .modifier) → (checkRun env a fs').exit = .code 0) := by
  have hp : ∀ t ∈ a.files, ∃ ctx, Opens env a.skipModifiers fs t ctx ∧ checkCtx ctx = .ok [] := by
    rcases C51_exit (env := env) (fs := fs) hf with ⟨_, h⟩ | ⟨h, _⟩ | ⟨h, _⟩
    · exact h
    · rw [h0] at h; cases h
    · rw [h0] at h; cases h
  obtain ⟨ctx, ⟨text0, hir, p, src, u, k1, k2, k3, k4, k5, rfl⟩, hc⟩ := hp t hta
  rw [h1] at k1
  cases k1
  rw [ht] at k2
  cases k2
  rw [hn] at ht'
  obtain ⟨vs, hv, _, hvs⟩ := C95_check h h' he .default (ctx := ⟨t.str, ⟨[⟨titleOf ast, fns⟩]⟩, p.str, src, u, a.skipModifiers⟩) ht ht' hc rfl rfl hd
    (fun s hs => hnew p src u s k3 k4 k5 hs)
  have ho : Opens env a.skipModifiers fs' t ⟨t.str, ⟨[⟨titleOf ast, fns'⟩]⟩, p.str, src, u, a.skipModifiers⟩ :=
    ⟨text', _, p, src, u, h2, ht', k3, (hs t hta p k3).trans k4, k5, rfl⟩
  have hothers : ∀ w ∈ a.files, w ≠ t → ∃ ctx, Opens env a.skipModifiers fs' w ctx ∧ checkCtx ctx = .ok [] := by
    intro w hw hne
    obtain ⟨ctx, ⟨text0, hir, p, src, u, m1, m2, m3, m4, m5, rfl⟩, mc⟩ := hp w hw
    exact ⟨_, ⟨text0, hir, p, src, u, (hother w hw hne).trans m1, m2, m3, (hs w hw p m3).trans m4, m5, rfl⟩, mc⟩
  have hok : ∀ w ∈ a.files, ∀ ctx, Opens env a.skipModifiers fs' w ctx → checkCtx ctx ≠ .panic ∧ (vs = [] → checkCtx ctx = .ok []) := by
    intro w hw ctx hoc
    by_cases hne : w = t
    · subst hne
      rw [opens_unique hoc ho]
      have hv' : checkCtx ⟨w.str, ⟨[⟨titleOf ast, fns'⟩]⟩, p.str, src, u, a.skipModifiers⟩ = .ok vs := hv
      exact ⟨by rw [hv']; simp, fun e => by rw [hv', e]⟩
    · obtain ⟨ctx', m1, m2⟩ := hothers w hw hne
      rw [opens_unique hoc m1, m2]
      exact ⟨by simp, fun _ => rfl⟩
  constructor
  · rintro ⟨f, hfm, hf1, hf2⟩
    obtain ⟨i, hi⟩ := List.getElem?_of_mem hfm
    have hne := (hvs _).2 ⟨f, i, hi, hf1, hf2, rfl⟩
    rcases C51_exit (env := env) (fs := fs') hf with ⟨_, h⟩ | ⟨h, _⟩ | ⟨_, w, hw, ctx, m1, m2⟩
    · obtain ⟨ctx, m1, m2⟩ := h t hta
      rw [opens_unique m1 ho] at m2
      rw [show vs = [] from Res.ok.inj (hv.symm.trans m2)] at hne
      cases hne
    · exact h
    · exact absurd m2 (hok w hw ctx m1).1
  · intro hall
    have hvs0 : vs = [] := by
      cases vs with
      | nil => rfl
      | cons v vs =>
        obtain ⟨f, i, m1, m2, m3, _⟩ := (hvs v).1 List.mem_cons_self
        exact absurd (hall f (List.mem_of_getElem? m1) m2) m3
    rcases C51_exit (env := env) (fs := fs') hf with ⟨h, _⟩ | ⟨_, _, w, hw, m⟩ | ⟨_, w, hw, ctx, m1, m2⟩
    · exact h
    · by_cases hne : w = t
      · subst hne
        exact absurd ((hok w hw _ ho).2 hvs0) (m _ ho)
      · obtain ⟨ctx', m1, m2⟩ := hothers w hw hne
        exact absurd m2 (m ctx' m1)
    · exact absurd m2 (hok w hw ctx m1).1

end
end Bulloak
