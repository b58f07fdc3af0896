import Verif.Props.Edit3
import Verif.Props.Retitle
/-!
# The exit code of `check` after trees are edited (C107, C108, C114)
-/

namespace Bulloak
open Spec

section
variable [U : Ucd] [LawfulUcd]

/-- One of the trees of a run that passed is replaced by another one that is accepted. -/
theorem edited_exit {env : Env} {a : CheckArgs} {fs fs' : Fs} (hf : a.fix = false) (hs : ∀ t ∈ a.files, ∀ p, SolOf t p → fs'.state p = fs.state p)
    {t : FPath} (hta : t ∈ a.files) (hother : ∀ u ∈ a.files, u ≠ t → fs'.state u = fs.state u) {text text' : Str}
    (h1 : fs.state t = .text text) (h2 : fs'.state t = .text text') {hir hir' : HRoot} (ht : translate env.order .default text = .ok hir)
    (ht' : translate env.order .default text' = .ok hir') (h0 : (checkRun env a fs).exit = .code 0) :
    ∃ p src u, SolOf t p ∧ fs.state p = .text src ∧ env.solParse src = some u ∧ checkCtx ⟨t.str, hir, p.str, src, u, a.skipModifiers⟩ = .ok [] ∧
      ((checkRun env a fs').exit = .code 0 ↔ checkCtx ⟨t.str, hir', p.str, src, u, a.skipModifiers⟩ = .ok []) ∧
      ∀ vs, checkCtx ⟨t.str, hir', p.str, src, u, a.skipModifiers⟩ = .ok vs → vs ≠ [] → (checkRun env a fs').exit = .code 1 := by
  have hp : ∀ t ∈ a.files, ∃ ctx, Opens env a.skipModifiers fs t ctx ∧ checkCtx ctx = .ok [] := by
    rcases C51_exit (env := env) (fs := fs) hf with ⟨_, h⟩ | ⟨h, _⟩ | ⟨h, _⟩
    · exact h
    · rw [h0] at h; cases h
    · rw [h0] at h; cases h
  obtain ⟨ctx, ⟨text0, hir0, p, src, u, k1, k2, k3, k4, k5, rfl⟩, hc⟩ := hp t hta
  rw [h1] at k1
  cases k1
  rw [ht] at k2
  cases k2
  have ho : Opens env a.skipModifiers fs' t ⟨t.str, hir', p.str, src, u, a.skipModifiers⟩ :=
    ⟨text', _, p, src, u, h2, ht', k3, (hs t hta p k3).trans k4, k5, rfl⟩
  have hothers : ∀ w ∈ a.files, w ≠ t → ∃ ctx, Opens env a.skipModifiers fs' w ctx ∧ checkCtx ctx = .ok [] := by
    intro w hw hne
    obtain ⟨ctx, ⟨text0, hir, p, src, u, m1, m2, m3, m4, m5, rfl⟩, mc⟩ := hp w hw
    exact ⟨_, ⟨text0, hir, p, src, u, (hother w hw hne).trans m1, m2, m3, (hs w hw p m3).trans m4, m5, rfl⟩, mc⟩
  refine ⟨p, src, u, k3, k4, k5, hc, ?_, ?_⟩
  · rcases C51_exit (env := env) (fs := fs') hf with ⟨e, h⟩ | ⟨e, _, w, hw, h⟩ | ⟨e, w, hw, ctx, m1, m2⟩
    · rw [e]
      obtain ⟨ctx, m1, m2⟩ := h t hta
      rw [opens_unique m1 ho] at m2
      exact ⟨fun _ => m2, fun _ => rfl⟩
    · rw [e]
      refine ⟨(fun h => nomatch h), fun hok => ?_⟩
      by_cases hne : w = t
      · subst hne
        exact absurd hok (h _ ho)
      · obtain ⟨ctx', m1, m2⟩ := hothers w hw hne
        exact absurd m2 (h ctx' m1)
    · rw [e]
      refine ⟨(fun h => nomatch h), fun hok => ?_⟩
      by_cases hne : w = t
      · subst hne
        rw [opens_unique m1 ho, hok] at m2
        cases m2
      · obtain ⟨ctx', m3, m4⟩ := hothers w hw hne
        rw [opens_unique m1 m3, m4] at m2
        cases m2
  · intro vs hv hne0
    rcases C51_exit (env := env) (fs := fs') hf with ⟨e, h⟩ | ⟨e, _⟩ | ⟨e, w, hw, ctx, m1, m2⟩
    · obtain ⟨ctx, m1, m2⟩ := h t hta
      rw [opens_unique m1 ho, hv] at m2
      exact absurd (Res.ok.inj m2) hne0
    · exact e
    · by_cases hne : w = t
      · subst hne
        rw [opens_unique m1 ho, hv] at m2
        cases m2
      · obtain ⟨ctx', m3, m4⟩ := hothers w hw hne
        rw [opens_unique m1 m3, m4] at m2
        cases m2

/-- **C107**, commands: if `check` succeeds and one of the trees is rearranged, then it still does so if and only if the functions are in the order of the new tree. -/
theorem C107_exit {env : Env} {a : CheckArgs} {fs fs' : Fs} (hf : a.fix = false) (hs : ∀ t ∈ a.files, ∀ p, SolOf t p → fs'.state p = fs.state p)
    {t : FPath} (hta : t ∈ a.files) (hother : ∀ u ∈ a.files, u ≠ t → fs'.state u = fs.state u) {text text' : Str} {ast ast' : Ast}
    (h1 : fs.state t = .text text) (h2 : fs'.state t = .text text') (h : parse env.order text = .ok [ast]) (h' : parse env.order text' = .ok [ast'])
    (hn : titleOf ast' = titleOf ast) (he : Rearranged (kids ast) (kids ast')) {n' : Str} {fns' : List HFn}
    (ht' : translate env.order .default text' = .ok ⟨[⟨n', fns'⟩]⟩) (h0 : (checkRun env a fs).exit = .code 0) :
    (checkRun env a fs').exit = .code 0 ↔ ∀ p src u s, SolOf t p → fs.state p = .text src → env.solParse src = some u → FirstContract u s →
      fns'.Pairwise (fun f g => ∀ i j, At s.parts f i → At s.parts g j → i ≤ j) := by
  obtain ⟨fns, fns1, k1, k2, k3⟩ := C107_functions h h' he .default
  rw [ht'] at k2
  cases k2
  obtain ⟨p, src, u, m1, m2, m3, m4, m5, _⟩ := edited_exit hf hs hta hother h1 h2 k1 ht' h0
  rw [m5, C37_silent_iff (ctx := ⟨t.str, _, p.str, src, u, a.skipModifiers⟩) rfl]
  obtain ⟨s, q1, q2, q3, q4⟩ := (C37_silent_iff (ctx := ⟨t.str, _, p.str, src, u, a.skipModifiers⟩) rfl).1 m4
  have uniq : ∀ {p' src' u' s'}, SolOf t p' → fs.state p' = .text src' → env.solParse src' = some u' → FirstContract u' s' → s' = s := by
    intro p' src' u' s' r1 r2 r3 r4
    have e := ((solOf_iff _ _).1 r1).trans ((solOf_iff _ _).1 m1).symm
    subst e
    rw [m2] at r2
    cases r2
    rw [m3] at r3
    cases r3
    exact Option.some.inj (((findContract_iff _ _).2 r4).symm.trans ((findContract_iff _ _).2 q1))
  constructor
  · rintro ⟨s', c1, _, _, c4⟩ p' src' u' s'' r1 r2 r3 r4
    obtain rfl := uniq r1 r2 r3 r4
    obtain rfl := uniq m1 m2 m3 c1
    exact c4
  · intro hall
    refine ⟨s, q1, fun m hm => (q2 m hm).trans (by rw [hn]), ?_, hall p src u s m1 m2 m3 q1⟩
    have hp := rearranged_names h h' he k1 ht'
    intro f hfm
    obtain ⟨f0, hf0, e0⟩ := List.mem_map.1 (hp.mem_iff.2 (List.mem_map_of_mem (f := nameOf) hfm))
    rcases q3 f0 hf0 with h4 | ⟨h4, h5⟩
    · exact .inl ((present_name e0 _).1 h4)
    · exact .inr ⟨h4, (congrArg Prod.fst e0).symm.trans h5⟩

/-- **C108**, commands: if `check` succeeds and a condition of one of the trees is retitled, then it exits with 1 (if the Solidity file does not happen to have functions of the new names), unless the
condition has a modifier only (so no actions) and `-m` is given, when it still succeeds. -/
theorem C108_exit {env : Env} {a : CheckArgs} {fs fs' : Fs} (hf : a.fix = false) (hs : ∀ t ∈ a.files, ∀ p, SolOf t p → fs'.state p = fs.state p)
    {w : FPath} (hta : w ∈ a.files) (hother : ∀ u ∈ a.files, u ≠ w → fs'.state u = fs.state u) {text text' : Str} {ast ast' : Ast}
    (h1 : fs.state w = .text text) (h2 : fs'.state w = .text text') (h : parse env.order text = .ok [ast]) (h' : parse env.order text' = .ok [ast'])
    (hn : titleOf ast' = titleOf ast) {t t' : Str} {k : List Ast} (he : Retitled t t' k (kids ast) (kids ast')) {n' : Str} {fns' : List HFn}
    (ht' : translate env.order .default text' = .ok ⟨[⟨n', fns'⟩]⟩) (hd : Distinct fns')
    (hnew : ∀ p src u s, SolOf w p → fs.state p = .text src → env.solParse src = some u → FirstContract u s → ∀ f ∈ fns', nameOf f ∈ ownNames t' k → ¬ Present s.parts f)
    (h0 : (checkRun env a fs).exit = .code 0) :
    (checkRun env a fs').exit = .code (if ∀ x ∈ ownNames t' k, a.skipModifiers = true ∧ x.1 = .modifier then 0 else 1) := by
  obtain ⟨fns, fns1, k1, k2, _, A, B, k4, k5⟩ := C108_functions h h' he .default
  rw [ht'] at k2
  cases k2
  obtain ⟨p, src, u, m1, m2, m3, m4, m5, m6⟩ := edited_exit hf hs hta hother h1 h2 k1 ht' h0
  rw [hn] at ht' m5 m6
  obtain ⟨vs, hv, _, hvs⟩ := C108_check h h' he .default (ctx := ⟨w.str, ⟨[⟨titleOf ast, fns⟩]⟩, p.str, src, u, a.skipModifiers⟩) k1 ht' m4 rfl rfl hd
    (fun s hs => hnew p src u s m1 m2 m3 hs)
  split
  · next hall =>
    rw [m5]
    have hvs0 : vs = [] := List.eq_nil_iff_forall_not_mem.2 fun v hm => by
      obtain ⟨f, i, _, g2, g3, _⟩ := (hvs v).1 hm
      exact g3 (hall _ g2)
    rw [← hvs0]
    exact hv
  · next hall =>
    refine m6 vs hv fun e => hall fun x hx => Classical.byContradiction fun hb => ?_
    have hxm : x ∈ fns'.map nameOf := by rw [k5]; simp [hx]
    obtain ⟨f, hfm, rfl⟩ := List.mem_map.1 hxm
    obtain ⟨i, hi⟩ := List.getElem?_of_mem hfm
    have := (hvs _).2 ⟨f, i, hi, hx, hb, rfl⟩
    rw [e] at this
    cases this

/-- **C114**, commands: if `check` succeeds and the root of one of the trees, or the contract in all roots of one file, is renamed, then it still does so if and only if the old and the new name give the same
identifier, for a Solidity file whose contract has a name. -/
theorem C114_exit {env : Env} {a : CheckArgs} {fs fs' : Fs} (hf : a.fix = false) (hs : ∀ t ∈ a.files, ∀ p, SolOf t p → fs'.state p = fs.state p)
    {t : FPath} (hta : t ∈ a.files) (hother : ∀ u ∈ a.files, u ≠ t → fs'.state u = fs.state u) {text text' : Str} {asts asts' : List Ast}
    (h1 : fs.state t = .text text) (h2 : fs'.state t = .text text') (h : parse env.order text = .ok asts) (h' : parse env.order text' = .ok asts')
    {n n' : Str} (hr : RootsRenamed n n' asts asts') (hnamed : ∀ p src u s, SolOf t p → fs.state p = .text src → env.solParse src = some u → FirstContract u s → s.name ≠ none)
    (h0 : (checkRun env a fs).exit = .code 0) :
    (checkRun env a fs').exit = .code 0 ↔ sanitize n' = sanitize n := by
  obtain ⟨fns, fns', k1, k2, k3⟩ := C114_functions h h' hr .default
  obtain ⟨p, src, u, m1, m2, m3, m4, m5, _⟩ := edited_exit hf hs hta hother h1 h2 k1 k2 h0
  rw [m5]
  obtain ⟨s, q1, q2, q3, q4⟩ := (C37_silent_iff (ctx := ⟨t.str, _, p.str, src, u, a.skipModifiers⟩) rfl).1 m4
  constructor
  · intro hok
    rcases C114_check h h' hr (ctx := ⟨t.str, _, p.str, src, u, a.skipModifiers⟩) k1 k2 m4 q1 hok with ⟨e | e, _⟩ | ⟨_, _, _, _, e⟩
    · exact e
    · exact absurd e (hnamed p src u s m1 m2 m3 q1)
    · cases e
  · intro e
    obtain ⟨c1, c2⟩ := conforms_names (parts := s.parts) (skip := a.skipModifiers) (bodies_names k3)
    exact (C37_silent_iff (ctx := ⟨t.str, _, p.str, src, u, a.skipModifiers⟩) rfl).2 ⟨s, q1, fun m hm => (q2 m hm).trans e.symm, c1 q3, c2 q4⟩

end
end Bulloak
