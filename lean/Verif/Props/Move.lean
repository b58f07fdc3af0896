import Verif.Spec.Move
import Verif.Props.Rework
/-! # Moving code in the Solidity file (C138) -/

namespace Bulloak
open Spec

section
variable [U : Ucd]

/-- `f` is seen as `x` in a contract. -/
private def SeenAs (f : HFn) (x : Option (Option Str × SolFnTy)) : Prop := ∃ p, seen p = x ∧ Matches f p

omit U in
private theorem seenAs_unique {f : HFn} {x y : Option (Option Str × SolFnTy)} (h : SeenAs f x) (h' : SeenAs f y) : x = y := by
  obtain ⟨p, rfl, hp⟩ := h
  obtain ⟨q, rfl, hq⟩ := h'
  cases p with
  | other => exact hp.elim
  | fn g => cases q with
    | other => exact hq.elim
    | fn g' =>
      obtain ⟨h1, h2⟩ := hp
      obtain ⟨h3, h4⟩ := hq
      have ht : g.ty = g'.ty := by
        have := h2.trans h4.symm
        cases e : g.ty <;> cases e' : g'.ty <;> rw [e] at this h2 <;> rw [e'] at this <;> first | rfl | (simp [kindOf] at h2; done) | (simp [kindOf] at this; done)
      simp [seen, h1, h3, ht]

/-- The order of the tree. -/
private def Before (fns : List HFn) (x y : Option (Option Str × SolFnTy)) : Prop :=
  ∀ (i j : Nat) (f g : HFn), fns[i]? = some f → fns[j]? = some g → SeenAs f x → SeenAs g y → i ≤ j

private theorem sorted_seen {fns : List HFn} {l : List SolPart} (hn : (l.map seen).Nodup) (hi : InOrder fns l) : (l.map seen).Pairwise (Before fns) := by
  have at_of : ∀ (f : HFn) (a : Nat) (p : SolPart), l[a]? = some p → SeenAs f (seen p) → At l f a := by
    rintro f a p hp ⟨q, e, hq⟩
    have hm : Matches f p := (matches_seen e).1 hq
    refine ⟨⟨p, hp, hm⟩, fun j r hj hr hm' => ?_⟩
    have e' : seen r = seen p := seenAs_unique ⟨r, rfl, hm'⟩ ⟨p, rfl, hm⟩
    have h1 : (l.map seen)[j]? = (l.map seen)[a]? := by simp [hr, hp, e']
    have h2 : j < (l.map seen).length := by
      rw [List.length_map]
      exact (List.getElem?_eq_some_iff.1 hr).1
    have := (List.getElem?_inj h2 hn).1 h1
    omega
  rw [List.pairwise_iff_getElem]
  intro a b ha hb hab i j f g hf hg hfa hgb
  rw [List.getElem_map] at hfa hgb
  rw [List.length_map] at ha hb
  have h1 := at_of f a _ (List.getElem?_eq_getElem ha) hfa
  have h2 := at_of g b _ (List.getElem?_eq_getElem hb) hgb
  by_cases hij : i ≤ j
  · exact hij
  · unfold InOrder at hi
    rw [List.pairwise_iff_getElem] at hi
    obtain ⟨hi', rfl⟩ := List.getElem?_eq_some_iff.1 hf
    obtain ⟨hj', rfl⟩ := List.getElem?_eq_some_iff.1 hg
    have := hi j i hj' hi' (by omega) b a h2 h1
    omega

private theorem ours_nodup {fns : List HFn} {l : List SolPart} (h : NoTwice fns l) : (Ours fns l).Nodup := by
  unfold Ours
  rw [List.nodup_iff_pairwise_ne, List.pairwise_map, List.pairwise_iff_getElem]
  intro a b ha hb hab e
  obtain ⟨f, hf, hm⟩ := of_decide_eq_true (List.mem_filter.1 (List.getElem_mem ha)).2
  have := noTwice_ours h f hf a b _ _ (List.getElem?_eq_getElem ha) (List.getElem?_eq_getElem hb) hm ((matches_seen e).1 hm)
  omega

omit U in
private theorem ours_seenAs {fns : List HFn} {l : List SolPart} {x : Option (Option Str × SolFnTy)} (h : x ∈ Ours fns l) : ∃ (i : Nat) (f : HFn), fns[i]? = some f ∧ SeenAs f x := by
  obtain ⟨p, hp, rfl⟩ := List.mem_map.1 h
  obtain ⟨f, hf, hm⟩ := of_decide_eq_true (List.mem_filter.1 hp).2
  obtain ⟨i, hi⟩ := List.getElem?_of_mem hf
  exact ⟨i, f, hi, p, rfl, hm⟩

private theorem moved_same {fns : List HFn} {l l' : List SolPart} (hp : (Ours fns l').Perm (Ours fns l)) (ho : NoTwice fns l) (hi : InOrder fns l) (hi' : InOrder fns l') :
    Ours fns l' = Ours fns l := by
  have hn := ours_nodup ho
  have hn' : (Ours fns l').Nodup := hp.nodup_iff.2 hn
  refine List.Perm.eq_of_pairwise (le := Before fns) ?_ (sorted_seen hn' ((extends_inOrder (ours_extends fns l')).2 hi')) (sorted_seen hn ((extends_inOrder (ours_extends fns l)).2 hi)) hp
  intro x y hx hy h1 h2
  obtain ⟨i, f, hf, hfx⟩ := ours_seenAs hx
  obtain ⟨j, g, hg, hgy⟩ := ours_seenAs hy
  obtain rfl : i = j := Nat.le_antisymm (h1 i j f g hf hg hfx hgy) (h2 j i g f hg hf hgy hfx)
  obtain rfl : f = g := Option.some.inj (hf.symm.trans hg)
  exact seenAs_unique hfx hgy

/-- **C138.** A Solidity file conforms to the tree, and no function of the tree occurs twice in it.  Code is moved, in any way, and code that is not in the tree may be changed.  Then `check` is silent
if and only if the functions of the tree are still in the same order. -/
theorem C138_silent_iff {ctx : Context} {n : Str} {fns : List HFn} (hh : ctx.hir = ⟨[⟨n, fns⟩]⟩) (hc : checkCtx ctx = .ok []) {s s' : SolContract} {src : Str} {u : SolUnit}
    (hs : FirstContract ctx.pt s) (hs' : FirstContract u s') (hw : Moved fns s s') (ho : NoTwice fns s.parts) :
    checkCtx { ctx with src := src, pt := u } = .ok [] ↔ Ours fns s'.parts = Ours fns s.parts := by
  refine ⟨fun h => ?_, fun h => (C137_verdict hh hs hs' hw.name h).2 hc⟩
  obtain ⟨t, h1, _, _, h4⟩ := (C37_silent_iff hh).1 hc
  obtain rfl : t = s := Option.some.inj (((findContract_iff _ _).2 h1).symm.trans ((findContract_iff _ _).2 hs))
  obtain ⟨t', k1, _, _, k4⟩ := (C37_silent_iff (ctx := { ctx with src := src, pt := u }) hh).1 h
  obtain rfl : t' = s' := Option.some.inj (((findContract_iff _ _).2 k1).symm.trans ((findContract_iff _ _).2 hs'))
  exact moved_same hw.ours ho h4 k4

/-- **C138**, report: all that `check` can report is misplaced functions, namely exactly those that now come after a function following them in the tree. -/
theorem C138_report {ctx : Context} {n : Str} {fns : List HFn} (hh : ctx.hir = ⟨[⟨n, fns⟩]⟩) (hc : checkCtx ctx = .ok []) {s s' : SolContract} {src : Str} {u : SolUnit}
    (hs : FirstContract ctx.pt s) (hs' : FirstContract u s') (hw : Moved fns s s') {vs : List Violation} (hv : checkCtx { ctx with src := src, pt := u } = .ok vs) :
    (∀ v ∈ vs, ∃ g a i, v.kind = .functionOrderMismatch g a i) ∧ (∀ i, i ∈ vs.filterMap orderIdx ↔ Misplaced fns s'.parts i) ∧ Increasing (vs.filterMap orderIdx) ∧
      (vs.filterMap orderIdx).length = vs.length := by
  obtain ⟨t, h1, h2, h3, _⟩ := (C37_silent_iff hh).1 hc
  obtain rfl : t = s := Option.some.inj (((findContract_iff _ _).2 h1).symm.trans ((findContract_iff _ _).2 hs))
  obtain ⟨v1, v3, e1, rfl, e3⟩ := check_report (ctx := { ctx with src := src, pt := u }) hh hs' hv
  have n1 : v1 = [] := by
    rcases names_report e1 with ⟨rfl, _⟩ | ⟨m, _, e, hne, _⟩
    · rfl
    · exact absurd (h2 m (hw.name.symm.trans e)) hne
  have n2 : (presentAndMissing { ctx with src := src, pt := u } s' 0 fns).2 = [] := by
    apply List.eq_nil_iff_forall_not_mem.2
    intro v hm
    obtain ⟨f, i, _, hi, _, h5, h6⟩ := (presentAndMissing_missing { ctx with src := src, pt := u } s' fns 0).1 v hm
    have hf := List.mem_of_getElem? hi
    rcases h3 f hf with hp | hp
    · refine h5 ?_
      obtain ⟨p, hp, hmp⟩ := hp
      have : seen p ∈ Ours fns t.parts := List.mem_map.2 ⟨p, List.mem_filter.2 ⟨hp, decide_eq_true ⟨f, hf, hmp⟩⟩, rfl⟩
      obtain ⟨q, hq, e⟩ := List.mem_map.1 (hw.ours.mem_iff.2 this)
      exact ⟨q, (List.mem_filter.1 hq).1, (matches_seen e).2 hmp⟩
    · exact h6 hp
  have hk := C39_order (ctx := { ctx with src := src, pt := u }) hh hs' hv
  subst n1
  have hall : ∀ v ∈ [] ++ ((presentAndMissing { ctx with src := src, pt := u } s' 0 fns).2 ++ v3), ∃ g a i, v.kind = .functionOrderMismatch g a i := by
    rw [n2]
    intro v hm
    obtain ⟨p, _, g, _, _, _, rfl⟩ := each_mem_right e3 (by simpa using hm)
    exact ⟨_, _, _, rfl⟩
  refine ⟨hall, hk.1, hk.2.1, ?_⟩
  generalize [] ++ ((presentAndMissing { ctx with src := src, pt := u } s' 0 fns).2 ++ v3) = l at hall
  clear hk hv e1 e3 n2
  induction l with
  | nil => rfl
  | cons v l ih =>
    obtain ⟨g, a, i, e⟩ := hall v (List.mem_cons_self ..)
    rw [List.filterMap_cons]
    have : orderIdx v = some i := by
      obtain ⟨k, loc⟩ := v
      subst e
      rfl
    rw [this]
    simp [ih (fun w hw => hall w (List.mem_cons_of_mem _ hw))]

/-- **C138**, commands: `check` succeeds; then code is moved in one of the Solidity files.  It still succeeds if and only if the functions of the tree are still in the same order. -/
theorem C138_exit [LawfulUcd] {env : Env} {a : CheckArgs} {fs fs' : Fs} (hf : a.fix = false) {w p : FPath} (hta : w ∈ a.files) (hsol : SolOf w p) (htree : ∀ t ∈ a.files, fs'.state t = fs.state t)
    (hs : ∀ t ∈ a.files, t ≠ w → ∀ q, SolOf t q → fs'.state q = fs.state q) {text : Str} {n : Str} {fns : List HFn} (h1 : fs.state w = .text text)
    (ht : translate env.order .default text = .ok ⟨[⟨n, fns⟩]⟩) {src src' : Str} {u u' : SolUnit} {s s' : SolContract} (k1 : fs.state p = .text src) (k2 : fs'.state p = .text src')
    (k3 : env.solParse src = some u) (k4 : env.solParse src' = some u') (k5 : FirstContract u s) (k6 : FirstContract u' s') (hw : Moved fns s s') (ho : NoTwice fns s.parts)
    (h0 : (checkRun env a fs).exit = .code 0) : (checkRun env a fs').exit = .code 0 ↔ Ours fns s'.parts = Ours fns s.parts := by
  have hp : ∀ t ∈ a.files, ∃ ctx, Opens env a.skipModifiers fs t ctx ∧ checkCtx ctx = .ok [] := by
    rcases C51_exit (env := env) (fs := fs) hf with ⟨_, h⟩ | ⟨h, _⟩ | ⟨h, _⟩
    · exact h
    · rw [h0] at h; cases h
    · rw [h0] at h; cases h
  obtain ⟨ctx, ho1, hc⟩ := hp w hta
  rw [opens_unique ho1 ⟨text, _, p, src, u, h1, ht, hsol, k1, k3, rfl⟩] at hc
  have ho2 : Opens env a.skipModifiers fs' w ⟨w.str, ⟨[⟨n, fns⟩]⟩, p.str, src', u', a.skipModifiers⟩ := ⟨text, _, p, src', u', (htree w hta).trans h1, ht, hsol, k2, k4, rfl⟩
  have hothers : ∀ t ∈ a.files, t ≠ w → ∃ ctx, Opens env a.skipModifiers fs' t ctx ∧ checkCtx ctx = .ok [] := by
    intro t hta hne
    obtain ⟨ctx, ⟨text0, hir, q, src, u, m1, m2, m3, m4, m5, rfl⟩, mc⟩ := hp t hta
    exact ⟨_, ⟨text0, hir, q, src, u, (htree t hta).trans m1, m2, m3, (hs t hta hne q m3).trans m4, m5, rfl⟩, mc⟩
  have hiff := C138_silent_iff (ctx := ⟨w.str, ⟨[⟨n, fns⟩]⟩, p.str, src, u, a.skipModifiers⟩) (src := src') rfl hc k5 k6 hw ho
  constructor
  · intro e
    rcases C51_exit (env := env) (fs := fs') hf with ⟨_, h⟩ | ⟨h, _⟩ | ⟨h, _⟩
    · obtain ⟨c, m1, m2⟩ := h w hta
      rw [opens_unique m1 ho2] at m2
      exact hiff.1 m2
    · rw [e] at h; cases h
    · rw [e] at h; cases h
  · intro e
    have hsil := hiff.2 e
    have hall : ∀ t ∈ a.files, ∀ ctx, Opens env a.skipModifiers fs' t ctx → checkCtx ctx = .ok [] := by
      intro t hta' ctx hop
      by_cases hne : t = w
      · subst hne
        rw [opens_unique hop ho2]
        exact hsil
      · obtain ⟨c, m1, m2⟩ := hothers t hta' hne
        rw [opens_unique hop m1]
        exact m2
    rcases C51_exit (env := env) (fs := fs') hf with ⟨e, _⟩ | ⟨_, _, t, hta', h⟩ | ⟨_, t, hta', ctx, m1, m2⟩
    · exact e
    · by_cases hne : t = w
      · subst hne
        exact absurd hsil (h _ ho2)
      · obtain ⟨c, m1, m2⟩ := hothers t hta' hne
        exact absurd m2 (h c m1)
    · rw [hall t hta' ctx m1] at m2
      cases m2

end
end Bulloak
