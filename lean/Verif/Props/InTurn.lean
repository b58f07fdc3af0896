import Verif.Props.Rollback
import Verif.Props.Crash
import Verif.Props.Messages
/-! # `check --fix` for two trees in turn (C149) -/

namespace Bulloak
open Spec

section
variable [U : Ucd]

/-- Without anything misplaced and with the right name, `check` does not crash. -/
private theorem calm_check {ctx : Context} {n : Str} {fns : List HFn} (hh : ctx.hir = ⟨[⟨n, fns⟩]⟩) {s : SolContract} (hs : FirstContract ctx.pt s) (hn : ∀ m, s.name = some m → m = sanitize n)
    (ho : InOrder fns s.parts) : ∃ vs, checkCtx ctx = .ok vs := by
  cases hv : checkCtx ctx with
  | ok vs => exact ⟨vs, rfl⟩
  | err e => exact nomatch e
  | panic =>
    rcases (C66_crash_iff hh hs).1 hv with ⟨m, h1, h2, _⟩ | ⟨i, f, g, h1, h2, _⟩
    · exact absurd (hn m h1) h2
    · exact absurd h2 (misplaced_iff.1 ho i)

/-- What a completed file has: what was there before, and what is of the tree. -/
private theorem completed_from {skip : Bool} {fns : List HFn} {L L' : Layout} (h : Completed skip fns L L') {g : HFn} (hg : Present L'.parts g) :
    Present L.parts g ∨ asSeen g ∈ fns.map asSeen := by
  have h1 : asSeen g ∈ Ours [g] L'.parts := ours_mem.2 ⟨g, List.mem_singleton.2 rfl, hg, rfl⟩
  rw [ours_segs] at h1
  obtain ⟨s, hs, e⟩ := List.mem_map.1 h1
  rcases List.mem_append.1 (h.only.mem_iff.1 (List.mem_filter.1 hs).1) with h2 | h2
  · have h3 : asSeen g ∈ Ours [g] L.parts := by
      rw [ours_segs]
      exact List.mem_map.2 ⟨s, List.mem_filter.2 ⟨h2, (List.mem_filter.1 hs).2⟩, e⟩
    obtain ⟨f, hf, hp, _⟩ := ours_mem.1 h3
    rw [List.mem_singleton.1 hf] at hp
    exact .inl hp
  · obtain ⟨f, hf, rfl⟩ := List.mem_map.1 h2
    exact .inr (List.mem_map.2 ⟨f, (List.mem_filter.1 hf).1, ((is_segSeen _ _).1 (new_is f)).symm.trans e⟩)

/-- **C149.** Two trees, for contracts of the same name, agree on the order of the functions they share; neither names a function twice.  In a valid file the functions of the first tree are in order, and there
is no function that only the second tree has.  `check --fix` is run for the first tree, and then, on the resulting file, for the second one.  The final file conforms to both. -/
theorem C149_turns {P : SolParser} {G : SolGrammar} (hG : G.HasGenerated) (hP : Reader P G) {n n' : Str} {fns fns' : List HFn} {ctx next : Context}
    (hh : ctx.hir = ⟨[⟨n, fns⟩]⟩) (hh' : next.hir = ⟨[⟨n', fns'⟩]⟩) (hn : sanitize n = sanitize n') (hf : ∀ f ∈ fns, ReadableFn f) (hf' : ∀ f ∈ fns', ReadableFn f)
    (hd : Distinct fns) (hd' : Distinct fns') (hsk : ctx.skipModifiers = false ∧ next.skipModifiers = false) (hso : SameOrder fns fns')
    {L L1 : Layout} (hL : L.Fits G) (hL1 : L1.Fits G) (hsrc : ctx.src = L.text) (hpt : P ctx.src = some ctx.pt) (hr : Renamed (sanitize n) L L1) (hb : '{' ∉ L1.header)
    (ho : InOrder fns L.parts) (hnew : ∀ f ∈ fns', Present L.parts f → asSeen f ∈ fns.map asSeen) {vs : List Violation} (hv : checkCtx ctx = .ok vs) :
    ∃ (L' : Layout) (u v : SolUnit) (L'' : Layout) (w : SolUnit) (k : Nat), fixContext P ctx = .ok ({ ctx with src := L'.text, pt := u }, vs.length) ∧ P L'.text = some v ∧
      fixContext P { next with src := L'.text, pt := v } = .ok ({ next with src := L''.text, pt := w }, k) ∧ L''.Fits G ∧ FirstContract w L''.contract ∧
      checkCtx { ctx with src := L''.text, pt := w } = .ok [] ∧ checkCtx { next with src := L''.text, pt := w } = .ok [] := by
  obtain ⟨L', u, h1, h2, h3, h4, h5⟩ := C91_fix_missing hG hP hh hf hL hL1 hsrc hpt hr hb (fun _ _ _ _ _ h => by rw [hsk.1] at h; cases h) hd ho hv
  obtain ⟨v, hv', hfc⟩ := hP L' h2
  have hc : checkCtx { ctx with src := L'.text, pt := v } = .ok [] := (C137_verdict (ctx := { ctx with src := L'.text, pt := u }) hh h3 hfc rfl rfl).2 h5
  have hname : ∀ m, L'.name = some m → m = sanitize n' := fun m e => (renamed_name hr m (h4.same.2.1.symm.trans e)).trans hn
  have hnew' : ∀ f ∈ fns', Present L'.parts f → asSeen f ∈ fns.map asSeen := fun f hf hp =>
    (completed_from h4 hp).elim (fun h => hnew f hf ((renamed_present hr f).1 h)) id
  have ho' : InOrder fns' L'.parts := sameOrder_inOrder hso (h4.order hd ((renamed_inOrder hr fns).2 ho)) hnew'
  obtain ⟨ws, hw⟩ := calm_check (ctx := { next with src := L'.text, pt := v }) hh' hfc hname ho'
  obtain ⟨L'', w, k1, k2, k3, k4, k5⟩ := C148_trees hG hP (ctx := { next with src := L'.text, pt := v }) (old := { ctx with src := L'.text, pt := v }) hh' hh hn.symm hf' hd' h2
    (by rw [h4.same.2.2.1]; exact hb) rfl hv' ⟨rfl, rfl⟩ hso hnew' ⟨hsk.2, hsk.1⟩ hc hw
  exact ⟨L', u, v, L'', w, _, h1, hv', k1, k2, k3, k5, k4⟩

/-- **C149**, either order: if a valid file of that name has no function of the two trees, they may be brought in in either order. -/
theorem C149_either {P : SolParser} {G : SolGrammar} (hG : G.HasGenerated) (hP : Reader P G) {n n' : Str} {fns fns' : List HFn} {ctx next : Context}
    (hh : ctx.hir = ⟨[⟨n, fns⟩]⟩) (hh' : next.hir = ⟨[⟨n', fns'⟩]⟩) (hn : sanitize n = sanitize n') (hf : ∀ f ∈ fns, ReadableFn f) (hf' : ∀ f ∈ fns', ReadableFn f)
    (hd : Distinct fns) (hd' : Distinct fns') (hsk : ctx.skipModifiers = false ∧ next.skipModifiers = false) (hso : SameOrder fns fns')
    {L : Layout} (hL : L.Fits G) (hsrc : ctx.src = L.text ∧ next.src = L.text) (hpt : P L.text = some ctx.pt ∧ P L.text = some next.pt) (hm : L.name = some (sanitize n)) (hb : '{' ∉ L.header)
    (hno : ∀ f, f ∈ fns ∨ f ∈ fns' → ¬ Present L.parts f) :
    (∃ (mid final : Str) (u v w : SolUnit) (i k : Nat), fixContext P ctx = .ok ({ ctx with src := mid, pt := u }, i) ∧ P mid = some v ∧
      fixContext P { next with src := mid, pt := v } = .ok ({ next with src := final, pt := w }, k) ∧
      checkCtx { ctx with src := final, pt := w } = .ok [] ∧ checkCtx { next with src := final, pt := w } = .ok []) ∧
    (∃ (mid final : Str) (u v w : SolUnit) (i k : Nat), fixContext P next = .ok ({ next with src := mid, pt := u }, i) ∧ P mid = some v ∧
      fixContext P { ctx with src := mid, pt := v } = .ok ({ ctx with src := final, pt := w }, k) ∧
      checkCtx { ctx with src := final, pt := w } = .ok [] ∧ checkCtx { next with src := final, pt := w } = .ok []) := by
  have hin : ∀ gs : List HFn, (∀ f ∈ gs, ¬ Present L.parts f) → InOrder gs L.parts := fun gs h =>
    List.pairwise_of_forall_mem_list fun f hf _ _ i _ hi _ => absurd (at_present hi) (h f hf)
  have hsame : ∀ m, sanitize n = m → Renamed m L L := fun m e => .same (fun x hx => (Option.some.inj (hx.symm.trans hm)).trans e)
  have name : ∀ m, sanitize n = m → ∀ x, L.name = some x → x = m := fun m e x hx => (Option.some.inj (hx.symm.trans hm)).trans e
  constructor
  · have hfc : FirstContract ctx.pt L.contract := reader_first hP hL hpt.1
    obtain ⟨vs, hv⟩ := calm_check hh hfc (name _ rfl) (hin fns fun f h => hno f (.inl h))
    obtain ⟨L', u, v, L'', w, k, h1, h2, h3, _, _, h4, h5⟩ := C149_turns hG hP hh hh' hn hf hf' hd hd' hsk hso hL hL hsrc.1 (by rw [hsrc.1]; exact hpt.1) (hsame _ rfl) hb
      (hin fns fun f h => hno f (.inl h)) (fun f h hp => absurd hp (hno f (.inr h))) hv
    exact ⟨_, _, u, v, w, _, k, h1, h2, h3, h4, h5⟩
  · have hfc : FirstContract next.pt L.contract := reader_first hP hL hpt.2
    obtain ⟨vs, hv⟩ := calm_check hh' hfc (name _ hn) (hin fns' fun f h => hno f (.inr h))
    obtain ⟨L', u, v, L'', w, k, h1, h2, h3, _, _, h4, h5⟩ := C149_turns hG hP hh' hh hn.symm hf' hf hd' hd ⟨hsk.2, hsk.1⟩ (Eq.symm hso) hL hL hsrc.2 (by rw [hsrc.2]; exact hpt.2) (hsame _ hn) hb
      (hin fns' fun f h => hno f (.inr h)) (fun f h hp => absurd hp (hno f (.inl h))) hv
    exact ⟨_, _, u, v, w, _, k, h1, h2, h3, h5, h4⟩

end

end Bulloak
