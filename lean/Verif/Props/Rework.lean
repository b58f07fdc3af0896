import Verif.Spec.Rework
import Verif.Props.Cut
/-! # Working on the Solidity file (C137) -/

namespace Bulloak
open Spec

section
variable [U : Ucd]

omit U in
theorem ours_extends (fns : List HFn) (l : List SolPart) : Extends fns (l.filter (fun p => decide (∃ f ∈ fns, Matches f p))) l := by
  induction l with
  | nil => exact .nil
  | cons p l ih =>
    by_cases h : ∃ f ∈ fns, Matches f p
    · rw [List.filter_cons_of_pos (by simpa using h)]
      refine .keep ?_ ih
      cases p with
      | fn g => exact .fn
      | other => exact .other
    · rw [List.filter_cons_of_neg (by simpa using h)]
      exact .extra (fun f hf hm => h ⟨f, hf, hm⟩) ih

theorem extends_inOrder {fns : List HFn} {ps qs : List SolPart} (h : Extends fns ps qs) : InOrder fns ps ↔ InOrder fns qs := by
  obtain ⟨φ, p1, p2, p3⟩ := extends_map h
  have hat : ∀ f ∈ fns, ∀ a, At ps f a → At qs f (φ a) := fun f hf a ha => extends_at p1 p2 p3 hf ha
  unfold InOrder
  constructor
  · refine List.Pairwise.imp_of_mem ?_
    intro f g hf hg hfg i j hi hj
    obtain ⟨a, ha⟩ := present_at ((extends_present h hf).2 (at_present hi))
    obtain ⟨b, hb⟩ := present_at ((extends_present h hg).2 (at_present hj))
    rw [at_unique hi (hat f hf a ha), at_unique hj (hat g hg b hb)]
    rcases Nat.lt_or_eq_of_le (hfg a b ha hb) with h | h
    · exact Nat.le_of_lt (p1 a b h)
    · rw [h]; exact Nat.le_refl _
  · refine List.Pairwise.imp_of_mem ?_
    intro f g hf hg hfg i j hi hj
    have := hfg _ _ (hat f hf i hi) (hat g hg j hj)
    by_cases hij : i ≤ j
    · exact hij
    · have := p1 j i (by omega)
      omega

theorem noTwice_ours {fns : List HFn} {l : List SolPart} (h : NoTwice fns l) : NoTwice fns (l.filter (fun p => decide (∃ f ∈ fns, Matches f p))) := by
  obtain ⟨φ, p1, p2, _⟩ := extends_map (ours_extends fns l)
  intro f hf i j p q hi hj hp hq
  obtain ⟨p', hp', e⟩ := p2 i p hi
  obtain ⟨q', hq', e'⟩ := p2 j q hj
  have hφ := h f hf (φ i) (φ j) p' q' hp' hq' ((samePart_matches e f).1 hp) ((samePart_matches e' f).1 hq)
  rcases Nat.lt_trichotomy i j with h | h | h
  · have := p1 i j h; omega
  · exact h
  · have := p1 j i h; omega

private theorem rework_inOrder {fns : List HFn} {l l' : List SolPart} (h : (Ours fns l').Sublist (Ours fns l)) (ho : NoTwice fns l) (hi : InOrder fns l) : InOrder fns l' :=
  (extends_inOrder (ours_extends fns l')).1 (cut_inOrder h (noTwice_ours ho) ((extends_inOrder (ours_extends fns l)).2 hi))

theorem ours_present {fns : List HFn} {l l' : List SolPart} (h : (Ours fns l').Sublist (Ours fns l)) {f : HFn} (hf : f ∈ fns) (hp : Present l' f) : Present l f := by
  obtain ⟨p, hp, hm⟩ := hp
  have h1 : seen p ∈ Ours fns l' := List.mem_map.2 ⟨p, List.mem_filter.2 ⟨hp, decide_eq_true ⟨f, hf, hm⟩⟩, rfl⟩
  obtain ⟨q, hq, e⟩ := List.mem_map.1 (h.subset h1)
  exact ⟨q, (List.mem_filter.1 hq).1, (matches_seen e).2 hm⟩

/-- **C137.** A Solidity file conforms to the tree, and no function of the tree occurs twice in it.  It is worked on in any way that brings in or moves no function of the tree: functions are renamed,
rewritten or deleted, and other code comes and goes.  Then `check` reports exactly the functions of the tree that are gone, in the order of the tree (with `-m`, not the modifiers), and nothing else. -/
theorem C137_check {ctx : Context} {n : Str} {fns : List HFn} (hh : ctx.hir = ⟨[⟨n, fns⟩]⟩) (hc : checkCtx ctx = .ok []) {s s' : SolContract} {src : Str} {u : SolUnit}
    (hs : FirstContract ctx.pt s) (hs' : FirstContract u s') (hw : Reworked fns s s') (ho : NoTwice fns s.parts) :
    ∃ vs, checkCtx { ctx with src := src, pt := u } = .ok vs ∧ Increasing (vs.filterMap missingIdx) ∧
      ∀ v, v ∈ vs ↔ ∃ f i, fns[i]? = some f ∧ Present s.parts f ∧ ¬ Present s'.parts f ∧ ¬ (ctx.skipModifiers = true ∧ f.ty = .modifier) ∧
        v = ⟨.matchingFunctionMissing f i, .code ctx.tree f.span.start.line⟩ := by
  obtain ⟨s0, h1, _, _, h4⟩ := (C37_silent_iff hh).1 hc
  obtain rfl : s0 = s := Option.some.inj (((findContract_iff _ _).2 h1).symm.trans ((findContract_iff _ _).2 hs))
  exact left_check hh hc hs hs' hw.name (rework_inOrder hw.ours ho h4)

/-- **C137**, verdict: two contracts with the same name and the same functions of the tree in the same order get the same verdict, whether they conform or not, and whatever else they contain. -/
theorem C137_verdict {ctx : Context} {n : Str} {fns : List HFn} (hh : ctx.hir = ⟨[⟨n, fns⟩]⟩) {s s' : SolContract} {src : Str} {u : SolUnit} (hs : FirstContract ctx.pt s)
    (hs' : FirstContract u s') (hn : s'.name = s.name) (ho : Ours fns s'.parts = Ours fns s.parts) : checkCtx { ctx with src := src, pt := u } = .ok [] ↔ checkCtx ctx = .ok [] := by
  have hpr : ∀ f ∈ fns, Present s.parts f ↔ Present s'.parts f := fun f hf =>
    ⟨ours_present (ho ▸ List.Sublist.refl _) hf, ours_present (ho ▸ List.Sublist.refl _) hf⟩
  have at_ours : ∀ l l' : List SolPart, l.map seen = l'.map seen → ∀ f i, At l f i → At l' f i := fun l l' e f i h => at_seen e.symm h
  have hord : InOrder fns s.parts ↔ InOrder fns s'.parts := by
    rw [← extends_inOrder (ours_extends fns s.parts), ← extends_inOrder (ours_extends fns s'.parts)]
    constructor
    · exact List.Pairwise.imp fun h i j hi hj => h i j (at_ours _ _ ho _ _ hi) (at_ours _ _ ho _ _ hj)
    · exact List.Pairwise.imp fun h i j hi hj => h i j (at_ours _ _ ho.symm _ _ hi) (at_ours _ _ ho.symm _ _ hj)
  rw [C37_silent_iff (ctx := { ctx with src := src, pt := u }) hh, C37_silent_iff hh]
  constructor
  · rintro ⟨t, h1, h2, h3, h4⟩
    obtain rfl : t = s' := Option.some.inj (((findContract_iff _ _).2 h1).symm.trans ((findContract_iff _ _).2 hs'))
    exact ⟨s, hs, fun m hm => h2 m (hn.trans hm), fun f hf => (h3 f hf).imp_left (hpr f hf).2, hord.2 h4⟩
  · rintro ⟨t, h1, h2, h3, h4⟩
    obtain rfl : t = s := Option.some.inj (((findContract_iff _ _).2 h1).symm.trans ((findContract_iff _ _).2 hs))
    exact ⟨s', hs', fun m hm => h2 m (hn.symm.trans hm), fun f hf => (h3 f hf).imp_left (hpr f hf).1, hord.1 h4⟩

/-- **C137**, fixing: in a valid file, `check --fix` then adds exactly the functions of the tree that are gone, each directly behind its predecessor in the tree, keeps everything that is there, and
ends with a file that conforms to the tree.  So a function that was renamed stays under its new name, and comes back empty under the old one. -/
theorem C137_fix [LawfulUcd] {P : SolParser} {G : SolGrammar} (hG : G.HasGenerated) (hP : Reader P G) {ctx : Context} {n : Str} {fns : List HFn} (hh : ctx.hir = ⟨[⟨n, fns⟩]⟩)
    (hc : checkCtx ctx = .ok []) (hf : ∀ f ∈ fns, ReadableFn f) (hd : Distinct fns) {s : SolContract} (hs : FirstContract ctx.pt s) (ho : NoTwice fns s.parts) {L : Layout} (hL : L.Fits G)
    (hb : '{' ∉ L.header) (hw : Reworked fns s L.contract) (hm : ¬ (ctx.skipModifiers = true ∧ BehindMissing fns L)) {u : SolUnit} (hu : P L.text = some u) :
    ∃ (L' : Layout) (u' : SolUnit) (k : Nat), fixContext P { ctx with src := L.text, pt := u } = .ok ({ ctx with src := L'.text, pt := u' }, k) ∧ L'.Fits G ∧
      FirstContract u' L'.contract ∧ L'.before = L.before ∧ L'.header = L.header ∧ L'.rest = L.rest ∧ L.text.Sublist L'.text ∧
      (L.segs.map Prod.fst).Sublist (L'.segs.map Prod.fst) ∧
      (∃ new : List HFn, new.Sublist fns ∧ (∀ f ∈ fns, f ∈ new ↔ Present s.parts f ∧ ¬ Present L.parts f ∧ ¬ (ctx.skipModifiers = true ∧ f.ty = .modifier)) ∧
        (L'.segs.map Prod.fst).Perm (L.segs.map Prod.fst ++ new.map newSeg) ∧
        ∀ i f, fns[i]? = some f → f ∈ new → (i = 0 → At L'.parts f 0) ∧ ∀ j g, i = j + 1 → fns[j]? = some g → ∃ a, At L'.parts g a ∧ At L'.parts f (a + 1)) ∧
      checkCtx { ctx with src := L'.text, pt := u' } = .ok [] := by
  obtain ⟨s0, h1, _, _, h4⟩ := (C37_silent_iff hh).1 hc
  obtain rfl : s0 = s := Option.some.inj (((findContract_iff _ _).2 h1).symm.trans ((findContract_iff _ _).2 hs))
  exact left_fix hG hP hh hc hf hd hs hL hb hw.name (rework_inOrder hw.ours ho h4) hm hu

/-- **C137**, working: it is a step of a session in the sense of C102. -/
theorem C137_step {env : Env} {G : SolGrammar} {x : Str} {t p : FPath} {fs : Fs} {text n : Str} {fns : List HFn} (h1 : fs.state t = .text text)
    (ht : translate env.order .default text = .ok ⟨[⟨n, fns⟩]⟩) {L L' : Layout} (hi : InOrder fns L.parts) (ho : NoTwice fns L.parts) (hw : Reworked fns L.contract L'.contract)
    (hL : L'.Fits G) (hb : '{' ∉ L'.header) (hn : L.name = some (sanitize n)) : Step env G x t p fs (put fs p L'.text) :=
  .edit h1 ht hL hb (hw.name.trans hn) (rework_inOrder hw.ours ho hi)

/-- **C137**, commands: `check` succeeds; then one of the Solidity files is worked on.  It exits with 1 if a function of the tree is gone (with `-m`, a test), else it still succeeds. -/
theorem C137_exit [LawfulUcd] {env : Env} {a : CheckArgs} {fs fs' : Fs} (hf : a.fix = false) {w p : FPath} (hta : w ∈ a.files) (hsol : SolOf w p) (htree : ∀ t ∈ a.files, fs'.state t = fs.state t)
    (hs : ∀ t ∈ a.files, t ≠ w → ∀ q, SolOf t q → fs'.state q = fs.state q) {text : Str} {n : Str} {fns : List HFn} (h1 : fs.state w = .text text)
    (ht : translate env.order .default text = .ok ⟨[⟨n, fns⟩]⟩) {src src' : Str} {u u' : SolUnit} {s s' : SolContract} (k1 : fs.state p = .text src) (k2 : fs'.state p = .text src')
    (k3 : env.solParse src = some u) (k4 : env.solParse src' = some u') (k5 : FirstContract u s) (k6 : FirstContract u' s') (hw : Reworked fns s s') (ho : NoTwice fns s.parts)
    (h0 : (checkRun env a fs).exit = .code 0) :
    ((∃ f ∈ fns, Present s.parts f ∧ ¬ Present s'.parts f ∧ ¬ (a.skipModifiers = true ∧ f.ty = .modifier)) → (checkRun env a fs').exit = .code 1) ∧
    ((∀ f ∈ fns, Present s.parts f → Present s'.parts f ∨ (a.skipModifiers = true ∧ f.ty = .modifier)) → (checkRun env a fs').exit = .code 0) :=
  left_exit hf hta hsol htree hs h1 ht k1 k2 k3 k4 k5 k6 hw.name (rework_inOrder hw.ours ho (passes_inOrder hf hta hsol h1 ht k1 k3 k5 h0)) h0

end
end Bulloak
