import Verif.Props.SolFile
/-!
# Fixing valid files: C92, C93
-/

namespace Bulloak
open Spec
set_option linter.unusedSectionVars false

section
variable [U : Ucd]

/-! ## When fixing crashes with `-m` -/

/-- With `-m`, no modifiers are inserted. -/
theorem filling_modifier {fns : List HFn} {L L' : Layout} {k : Nat} (h : Filling true fns L k L') {f : HFn} (hty : f.ty = .modifier)
    (hp : Present L'.parts f) : Present L.parts f := by
  induction h with
  | start => exact hp
  | keep _ _ _ ih => exact ih hp
  | @insert k L' g p _ hg hr hpl ih =>
    apply ih
    rw [layout_present] at hp ⊢
    rw [insert_keys _ _ _ (place_le hpl)] at hp
    rcases (List.mem_insertIdx (by have := place_le hpl; rwa [← keys_length] at this)).1 hp with h | h
    · exfalso
      have hk : fnKey f = fnKey g := Option.some.inj h
      have : g.ty = .modifier := by
        have := congrArg Prod.fst hk
        simp only [fnKey] at this
        rw [← this, hty]
      exact hr.2 ⟨rfl, this⟩
    · exact h

theorem fill_panic {P : SolParser} {n : Str} {fns : List HFn} {ctx : Context} (hh : ctx.hir = ⟨[⟨n, fns⟩]⟩) {L : Layout}
    (hsrc : ctx.src = L.text) (hpt : FirstContract ctx.pt L.contract) (hb : '{' ∉ L.header)
    (hP : ∀ k L', Filling true fns L k L' → ReadsAs P L') (hsk : ctx.skipModifiers = true) {i : Nat} {f0 g0 : HFn}
    (hf0 : fns[i]? = some f0) (hg0 : fns[i + 1]? = some g0) (hty : f0.ty = .modifier) (hnp : ¬ Present L.parts f0) (hr0 : Reported true L g0) :
    fixAll P (presentAndMissing ctx L.contract 0 fns).2 ctx = .panic := by
  have main : ∀ (fs pre : List HFn) (ctx' : Context) (L' : Layout), fns = pre ++ fs → ctx'.hir = ctx.hir → ctx'.src = L'.text →
      FirstContract ctx'.pt L'.contract → Filling true fns L pre.length L' → pre.length ≤ i + 1 →
      fixAll P (presentAndMissing ctx L.contract pre.length fs).2 ctx' = .panic := by
    intro fs
    induction fs with
    | nil =>
      intro pre ctx' L' he _ _ _ _ hle
      exfalso
      rw [List.append_nil] at he
      have := (List.getElem?_eq_some_iff.1 hg0).1
      rw [he] at this
      omega
    | cons f fs ih =>
      intro pre ctx' L' he hhir hsrc' hpt' hfl hle
      have hget : fns[pre.length]? = some f := by rw [he]; simp
      have he' : fns = (pre ++ [f]) ++ fs := by rw [he]; simp
      have hlen : (pre ++ [f]).length = pre.length + 1 := by simp
      have hg := filling_grown hfl
      rw [presentAndMissing]
      by_cases hrep : Reported true L f
      · have hnone : findMatchingFn L.contract f = none := by
          rcases findMatchingFn_cases L.contract f with ⟨h, _⟩ | ⟨_, _, _, _, h⟩
          · exact h
          · exact absurd (at_present h) hrep.1
        have hif : (ctx.skipModifiers && f.isModifier) = false := by
          have := hrep.2
          cases ht : f.ty <;> simp_all [HFn.isModifier]
        simp only [hnone, hif, Bool.false_eq_true, if_false, fixAll]
        have hcase : (∃ p, Place fns L' pre.length p) ∨ ∃ j g, pre.length = j + 1 ∧ fns[j]? = some g ∧ ¬ Present L'.parts g := by
          cases hl : pre.length with
          | zero => exact .inl ⟨0, .inl ⟨rfl, rfl⟩⟩
          | succ j =>
            have hj : j < pre.length := by omega
            have hg' : fns[j]? = some pre[j] := by rw [he, List.getElem?_append_left hj, List.getElem?_eq_getElem hj]
            by_cases hp : Present L'.parts pre[j]
            · obtain ⟨a, ha⟩ := present_at hp
              exact .inl ⟨a + 1, .inr ⟨j, _, a, rfl, hg', ha, rfl⟩⟩
            · exact .inr ⟨j, _, rfl, hg', hp⟩
        rcases hcase with ⟨p, hpl⟩ | ⟨j, g, hj, hgj, hno⟩
        · by_cases hi : pre.length = i + 1
          · exfalso
            rcases hpl with ⟨h, _⟩ | ⟨j, g, a, hj, hgj, ha, _⟩
            · omega
            · obtain rfl : j = i := by omega
              rw [hf0] at hgj
              cases hgj
              exact hnp (filling_modifier hfl hty (at_present ha))
          · have hfl2 : Filling true fns L (pre ++ [f]).length (L'.insert f p) := by
              rw [hlen]; exact hfl.insert hget hrep hpl
            obtain ⟨u, hfix, hfc⟩ := fix_missing_step (hhir.trans hh) hsrc' hpt' (by rw [(grown_same hg).2.2.1]; exact hb) hpl (hP _ _ hfl2)
            have := ih (pre ++ [f]) { ctx' with src := (L'.insert f p).text, pt := u } (L'.insert f p) he' hhir rfl hfc hfl2
              (by rw [hlen]; omega)
            rw [hlen] at this
            simp only [hfix, Res.bind_ok, this]
        · have hc : ctx'.hir.findContract = some ⟨n, fns⟩ := by rw [hhir, hh]; rfl
          have hf : findMatchingFn L'.contract g = none := by
            rcases findMatchingFn_cases L'.contract g with ⟨h, _⟩ | ⟨_, _, _, _, h⟩
            · exact h
            · exact absurd (at_present h) hno
          have hp : fixViolation P (.matchingFunctionMissing f pre.length) ctx' = .panic := by
            simp only [fixViolation, hc, (findContract_iff _ _).2 hpt', getInsertionOffset, hj, hgj, hf]
            rfl
          rw [hp]
          rfl
      · have hlist : (presentAndMissing ctx L.contract pre.length (f :: fs)).2 =
            (presentAndMissing ctx L.contract (pre.length + 1) fs).2 := by
          rw [presentAndMissing]
          rcases findMatchingFn_cases L.contract f with ⟨h, hno⟩ | ⟨_, _, h, _, _⟩
          · have : (ctx.skipModifiers && f.isModifier) = true := by
              have : true = true ∧ f.ty = .modifier := Classical.byContradiction fun hc => hrep ⟨hno, hc⟩
              simp [hsk, HFn.isModifier, this.2]
            simp only [h, this, if_true]
          · simp only [h]
        rw [presentAndMissing] at hlist
        rw [hlist]
        have hi : pre.length ≠ i + 1 := by
          intro e
          rw [e, hg0] at hget
          cases hget
          exact hrep hr0
        have := ih (pre ++ [f]) ctx' L' he' hhir hsrc' hpt' (by rw [hlen]; exact hfl.keep hget hrep) (by rw [hlen]; omega)
        rw [hlen] at this
        exact this
  exact main fns [] ctx L rfl rfl hsrc hpt .start (by simp)

/-- A missing test comes directly behind a missing modifier in the tree. -/
def Spec.BehindMissing (fns : List HFn) (L : Layout) : Prop :=
  ∃ i f g, fns[i]? = some f ∧ fns[i + 1]? = some g ∧ f.ty = .modifier ∧ g.ty = .function ∧ ¬ Present L.parts f ∧ ¬ Present L.parts g

theorem behind_panic {P : SolParser} {G : SolGrammar} (hG : G.HasGenerated) (hP : Reader P G) {n : Str} {fns : List HFn} {ctx : Context}
    (hh : ctx.hir = ⟨[⟨n, fns⟩]⟩) (hf : ∀ f ∈ fns, ReadableFn f) {L L1 : Layout} (hL : L.Fits G) (hL1 : L1.Fits G) (hsrc : ctx.src = L.text)
    (hpt : P ctx.src = some ctx.pt) (hr : Renamed (sanitize n) L L1) (hb : '{' ∉ L1.header) {vs : List Violation} (hv : checkCtx ctx = .ok vs)
    (h : ctx.skipModifiers = true ∧ BehindMissing fns L) : fixContext P ctx = .panic := by
  obtain ⟨hs, i, f, g, hfi, hgi, hty, hgt, hnf, hng⟩ := h
  have hpt' : FirstContract ctx.pt L.contract := reader_first hP hL (by rw [← hsrc]; exact hpt)
  obtain ⟨u0, hu0, hround⟩ := rename_round hh hsrc hpt' hr (hP L1 hL1) hv
  unfold fixContext
  simp only [hv, Res.bind_ok]
  rw [hround _ rfl, fill_panic (ctx := { ctx with src := L1.text, pt := u0 }) hh rfl hu0 hb
    (fun _ _ h => hP _ (filling_fits hG hf hL1 h)) hs hfi hgi hty (by rw [renamed_present hr]; exact hnf)
    ((renamed_reported hr _ _).2 ⟨hng, by rw [hgt]; simp⟩)]
  rfl

/-- **C93.** On a valid file whose functions are in order, `check --fix` crashes exactly if it is called with `-m` and a missing test comes
directly behind a missing modifier in the tree. -/
theorem C93_crash_iff {P : SolParser} {G : SolGrammar} (hG : G.HasGenerated) (hP : Reader P G) {n : Str} {fns : List HFn} {ctx : Context}
    (hh : ctx.hir = ⟨[⟨n, fns⟩]⟩) (hf : ∀ f ∈ fns, ReadableFn f) {L L1 : Layout} (hL : L.Fits G) (hL1 : L1.Fits G) (hsrc : ctx.src = L.text)
    (hpt : P ctx.src = some ctx.pt) (hr : Renamed (sanitize n) L L1) (hb : '{' ∉ L1.header) (hd : Distinct fns) (ho : InOrder fns L.parts)
    {vs : List Violation} (hv : checkCtx ctx = .ok vs) :
    fixContext P ctx = .panic ↔ ctx.skipModifiers = true ∧ BehindMissing fns L := by
  constructor
  · intro hp
    refine Classical.byContradiction fun hno => ?_
    obtain ⟨L', u, h, _⟩ := C91_fix_missing hG hP hh hf hL hL1 hsrc hpt hr hb (by
      intro i f g hf hg hs hty hnp hrep
      refine hno ⟨hs, i, f, g, hf, hg, hty, ?_, hnp, hrep.1⟩
      cases hgt : g.ty with
      | function => rfl
      | modifier => exact absurd ⟨hs, hgt⟩ hrep.2) hd ho hv
    rw [hp] at h
    cases h
  · exact behind_panic hG hP hh hf hL hL1 hsrc hpt hr hb hv

/-! ## Fix, then check -/

/-- The formatter accepts valid files and keeps the name of the contract and its functions. -/
def Spec.KeepsContract (fmt : Context → Option Str) (G : SolGrammar) : Prop :=
  ∀ (ctx : Context) (L : Layout), ctx.src = L.text → L.Fits G → FirstContract ctx.pt L.contract →
    ∃ L' : Layout, fmt ctx = some L'.text ∧ L'.Fits G ∧ L'.name = L.name ∧ L'.parts.map seen = L.parts.map seen

/-- A file `check --fix` can repair: valid, and either its functions are in order and it does not crash, or it consists of functions of the
tree, no three of them reversed. -/
inductive Spec.Repairable (skip : Bool) (fns : List HFn) (L L1 : Layout) : Prop
  | order : InOrder fns L.parts → ¬ (skip = true ∧ BehindMissing fns L) → Repairable skip fns L L1
  | sort : skip = false → OnlyTree fns L → NoReversedTriple fns L.parts → Ascii L1.text → (∀ f ∈ fns, Ascii (emitFunction f)) →
      (∀ L', Filling false fns L1 fns.length L' → Separate L') → Repairable skip fns L L1

theorem fixes_well {env : Env} {G : SolGrammar} (hG : G.HasGenerated) (hP : Reader env.solParse G) (hF : KeepsContract env.ctxFmt G)
    {n : Str} {fns : List HFn} {ctx : Context} (hh : ctx.hir = ⟨[⟨n, fns⟩]⟩) (hf : ∀ f ∈ fns, ReadableFn f) {L L1 : Layout} (hL : L.Fits G)
    (hL1 : L1.Fits G) (hsrc : ctx.src = L.text) (hpt : env.solParse ctx.src = some ctx.pt) (hr : Renamed (sanitize n) L L1)
    (hb : '{' ∉ L1.header) (hd : Distinct fns) (hA : Ascii L.text) (hrep : Repairable ctx.skipModifiers fns L L1) : FixesWell env ctx := by
  have hne : ∀ s ∈ L.segs.map Prod.fst, s.text ≠ [] := by
    intro s hsm e
    obtain ⟨p, hp, rfl⟩ := List.mem_map.1 hsm
    obtain ⟨c, r, h, _⟩ := (hL.segs p hp).1.1
    rw [e] at h; cases h
  have key : ∃ (L' : Layout) (u : SolUnit) (k : Nat), fixContext env.solParse ctx = .ok ({ ctx with src := L'.text, pt := u }, k) ∧ L'.Fits G ∧ FirstContract u L'.contract ∧
      checkCtx { ctx with src := L'.text, pt := u } = .ok [] := by
    cases hrep with
    | order ho hno =>
      have hpt' : FirstContract ctx.pt L.contract := reader_first hP hL (by rw [← hsrc]; exact hpt)
      have hl0 := ascii_lines hA hne
      obtain ⟨vs, hv⟩ := check_total hh hpt' (by rw [hsrc]; exact hl0.1) (by rw [hsrc]; exact hl0.2)
      obtain ⟨L', u, h1, h2, h3, _, h4⟩ := C91_fix_missing hG hP hh hf hL hL1 hsrc hpt hr hb (by
        intro i f g hf hg hs hty hnp hrep
        refine hno ⟨hs, i, f, g, hf, hg, hty, ?_, hnp, hrep.1⟩
        cases hgt : g.ty with
        | function => rfl
        | modifier => exact absurd ⟨hs, hgt⟩ hrep.2) hd ho hv
      exact ⟨L', u, _, h1, h2, h3, h4⟩
    | sort hs hown h3 hA1 hFa hsep =>
      obtain ⟨_, L', u, vs, _, h1, h2, h3, _, _, _, _, h4⟩ := C91_fix_order hG hP hh hf hL hL1 hsrc hpt hr hb hs hd hown h3 hA hA1 hFa hsep
      exact ⟨L', u, _, h1, h2, h3, h4⟩
  obtain ⟨L', u, k, h1, h2, h3, h4⟩ := key
  obtain ⟨L'', h5, h6, h7, h8⟩ := hF { ctx with src := L'.text, pt := u } L' rfl h2 h3
  obtain ⟨v, h9, h10⟩ := hP L'' h6
  refine ⟨_, k, L''.text, v, h1, h4, h5, h9, ?_⟩
  intro s hs
  obtain rfl : s = L'.contract := Option.some.inj (((findContract_iff _ _).2 hs).symm.trans ((findContract_iff _ _).2 h3))
  exact ⟨L''.contract, h10, h7, h8⟩

/-- **C92.** After `check --fix`, `check` exits with 0, as does `check --fix` itself: if every tree is translated to functions that can be
read and differ, every Solidity file is valid, ASCII and can be repaired (see C43, C44, C93), different trees have different Solidity
files, and these are writable; for every parser that reads valid files correctly and every formatter that keeps contracts. -/
theorem C92_fix_then_check [LawfulUcd] {env : Env} {G : SolGrammar} (hG : G.HasGenerated) (hP : Reader env.solParse G)
    (hF : KeepsContract env.ctxFmt G) {a : CheckArgs} {fs : Fs} (hn : NoTests a.files) (hfix : a.fix = true) (hst : a.stdout = false)
    (hown : OwnFiles a.files)
    (hgood : ∀ t ∈ a.files, ∃ text n fns p, ∃ L L1 : Layout, fs.state t = .text text ∧ translate env.order .default text = .ok ⟨[⟨n, fns⟩]⟩ ∧
      (∀ f ∈ fns, ReadableFn f) ∧ Distinct fns ∧ SolOf t p ∧ fs.state p = .text L.text ∧ L.Fits G ∧ L1.Fits G ∧ Ascii L.text ∧
      Renamed (sanitize n) L L1 ∧ '{' ∉ L1.header ∧ Repairable a.skipModifiers fns L L1)
    (hw : ∀ t ∈ a.files, ∀ p, SolOf t p → fs.writable p = true) :
    (checkRun env a fs).exit = .code 0 ∧ (checkRun env { a with fix := false } (checkRun env a fs).fs).exit = .code 0 := by
  refine C60_fix_then_check hn hfix hst hown ?_ hw
  intro t ht
  obtain ⟨text, n, fns, p, L, L1, h1, h2, h3, h4, h5, h6, h7, h8, h9, h10, h11, h12⟩ := hgood t ht
  obtain ⟨u, hu, _⟩ := hP L h7
  refine ⟨⟨t.str, ⟨[⟨n, fns⟩]⟩, p.str, L.text, u, a.skipModifiers⟩, ⟨text, _, p, _, u, h1, h2, h5, h6, hu, rfl⟩, ?_⟩
  exact fixes_well hG hP hF rfl h3 h7 h8 rfl hu h10 h11 h4 h9 h12

end
end Bulloak
