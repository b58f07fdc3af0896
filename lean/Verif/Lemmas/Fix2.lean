import Verif.Lemmas.Fix
import Verif.Props.Check
import Verif.Model.Cli
/-! # Lemmas about fixing: inserting the missing functions -/

namespace Bulloak
open Spec
set_option linter.unusedSectionVars false
variable [U : Ucd]

/-- Layouts obtained by inserting functions of the tree. -/
inductive Spec.Grown (fns : List HFn) (L : Layout) : Layout → Prop where
  | refl : Grown fns L L
  | step {L' f k} : Grown fns L L' → f ∈ fns → k ≤ L'.segs.length → Grown fns L (L'.insert f k)

theorem keys_length (L : Layout) : L.keys.length = L.segs.length := by simp [Layout.keys]

theorem kat_lt {ks : List (Option (FnTy × Str))} {x : FnTy × Str} {a : Nat} (h : KAt ks x a) : a < ks.length :=
  (List.getElem?_eq_some_iff.1 h.1).1

theorem place_le {fns : List HFn} {L : Layout} {k p : Nat} (h : Place fns L k p) : p ≤ L.segs.length := by
  rcases h with ⟨_, rfl⟩ | ⟨i, g, a, _, _, ha, rfl⟩
  · exact Nat.zero_le _
  · have := kat_lt ((layout_at L g a).1 ha)
    rw [keys_length] at this
    exact this

theorem mem_insertIdx_of_mem {α : Type} {x y : α} : ∀ {l : List α} {k : Nat}, x ∈ l → x ∈ l.insertIdx k y
  | [], _, h => by cases h
  | b :: l, 0, h => by simp [h]
  | b :: l, k + 1, h => by
    rw [List.insertIdx_succ_cons]
    rcases List.mem_cons.1 h with rfl | h
    · simp
    · exact List.mem_cons_of_mem _ (mem_insertIdx_of_mem h)

theorem sublist_insertIdx {α : Type} (y : α) : ∀ (l : List α) (k : Nat), l.Sublist (l.insertIdx k y)
  | l, 0 => by simp
  | [], k + 1 => by simp
  | b :: l, k + 1 => by
    rw [List.insertIdx_succ_cons]
    exact (sublist_insertIdx y l k).cons_cons _

theorem grown_present {fns : List HFn} {L L' : Layout} (h : Grown fns L L') {f : HFn} (hf : Present L.parts f) :
    Present L'.parts f := by
  induction h with
  | refl => exact hf
  | step h _ hk ih =>
    rw [layout_present] at ih ⊢
    rw [insert_keys _ _ _ hk]
    exact mem_insertIdx_of_mem ih

theorem grown_sublist {fns : List HFn} {L L' : Layout} (h : Grown fns L L') : L.text.Sublist L'.text := by
  induction h with
  | refl => exact List.Sublist.refl _
  | step _ _ hk ih => exact ih.trans (insert_sublist _ _ _ hk)

theorem grown_same {fns : List HFn} {L L' : Layout} (h : Grown fns L L') :
    L'.before = L.before ∧ L'.name = L.name ∧ L'.header = L.header ∧ L'.rest = L.rest := by
  induction h with
  | refl => exact ⟨rfl, rfl, rfl, rfl⟩
  | @step L' f k h _ hk ih =>
    cases k <;> exact ih

theorem grown_segs {fns : List HFn} {L L' : Layout} (h : Grown fns L L') :
    (L.segs.map Prod.fst).Sublist (L'.segs.map Prod.fst) := by
  induction h with
  | refl => exact List.Sublist.refl _
  | step _ _ hk ih =>
    rw [insert_map _ _ _ hk]
    exact ih.trans (sublist_insertIdx _ _ _)

theorem filling_grown {skip : Bool} {fns : List HFn} {L L' : Layout} {k : Nat} (h : Filling skip fns L k L') : Grown fns L L' := by
  induction h with
  | start => exact .refl
  | insert _ hf _ hp ih => exact ih.step (List.mem_of_getElem? hf) (place_le hp)
  | keep _ _ _ ih => exact ih

/-- One insertion. -/
theorem fix_missing_step {P : SolParser} {n : Str} {fns : List HFn} {ctx : Context} (hh : ctx.hir = ⟨[⟨n, fns⟩]⟩) {L : Layout}
    (hsrc : ctx.src = L.text) (hpt : FirstContract ctx.pt L.contract) (hb : '{' ∉ L.header) {f : HFn} {k p : Nat}
    (hpl : Place fns L k p) (hr : ReadsAs P (L.insert f p)) :
    ∃ u, fixViolation P (.matchingFunctionMissing f k) ctx = .ok { ctx with src := (L.insert f p).text, pt := u } ∧
      FirstContract u (L.insert f p).contract := by
  obtain ⟨u, hu, hfc⟩ := hr
  refine ⟨u, ?_, hfc⟩
  have key : ∃ o, getInsertionOffset L.contract ⟨n, fns⟩ k ctx.src = .ok o ∧
      insertFunctionAt ctx.src f o = .ok (L.insert f p).text := by
    rw [hsrc]
    rcases hpl with ⟨rfl, rfl⟩ | ⟨i, g, a, rfl, hg, ha, rfl⟩
    · exact insert_text_zero L hb f
    · rw [getInsertionOffset]
      simp only [hg]
      rcases findMatchingFn_cases L.contract g with ⟨_, hno⟩ | ⟨a', q, hq, hget, hat⟩
      · exact absurd (at_present ha) hno
      · have e : a' = a := at_unique hat ha
        subst e
        rw [hq]
        exact ⟨q.stop, rfl, insert_text_succ L f a' (.fn q) hget⟩
  obtain ⟨o, h1, h2⟩ := key
  have hc : ctx.hir.findContract = some ⟨n, fns⟩ := by rw [hh]; rfl
  simp only [fixViolation, hc, (findContract_iff _ _).2 hpt, h1, h2, Res.bind_ok, reparse, hu]

/-- Induction over the insertions. -/
theorem fill_induct {P : SolParser} {n : Str} {fns : List HFn} {ctx : Context} (hh : ctx.hir = ⟨[⟨n, fns⟩]⟩) {L : Layout}
    (hsrc : ctx.src = L.text) (hpt : FirstContract ctx.pt L.contract) (hb : '{' ∉ L.header)
    (hP : ∀ k L', Filling ctx.skipModifiers fns L k L' → ReadsAs P L')
    (hm : ∀ i f g, fns[i]? = some f → fns[i + 1]? = some g → ctx.skipModifiers = true → f.ty = .modifier →
      ¬ Present L.parts f → ¬ Reported ctx.skipModifiers L g)
    (Q : Nat → Layout → Prop) (h0 : Q 0 L)
    (hstep : ∀ k L' f p, Q k L' → Grown fns L L' →
      fns[k]? = some f → Reported ctx.skipModifiers L f → Place fns L' k p → Q (k + 1) (L'.insert f p))
    (hskip : ∀ k L' f, Q k L' → Grown fns L L' → fns[k]? = some f → ¬ Reported ctx.skipModifiers L f → Q (k + 1) L') :
    ∃ L' u, fixAll P (presentAndMissing ctx L.contract 0 fns).2 ctx = .ok { ctx with src := L'.text, pt := u } ∧
      FirstContract u L'.contract ∧ Grown fns L L' ∧ Filling ctx.skipModifiers fns L fns.length L' ∧
      (∀ f ∈ fns, Present L'.parts f ∨ (ctx.skipModifiers = true ∧ f.ty = .modifier)) ∧ Q fns.length L' := by
  have main : ∀ (fs pre : List HFn) (ctx' : Context) (L' : Layout), fns = pre ++ fs → ctx'.hir = ctx.hir → ctx'.src = L'.text →
      FirstContract ctx'.pt L'.contract → Grown fns L L' → Filling ctx.skipModifiers fns L pre.length L' →
      (∀ f ∈ pre, Present L'.parts f ∨ (ctx.skipModifiers = true ∧ f.ty = .modifier)) → Q pre.length L' →
      ∃ L'' u, fixAll P (presentAndMissing ctx L.contract pre.length fs).2 ctx' = .ok { ctx' with src := L''.text, pt := u } ∧
        FirstContract u L''.contract ∧ Grown fns L L'' ∧ Filling ctx.skipModifiers fns L fns.length L'' ∧
        (∀ f ∈ fns, Present L''.parts f ∨ (ctx.skipModifiers = true ∧ f.ty = .modifier)) ∧ Q fns.length L'' := by
    intro fs
    induction fs with
    | nil =>
      intro pre ctx' L' he hhir hsrc' hpt' hg hfl hd hQ
      simp only [List.append_nil] at he
      subst he
      refine ⟨L', ctx'.pt, ?_, hpt', hg, hfl, hd, hQ⟩
      simp only [presentAndMissing, fixAll]
      rw [← hsrc']
    | cons f fs ih =>
      intro pre ctx' L' he hhir hsrc' hpt' hg hfl hd hQ
      have hget : fns[pre.length]? = some f := by rw [he]; simp
      have he' : fns = (pre ++ [f]) ++ fs := by rw [he]; simp
      have hlen : (pre ++ [f]).length = pre.length + 1 := by simp
      rw [presentAndMissing]
      by_cases hrep : Reported ctx.skipModifiers L f
      · have hnone : findMatchingFn L.contract f = none := by
          rcases findMatchingFn_cases L.contract f with ⟨h, _⟩ | ⟨_, _, _, _, h⟩
          · exact h
          · exact absurd (at_present h) hrep.1
        have hif : (ctx.skipModifiers && f.isModifier) = false := by
          have := hrep.2
          cases hs : ctx.skipModifiers <;> cases ht : f.ty <;> simp_all [HFn.isModifier]
        -- where the function goes
        have hpl : ∃ p, Place fns L' pre.length p := by
          cases hl : pre.length with
          | zero => exact ⟨0, Or.inl ⟨rfl, rfl⟩⟩
          | succ i =>
            have hi : i < pre.length := by omega
            have hg' : fns[i]? = some pre[i] := by rw [he, List.getElem?_append_left hi, List.getElem?_eq_getElem hi]
            have hpres : Present L'.parts pre[i] := by
              rcases hd _ (List.getElem_mem hi) with h | ⟨h1, h2⟩
              · exact h
              · by_cases hp : Present L.parts pre[i]
                · exact grown_present hg hp
                · exact absurd hrep (hm i _ f hg' (by rw [← hl]; exact hget) h1 h2 hp)
            obtain ⟨a, ha⟩ := present_at hpres
            exact ⟨a + 1, Or.inr ⟨i, _, a, rfl, hg', ha, rfl⟩⟩
        obtain ⟨p, hpl⟩ := hpl
        have hg2 : Grown fns L (L'.insert f p) := hg.step (List.mem_of_getElem? hget) (place_le hpl)
        have hfl2 : Filling ctx.skipModifiers fns L (pre ++ [f]).length (L'.insert f p) := by
          rw [hlen]; exact hfl.insert hget hrep hpl
        obtain ⟨u, hfix, hfc⟩ := fix_missing_step (hhir.trans hh) hsrc' hpt' (by rw [(grown_same hg).2.2.1]; exact hb) hpl (hP _ _ hfl2)
        have hi := ih (pre ++ [f]) { ctx' with src := (L'.insert f p).text, pt := u } (L'.insert f p) he' hhir rfl hfc hg2 hfl2
          (by
            intro g hgm
            rcases List.mem_append.1 hgm with h | h
            · rcases hd g h with h | h
              · exact Or.inl (grown_present (fns := fns) (Grown.refl.step (List.mem_of_getElem? hget) (place_le hpl)) h)
              · exact Or.inr h
            · have : g = f := by simpa using h
              subst this
              left
              rw [layout_present, insert_keys _ _ _ (place_le hpl)]
              have hle := place_le hpl
              rw [← keys_length] at hle
              apply List.mem_of_getElem? (i := p)
              rw [List.getElem?_insertIdx]; simp [hle])
          (by rw [hlen]; exact hstep _ _ _ _ hQ hg hget hrep hpl)
        obtain ⟨L'', u', h1, h2, h3, h6, h4, h5⟩ := hi
        refine ⟨L'', u', ?_, h2, h3, h6, h4, h5⟩
        rw [hlen] at h1
        simp only [hnone, hif, Bool.false_eq_true, if_false, fixAll, hfix, Res.bind_ok, h1]
      · have hlist : (presentAndMissing ctx L.contract pre.length (f :: fs)).2 =
            (presentAndMissing ctx L.contract (pre.length + 1) fs).2 := by
          rw [presentAndMissing]
          rcases findMatchingFn_cases L.contract f with ⟨h, hno⟩ | ⟨_, _, h, _, _⟩
          · have : (ctx.skipModifiers && f.isModifier) = true := by
              have : ctx.skipModifiers = true ∧ f.ty = .modifier :=
                Classical.byContradiction fun hc => hrep ⟨hno, hc⟩
              simp [this.1, HFn.isModifier, this.2]
            simp only [h, this, if_true]
          · simp only [h]
        rw [presentAndMissing] at hlist
        rw [hlist]
        have := ih (pre ++ [f]) ctx' L' he' hhir hsrc' hpt' hg (by rw [hlen]; exact hfl.keep hget hrep)
          (by
            intro g hgm
            rcases List.mem_append.1 hgm with h | h
            · exact hd g h
            · have : g = f := by simpa using h
              subst this
              by_cases hp : Present L.parts g
              · exact Or.inl (grown_present hg hp)
              · exact Or.inr (Classical.byContradiction fun hc => hrep ⟨hp, hc⟩))
          (by rw [hlen]; exact hskip _ _ _ hQ hg hget hrep)
        rw [hlen] at this
        exact this
  exact main fns [] ctx L rfl rfl hsrc hpt .refl .start (by simp) h0

theorem inOrder_iff (fns : List HFn) (parts : List SolPart) : InOrder fns parts ↔
    ∀ (i j : Nat) f g, i < j → fns[i]? = some f → fns[j]? = some g → ∀ a b, At parts f a → At parts g b → a ≤ b := by
  unfold InOrder
  rw [List.pairwise_iff_getElem]
  constructor
  · intro h i j f g hij hf hg
    obtain ⟨hi, rfl⟩ := List.getElem?_eq_some_iff.1 hf
    obtain ⟨hj, rfl⟩ := List.getElem?_eq_some_iff.1 hg
    exact h i j hi hj hij
  · intro h i j hi hj hij
    exact h i j _ _ hij (List.getElem?_eq_getElem hi) (List.getElem?_eq_getElem hj)

theorem distinct_key {fns : List HFn} (hd : Distinct fns) {i j : Nat} {f g : HFn} (hf : fns[i]? = some f) (hg : fns[j]? = some g)
    (h : fnKey f = fnKey g) : i = j := by
  unfold Distinct at hd
  rw [List.pairwise_iff_getElem] at hd
  obtain ⟨hi, rfl⟩ := List.getElem?_eq_some_iff.1 hf
  obtain ⟨hj, rfl⟩ := List.getElem?_eq_some_iff.1 hg
  simp only [fnKey, Prod.mk.injEq] at h
  rcases Nat.lt_trichotomy i j with hlt | he | hlt
  · exact absurd ⟨h.2, h.1⟩ (hd i j hi hj hlt)
  · exact he
  · exact absurd ⟨h.2.symm, h.1.symm⟩ (hd j i hj hi hlt)

theorem perm_insertIdx {α : Type} (y : α) : ∀ (l : List α) (k : Nat), k ≤ l.length → (l.insertIdx k y).Perm (y :: l)
  | l, 0, _ => by simp
  | [], k + 1, h => by simp at h
  | b :: l, k + 1, h => by
    rw [List.insertIdx_succ_cons]
    exact ((perm_insertIdx y l k (by simpa using h)).cons b).trans (List.Perm.swap _ _ _)

/-- Positions after an insertion, for keys other than the new one. -/
theorem kat_insert_iff {ks : List (Option (FnTy × Str))} {x : FnTy × Str} {k : Nat} (hk : k ≤ ks.length)
    {y : Option (FnTy × Str)} (hy : y ≠ some x) {b : Nat} (h : KAt (ks.insertIdx k y) x b) :
    ∃ a, KAt ks x a ∧ b = if a < k then a else a + 1 := by
  have hx : some x ∈ ks := by
    have := List.mem_of_getElem? h.1
    have := (perm_insertIdx y ks k hk).mem_iff.1 this
    rcases List.mem_cons.1 this with h | h
    · exact absurd h.symm hy
    · exact h
  have : ∀ (ks : List (Option (FnTy × Str))), some x ∈ ks → ∃ a, KAt ks x a := by
    intro ks
    induction ks with
    | nil => simp
    | cons k ks ih =>
      intro h
      by_cases hk : k = some x
      · exact ⟨0, by simp [hk], by simp⟩
      · obtain ⟨a, h1, h2⟩ := ih (by simpa [Ne.symm hk] using h)
        refine ⟨a + 1, by simpa using h1, ?_⟩
        intro j hj
        cases j with
        | zero => simpa using hk
        | succ j => simpa using h2 j (by omega)
  obtain ⟨a, ha⟩ := this ks hx
  exact ⟨a, ha, kat_unique h (kat_insert_ne ha hk hy)⟩

theorem filled_step_order {fns : List HFn} (hd : Distinct fns) {L : Layout} {k p : Nat} {h : HFn} (hh : fns[k]? = some h)
    (hnew : ¬ Present L.parts h) (hpl : Place fns L k p) (ho : InOrder fns L.parts) : InOrder fns (L.insert h p).parts := by
  have hle := place_le hpl
  have hlk : p ≤ L.keys.length := by rw [keys_length]; exact hle
  rw [layout_present] at hnew
  rw [inOrder_iff] at ho ⊢
  intro i j f g hij hf hg a b ha hb
  rw [layout_at, insert_keys _ _ _ hle] at ha hb
  have hfg : i ≠ j := by omega
  by_cases hik : i = k
  · subst hik
    have e : f = h := by rw [hf] at hh; exact Option.some.inj hh
    subst e
    have ea : a = p := kat_unique ha (kat_insert_new hnew hlk)
    have hne : some (fnKey f) ≠ some (fnKey g) := fun e => hfg (distinct_key hd hf hg (Option.some.inj e))
    obtain ⟨b0, hb0, rfl⟩ := kat_insert_iff hlk hne hb
    subst ea
    rcases hpl with ⟨rfl, rfl⟩ | ⟨i', q, a0, rfl, hq, hqa, rfl⟩
    · exact Nat.zero_le _
    · have h1 := ho i' j q g (by omega) hq hg a0 b0 hqa ((layout_at L g b0).2 hb0)
      have h2 : a0 ≠ b0 := by
        rintro rfl
        have h3 := ((layout_at L q a0).1 hqa).1
        rw [hb0.1] at h3
        have := distinct_key hd hq hg (Option.some.inj (Option.some.inj h3)).symm
        omega
      rw [if_neg (by omega)]; omega
  · have hnf : some (fnKey h) ≠ some (fnKey f) := fun e => hik (distinct_key hd hf hh (Option.some.inj e).symm)
    obtain ⟨a0, ha0, rfl⟩ := kat_insert_iff hlk hnf ha
    by_cases hjk : j = k
    · subst hjk
      have e : g = h := by rw [hg] at hh; exact Option.some.inj hh
      subst e
      have eb : b = p := kat_unique hb (kat_insert_new hnew hlk)
      subst eb
      rcases hpl with ⟨rfl, rfl⟩ | ⟨i', q, a1, rfl, hq, hqa, rfl⟩
      · omega
      · have : a0 ≤ a1 := by
          by_cases hii : i = i'
          · subst hii
            have e : f = q := by rw [hf] at hq; exact Option.some.inj hq
            subst e
            exact Nat.le_of_eq (kat_unique ha0 ((layout_at L f a1).1 hqa))
          · exact ho i i' f q (by omega) hf hq a0 a1 ((layout_at L f a0).2 ha0) hqa
        rw [if_pos (by omega)]; omega
    · have hng : some (fnKey h) ≠ some (fnKey g) := fun e => hjk (distinct_key hd hg hh (Option.some.inj e).symm)
      obtain ⟨b0, hb0, rfl⟩ := kat_insert_iff hlk hng hb
      have := ho i j f g hij hf hg a0 b0 ((layout_at L f a0).2 ha0) ((layout_at L g b0).2 hb0)
      split <;> split <;> omega

theorem filled_step_triple {fns : List HFn} (hd : Distinct fns) {L : Layout} {k p : Nat} {h : HFn} (hh : fns[k]? = some h)
    (hnew : ¬ Present L.parts h) (hpl : Place fns L k p) (ho : NoReversedTriple fns L.parts) :
    NoReversedTriple fns (L.insert h p).parts := by
  have hle := place_le hpl
  have hlk : p ≤ L.keys.length := by rw [keys_length]; exact hle
  rw [layout_present] at hnew
  intro i j m f g q A B C hij hjm hf hg hq hA hB hC hlt
  rw [layout_at, insert_keys _ _ _ hle] at hA hB hC
  have old : ∀ (r : Nat) e x, fns[r]? = some e → r ≠ k → KAt (L.keys.insertIdx p (some (fnKey h))) (fnKey e) x →
      ∃ a, At L.parts e a ∧ x = if a < p then a else a + 1 := by
    intro r e x he hr hx
    have hne : some (fnKey h) ≠ some (fnKey e) := fun e' => hr (distinct_key hd he hh (Option.some.inj e').symm)
    obtain ⟨a, ha, hxa⟩ := kat_insert_iff hlk hne hx
    exact ⟨a, (layout_at L e a).2 ha, hxa⟩
  have new : ∀ e x, fns[k]? = some e → KAt (L.keys.insertIdx p (some (fnKey h))) (fnKey e) x → x = p := by
    intro e x he hx
    rw [hh] at he
    have := Option.some.inj he
    subst this
    exact kat_unique hx (kat_insert_new hnew hlk)
  have diff : ∀ (r r' : Nat) e e' a, fns[r]? = some e → fns[r']? = some e' → At L.parts e a → At L.parts e' a → r = r' := by
    intro r r' e e' a h1 h2 h3 h4
    have h3 := ((layout_at L e a).1 h3).1
    rw [((layout_at L e' a).1 h4).1] at h3
    exact distinct_key hd h1 h2 (Option.some.inj (Option.some.inj h3)).symm
  by_cases hk0 : k = 0
  · rcases hpl with ⟨_, rfl⟩ | ⟨i', e, a, rfl, _⟩
    · by_cases hi : i = k
      · subst hi
        have := new f A hf hA
        omega
      · obtain ⟨a, ha, rfl⟩ := old i f A hf hi hA
        obtain ⟨b, hb, rfl⟩ := old j g B hg (by omega) hB
        obtain ⟨c, hc, rfl⟩ := old m q C hq (by omega) hC
        simp only [Nat.not_lt_zero, if_false] at hlt
        exact ho i j m f g q a b c hij hjm hf hg hq ha hb hc (by omega)
    · omega
  obtain ⟨i', e, a, hki, he, hea, hpa⟩ : ∃ i' q a, k = i' + 1 ∧ fns[i']? = some q ∧ At L.parts q a ∧ p = a + 1 := by
    rcases hpl with ⟨h0, _⟩ | h
    · omega
    · exact h
  by_cases hi : i = k
  · subst hi
    have hAp := new f A hf hA
    obtain ⟨b, hb, hB'⟩ := old j g B hg (by omega) hB
    obtain ⟨c, hc, hC'⟩ := old m q C hq (by omega) hC
    have hba : b ≠ a := fun e' => by
      have := diff i' j e g a he hg hea (e' ▸ hb)
      omega
    refine ho i' j m e g q a b c (by omega) hjm he hg hq hea hb hc ⟨?_, ?_⟩
    · split at hB' <;> split at hC' <;> omega
    · split at hB' <;> omega
  · obtain ⟨a0, ha0, hA'⟩ := old i f A hf hi hA
    by_cases hj : j = k
    · subst hj
      have hBp := new g B hg hB
      obtain ⟨c, hc, hC'⟩ := old m q C hq (by omega) hC
      have hca : c ≠ a := fun e' => by
        have := diff i' m e q a he hq hea (e' ▸ hc)
        omega
      have haa : a0 > a := by split at hA' <;> omega
      have hii : i ≠ i' := by
        rintro rfl
        rw [hf] at he
        have := Option.some.inj he
        subst this
        have := at_unique ha0 hea
        omega
      refine ho i i' m f e q a0 a c (by omega) (by omega) hf he hq ha0 hea hc ⟨?_, haa⟩
      split at hC' <;> omega
    · obtain ⟨b, hb, hB'⟩ := old j g B hg hj hB
      have hab : b < a0 := by split at hA' <;> split at hB' <;> omega
      by_cases hm : m = k
      · subst hm
        have hCp := new q C hq hC
        have hba : b > a := by split at hB' <;> omega
        have hji : j ≠ i' := by
          rintro rfl
          rw [hg] at he
          have := Option.some.inj he
          subst this
          have := at_unique hb hea
          omega
        exact ho i j i' f g e a0 b a hij (by omega) hf hg he ha0 hb hea ⟨hba, hab⟩
      · obtain ⟨c, hc, hC'⟩ := old m q C hq hm hC
        refine ho i j m f g q a0 b c hij hjm hf hg hq ha0 hb hc ⟨?_, hab⟩
        split at hB' <;> split at hC' <;> omega

/-- The invariant of the insertions. -/
structure FillInv (skip : Bool) (fns : List HFn) (L : Layout) (k : Nat) (L' : Layout) : Prop where
  only : (L'.segs.map Prod.fst).Perm (L.segs.map Prod.fst ++ ((fns.take k).filter (fun f => decide (Reported skip L f))).map newSeg)
  placed : Distinct fns → ∀ i f, i < k → fns[i]? = some f → Reported skip L f →
    (i = 0 → At L'.parts f 0) ∧ ∀ j g, i = j + 1 → fns[j]? = some g → ∃ a, At L'.parts g a ∧ At L'.parts f (a + 1)
  order : Distinct fns → InOrder fns L.parts → InOrder fns L'.parts
  triple : Distinct fns → NoReversedTriple fns L.parts → NoReversedTriple fns L'.parts

theorem fillInv_new {skip : Bool} {fns : List HFn} {L L' : Layout} {k : Nat} (h : FillInv skip fns L k L') (hd : Distinct fns)
    {f : HFn} (hf : fns[k]? = some f) (hr : Reported skip L f) : ¬ Present L'.parts f := by
  intro hp
  rw [layout_present] at hp
  have : some (fnKey f) ∈ (L'.segs.map Prod.fst).map Seg.key := by
    simpa [Layout.keys, Function.comp_def] using hp
  obtain ⟨s, hs, hk⟩ := List.mem_map.1 this
  rcases List.mem_append.1 (h.only.mem_iff.1 hs) with h1 | h1
  · apply hr.1
    rw [layout_present]
    have : some (fnKey f) ∈ (L.segs.map Prod.fst).map Seg.key := List.mem_map.2 ⟨s, h1, hk⟩
    simpa [Layout.keys, Function.comp_def] using this
  · obtain ⟨g, hg, rfl⟩ := List.mem_map.1 h1
    have hg' := (List.mem_filter.1 hg).1
    obtain ⟨j, hj⟩ := List.mem_iff_getElem?.1 hg'
    rw [List.getElem?_take] at hj
    split at hj
    · rename_i hlt
      rw [key_newSeg] at hk
      have := distinct_key hd hj hf (Option.some.inj hk)
      omega
    · cases hj

theorem fillInv_step {skip : Bool} {fns : List HFn} {L L' : Layout} {k : Nat} (h : FillInv skip fns L k L')
    {f : HFn} {p : Nat} (hf : fns[k]? = some f) (hr : Reported skip L f) (hpl : Place fns L' k p) :
    FillInv skip fns L (k + 1) (L'.insert f p) := by
  have hle := place_le hpl
  have hlk : p ≤ L'.keys.length := by rw [keys_length]; exact hle
  refine ⟨?_, ?_, ?_, ?_⟩
  · rw [insert_map _ _ _ hle, List.take_add_one, hf]
    refine (perm_insertIdx _ _ _ (by simpa using hle)).trans ?_
    simp only [Option.toList_some, List.filter_append, List.map_append]
    have e : List.filter (fun f => decide (Reported skip L f)) [f] = [f] := by simp [hr]
    rw [e, ← List.append_assoc]
    exact (h.only.cons _).trans (List.perm_append_singleton _ _).symm
  · intro hd i g hi hg hrg
    have hnew := fillInv_new h hd hf hr
    rw [layout_present] at hnew
    by_cases hik : i = k
    · subst hik
      have e : g = f := by rw [hf] at hg; exact (Option.some.inj hg).symm
      subst e
      have hat : At (L'.insert g p).parts g p := by
        rw [layout_at, insert_keys _ _ _ hle]; exact kat_insert_new hnew hlk
      rcases hpl with ⟨rfl, rfl⟩ | ⟨j, q, a, rfl, hq, hqa, rfl⟩
      · exact ⟨fun _ => hat, fun j _ h => by omega⟩
      · refine ⟨fun h => by omega, ?_⟩
        intro j' q' hj hq'
        have : j = j' := by omega
        subst this
        rw [hq] at hq'
        have := Option.some.inj hq'
        subst this
        refine ⟨a, ?_, hat⟩
        rw [layout_at, insert_keys _ _ _ hle]
        have := kat_insert_ne ((layout_at L' q a).1 hqa) hlk (y := some (fnKey g)) (fun e => by
          have := distinct_key hd hg hq (Option.some.inj e)
          omega)
        rwa [if_pos (by omega)] at this
    · have hik : i < k := by omega
      obtain ⟨h1, h2⟩ := h.placed hd i g hik hg hrg
      have hne : ∀ j q, fns[j]? = some q → j ≠ k → some (fnKey f) ≠ some (fnKey q) := fun j q hq hj e =>
        hj (distinct_key hd hq hf (Option.some.inj e).symm)
      obtain ⟨i', q, a, hk, hq, hqa, hp⟩ : ∃ i' q a, k = i' + 1 ∧ fns[i']? = some q ∧ At L'.parts q a ∧ p = a + 1 := by
        rcases hpl with ⟨rfl, _⟩ | h
        · omega
        · exact h
      constructor
      · intro h0
        have := kat_insert_ne ((layout_at L' g 0).1 (h1 h0)) hlk (hne i g hg (by omega))
        rw [if_pos (by omega)] at this
        rw [layout_at, insert_keys _ _ _ hle]; exact this
      · intro j q' hj hq'
        obtain ⟨b, hb1, hb2⟩ := h2 j q' hj hq'
        have k1 := kat_insert_ne ((layout_at L' q' b).1 hb1) hlk (hne j q' hq' (by omega))
        have k2 := kat_insert_ne ((layout_at L' g (b + 1)).1 hb2) hlk (hne i g hg (by omega))
        have hab : a ≠ b := by
          rintro rfl
          have h3 := ((layout_at L' q a).1 hqa).1
          rw [((layout_at L' q' a).1 hb1).1] at h3
          have := distinct_key hd hq' hq (Option.some.inj (Option.some.inj h3))
          omega
        simp only [layout_at, insert_keys _ _ _ hle]
        by_cases hbp : b < p
        · rw [if_pos hbp] at k1
          rw [if_pos (by omega)] at k2
          exact ⟨b, k1, k2⟩
        · rw [if_neg hbp] at k1
          rw [if_neg (by omega)] at k2
          exact ⟨b + 1, k1, k2⟩
  · intro hd ho
    exact filled_step_order hd hf (fillInv_new h hd hf hr) hpl (h.order hd ho)
  · intro hd ho
    exact filled_step_triple hd hf (fillInv_new h hd hf hr) hpl (h.triple hd ho)

theorem fillInv_skip {skip : Bool} {fns : List HFn} {L L' : Layout} {k : Nat} (h : FillInv skip fns L k L')
    {f : HFn} (hf : fns[k]? = some f) (hr : ¬ Reported skip L f) : FillInv skip fns L (k + 1) L' := by
  refine ⟨?_, ?_, h.order, h.triple⟩
  · rw [List.take_add_one, hf]
    simpa [hr] using h.only
  · intro hd i g hi hg hrg
    by_cases hik : i = k
    · subst hik
      rw [hf] at hg
      exact absurd (Option.some.inj hg ▸ hrg) hr
    · exact h.placed hd i g (by omega) hg hrg

end Bulloak
