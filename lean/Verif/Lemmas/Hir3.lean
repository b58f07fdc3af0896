import Verif.Lemmas.Hir2
/-! # Lemmas about generated names -/

set_option linter.unusedSectionVars false

namespace Bulloak
open Spec

section
variable [U : Ucd]

theorem sanitize_sub {s : Str} {c : Char} (h : c ∈ sanitize s) : c ∈ s ∨ c = '_' := by
  simp only [sanitize, List.mem_filter, List.mem_map] at h
  obtain ⟨⟨d, hd, he⟩, _⟩ := h
  split at he
  · exact Or.inr he.symm
  · exact Or.inl (he ▸ hd)

theorem capital_closed {P : Char → Prop} (hu : ∀ c, P c → ∀ d ∈ U.toUpper c, P d) {w : Str} (h : ∀ c ∈ w, P c) :
    ∀ c ∈ capital w, P c := by
  cases w with
  | nil => exact h
  | cons x w =>
    intro c hc
    rcases List.mem_append.1 hc with hc | hc
    · exact hu x (h x (by simp)) c hc
    · exact h c (by simp [hc])

theorem glue_closed {P : Char → Prop} (hu : ∀ c, P c → ∀ d ∈ U.toUpper c, P d) {ws : List Str} (h : ∀ w ∈ ws, ∀ c ∈ w, P c) :
    ∀ c ∈ glue ws, P c := by
  intro c hc
  simp only [glue, List.mem_flatten, List.mem_map] at hc
  obtain ⟨_, ⟨w, hw, rfl⟩, hc⟩ := hc
  exact capital_closed hu (h w hw) c hc

theorem splitWs_mem {s w : Str} (h : w ∈ splitWs s) : w ≠ [] ∧ ∀ c ∈ w, c ∈ s ∧ isWs c = false :=
  words_mem (words_splitWs s) w h

theorem testName_closed {P : Char → Prop} (hu : ∀ c, P c → ∀ d ∈ U.toUpper c, P d) {c : Ast}
    (h : ∀ w ∈ splitWs (titleOf c), ∀ x ∈ w, P x) (ht : ∀ x ∈ c!"test_Revert", P x) : ∀ x ∈ testName c, P x := by
  intro x hx
  unfold testName at hx
  split at hx
  · simp at hx
  · rename_i kw ws he
    rw [he] at h
    have h1 := capital_closed hu (h kw (by simp))
    have h2 := glue_closed hu (ws := ws) (fun w hw => h w (by simp [hw]))
    have h3 := glue_closed hu h
    split at hx
    · simp only [List.mem_append] at hx
      rcases hx with ((hx | hx) | hx) | hx
      · exact ht x hx
      · exact h1 x hx
      · simp at hx; subst hx; exact ht _ (by decide)
      · exact h2 x hx
    · simp only [List.mem_append] at hx
      rcases hx with hx | hx
      · exact ht x (List.mem_append.2 (Or.inl hx : x ∈ c!"test_" ∨ x ∈ c!"Revert"))
      · exact h3 x hx

theorem modName_closed {P : Char → Prop} (hu : ∀ c, P c → ∀ d ∈ U.toUpper c, P d) (hl : ∀ c, P c → ∀ d ∈ U.toLower c, P d) {c : Ast}
    (h : ∀ w ∈ splitWs (titleOf c), ∀ x ∈ w, P x) : ∀ x ∈ modName c, P x := by
  have hp : ∀ x ∈ pascal (titleOf c), P x := glue_closed hu h
  intro x hx
  simp only [modName, camel] at hx
  cases hpas : pascal (titleOf c) with
  | nil => rw [hpas] at hx; simp at hx
  | cons d r =>
    rw [hpas] at hx hp
    rcases List.mem_append.1 hx with hx | hx
    · exact hl d (hp d (by simp)) x hx
    · exact hp x (by simp [hx])

theorem condTitle_xid [LawfulUcd] {t : Str} (h : CondTitle t) : ∀ w ∈ splitWs t, ∀ x ∈ w, U.isXid x = true := by
  obtain ⟨_, _, _, _, hs⟩ := h
  intro w hw x hx
  obtain ⟨h1, h2⟩ := (splitWs_mem hw).2 x hx
  rw [← hs] at h1
  rcases sanitize_mem h1 with h | h
  · exact h
  · subst h; exact absurd h2 (by decide)

theorem letter_alnum {c : Char} (h : 65 ≤ c.toNat ∧ c.toNat ≤ 122 ∧ isAsciiAlnum c = true) : IsLetter c := by
  obtain ⟨h1, h2, h3⟩ := h
  simp only [isAsciiAlnum, Bool.or_eq_true, Bool.and_eq_true, decide_eq_true_eq] at h3
  unfold IsLetter; omega

theorem asciiUpper_cases (c : Char) : ((97 ≤ c.toNat ∧ c.toNat ≤ 122) ∧ (asciiUpper c).toNat = c.toNat - 32) ∨
    (¬ (97 ≤ c.toNat ∧ c.toNat ≤ 122) ∧ asciiUpper c = c) := by
  by_cases hc : 97 ≤ c.toNat ∧ c.toNat ≤ 122
  · left
    refine ⟨hc, ?_⟩
    simp only [asciiUpper, hc.1, hc.2, decide_true, Bool.and_self, if_true]
    exact toNat_ofNat_of_lt (by omega)
  · right
    refine ⟨hc, ?_⟩
    simp only [asciiUpper]
    rw [if_neg (by simpa using hc)]

theorem asciiLower_cases (c : Char) : ((65 ≤ c.toNat ∧ c.toNat ≤ 90) ∧ (asciiLower c).toNat = c.toNat + 32) ∨
    (¬ (65 ≤ c.toNat ∧ c.toNat ≤ 90) ∧ asciiLower c = c) := by
  by_cases hc : 65 ≤ c.toNat ∧ c.toNat ≤ 90
  · left
    refine ⟨hc, ?_⟩
    simp only [asciiLower, hc.1, hc.2, decide_true, Bool.and_self, if_true]
    exact toNat_ofNat_of_lt (by omega)
  · right
    refine ⟨hc, ?_⟩
    simp only [asciiLower]
    rw [if_neg (by simpa using hc)]

theorem letter_upper {c : Char} (h : IsLetter c) : IsLetter (asciiUpper c) := by
  unfold IsLetter at *
  rcases asciiUpper_cases c with ⟨h1, h2⟩ | ⟨h1, h2⟩
  · rw [h2]; omega
  · rw [h2]; omega

theorem letter_lower {c : Char} (h : IsLetter c) : IsLetter (asciiLower c) := by
  unfold IsLetter at *
  rcases asciiLower_cases c with ⟨h1, h2⟩ | ⟨h1, h2⟩
  · rw [h2]; omega
  · rw [h2]; omega

theorem letter_plain {c : Char} (h : IsLetter c) : isPlain c = true := by
  unfold IsLetter at h
  have : c.toNat < 128 := by omega
  simp [isPlain, this]

theorem plain_upper_closed [LawfulUcd] : ∀ c, isPlain c = true → ∀ d ∈ U.toUpper c, isPlain d = true := by
  intro c hc d hd
  rw [LawfulUcd.plain_upper c hc, List.mem_singleton] at hd
  subst hd
  rcases asciiUpper_cases c with ⟨h1, h2⟩ | ⟨h1, h2⟩
  · have : (asciiUpper c).toNat < 128 := by omega
    simp [isPlain, this]
  · rw [h2]; exact hc

theorem plain_lower_closed [LawfulUcd] : ∀ c, isPlain c = true → ∀ d ∈ U.toLower c, isPlain d = true := by
  intro c hc d hd
  rw [LawfulUcd.plain_lower c hc, List.mem_singleton] at hd
  subst hd
  rcases asciiLower_cases c with ⟨h1, h2⟩ | ⟨h1, h2⟩
  · have : (asciiLower c).toNat < 128 := by omega
    simp [isPlain, this]
  · rw [h2]; exact hc

theorem camel_start [LawfulUcd] {t : Str} (h : CondTitle t) : ∃ c r, camel t = c :: r ∧ IsLetter c := by
  obtain ⟨kw, rest, hk, rfl, hw⟩ := condTitle_words h
  obtain ⟨hne, hc⟩ := condWord_chars hk
  cases kw with
  | nil => exact absurd rfl hne
  | cons x r =>
    have hl := letter_alnum (hc x (by simp))
    refine ⟨asciiLower (asciiUpper x), r ++ glue (splitWs rest), ?_, letter_lower (letter_upper hl)⟩
    have hp : pascal (x :: r ++ ' ' :: rest) = asciiUpper x :: (r ++ glue (splitWs rest)) := by
      rw [pascal, hw]
      simp [glue, capital, LawfulUcd.plain_upper x (letter_plain hl)]
    rw [camel, hp]
    simp [LawfulUcd.plain_lower _ (letter_plain (letter_upper hl))]

theorem xid_test [LawfulUcd] : ∀ x ∈ c!"test_Revert", U.isXid x = true := by
  intro x hx
  rw [LawfulUcd.plain_xid x]
  · revert x; decide
  · revert x; decide

theorem plain_test : ∀ x ∈ c!"test_Revert", isPlain x = true := by decide

/-- The name of the test of a top-level action. -/
def actName (a : Ast) : Str := c!"test_" ++ sanitize (glue ((splitWs (titleOf a)).drop 1))

theorem actName_xid [LawfulUcd] (a : Ast) : ∀ x ∈ actName a, U.isXid x = true := by
  intro x hx
  rcases List.mem_append.1 hx with hx | hx
  · exact xid_test x (List.mem_append.2 (Or.inl hx : x ∈ c!"test_" ∨ x ∈ c!"Revert"))
  · rcases sanitize_mem hx with h | h
    · exact h
    · subst h
      rcases sanitize_sub hx with h | h
      · have hsp : ∀ x ∈ glue ((splitWs (titleOf a)).drop 1), x ≠ ' ' := by
          apply glue_closed
          · intro c hc d hd he
            subst he
            exact hc (LawfulUcd.upper_ws c _ hd (by decide)).symm
          · intro w hw c hc he
            subst he
            have := ((splitWs_mem (List.mem_of_mem_drop hw)).2 _ hc).2
            exact absurd this (by decide)
        exact absurd rfl (hsp _ h)
      · exact absurd h (by decide)

theorem actName_plain [LawfulUcd] {a : Ast} (h : ∀ c ∈ titleOf a, isPlain c = true) : ∀ x ∈ actName a, isPlain x = true := by
  intro x hx
  rcases List.mem_append.1 hx with hx | hx
  · exact plain_test x (List.mem_append.2 (Or.inl hx : x ∈ c!"test_" ∨ x ∈ c!"Revert"))
  · rcases sanitize_sub hx with hx | hx
    · refine glue_closed plain_upper_closed ?_ x hx
      intro w hw c hc
      exact h c ((splitWs_mem (List.mem_of_mem_drop hw)).2 c hc).1
    · subst hx; decide

theorem xidIdent_of {s : Str} (h : ∀ x ∈ s, U.isXid x = true) (hs : ∃ c r, s = c :: r ∧ IsLetter c) : XidIdent s := by
  obtain ⟨c, r, rfl, hc⟩ := hs
  exact ⟨c, r, rfl, hc, fun d hd => h d (by simp [hd])⟩

theorem solIdent_of [LawfulUcd] {s : Str} (h : XidIdent s) (hp : ∀ c ∈ s, isPlain c = true) : SolIdent s := by
  obtain ⟨c, r, rfl, hc, hr⟩ := h
  refine ⟨c, r, rfl, Or.inl hc, ?_⟩
  intro d hd
  have := hr d hd
  rw [LawfulUcd.plain_xid d (hp d (by simp [hd]))] at this
  rcases Bool.or_eq_true_iff.1 this with h | h
  · exact Or.inl h
  · exact Or.inr (Or.inl (by simpa using h))

theorem testName_start [LawfulUcd] {c : Ast} (h : CondTitle (titleOf c)) : ∃ r, testName c = 't' :: r := by
  obtain ⟨kw, rest, hk, _, hw⟩ := condTitle_words h
  unfold testName
  rw [hw]
  simp only
  split
  · exact ⟨_, rfl⟩
  · exact ⟨_, rfl⟩

/-- All names generated for a tree are identifiers. -/
theorem expected_names [LawfulUcd] {cs : List Ast} (h : ∀ c ∈ cs, GoodItem c) {skip : Bool} {f : HFn} (hf : f ∈ expected skip cs) :
    XidIdent f.identifier ∧ ((∀ a ∈ preAll cs, ∀ c ∈ titleOf a, isPlain c = true) → SolIdent f.identifier) := by
  have ht : IsLetter 't' := by unfold IsLetter; decide
  suffices XidIdent f.identifier ∧ ((∀ a ∈ preAll cs, ∀ c ∈ titleOf a, isPlain c = true) → ∀ c ∈ f.identifier, isPlain c = true) from
    ⟨this.1, fun hp => solIdent_of this.1 (this.2 hp)⟩
  rcases mem_expected.1 hf with ⟨a, ha, _, rfl⟩ | ⟨⟨p, c⟩, hp, hf⟩
  · refine ⟨xidIdent_of (actName_xid a) ⟨'t', _, rfl, ht⟩, fun hp => ?_⟩
    exact actName_plain (hp a (mem_preAll ha))
  · have hc := path_mem ((mem_inScopeAll h p c).1 hp)
    have hg := (good_mem h c hc).1
    have hpl : (∀ a ∈ preAll cs, ∀ c ∈ titleOf a, isPlain c = true) → ∀ w ∈ splitWs (titleOf c), ∀ x ∈ w, isPlain x = true := by
      intro hp w hw x hx
      exact hp c (List.mem_filter.1 hc).1 x ((splitWs_mem hw).2 x hx).1
    rcases mem_condFns.1 hf with ⟨_, rfl⟩ | ⟨_, rfl⟩
    · refine ⟨xidIdent_of (modName_closed LawfulUcd.upper_xid LawfulUcd.lower_xid (condTitle_xid hg)) (camel_start hg), fun hp => ?_⟩
      exact modName_closed plain_upper_closed plain_lower_closed (hpl hp)
    · obtain ⟨r, hr⟩ := testName_start hg
      refine ⟨xidIdent_of (testName_closed LawfulUcd.upper_xid (condTitle_xid hg) xid_test) ⟨'t', r, hr, ht⟩, fun hp => ?_⟩
      exact testName_closed plain_upper_closed (hpl hp) plain_test

/-! ## Characters of titles -/

theorem joinSep_mem {P : Char → Prop} (hs : P ' ') {ws : List Str} (h : ∀ w ∈ ws, ∀ c ∈ w, P c) : ∀ c ∈ joinSep c!" " ws, P c := by
  induction ws with
  | nil => simp [joinSep]
  | cons w ws ih =>
    cases ws with
    | nil => simpa [joinSep] using h w (by simp)
    | cons v ws =>
      intro c hc
      rw [joinSep] at hc
      simp only [List.mem_append] at hc
      rcases hc with (hc | hc) | hc
      · exact h w (by simp) c hc
      · simp at hc; subst hc; exact hs
      · exact ih (fun w hw => h w (by simp [hw])) c hc

/-- A property of all characters of the source words (and of space and underscore) holds of all
characters of titles. -/
theorem titles_chars {order : HashOrder} {text : Str} {ast : Ast} (h : parseOne order text = .ok ast) {P : Char → Prop}
    (hs : P ' ') (hu : P '_') (hP : ∀ toks, tokenize text = .ok toks → ∀ t ∈ toks, ∀ c ∈ t.lexeme, P c) :
    (∀ c ∈ titleOf ast, P c) ∧ ∀ a ∈ preAll (kids ast), ∀ c ∈ titleOf a, P c := by
  obtain ⟨toks, root, hs', ht, rfl, _, _, ⟨s, cs, rfl, _⟩, he⟩ := C08_words_preserved h
  have hP := hP _ ht
  refine ⟨hP root (by simp), ?_⟩
  intro a ha
  obtain ⟨hdr, hm, hst⟩ := each_mem he ha
  have hti : ∀ c ∈ hdr.title, P c := by
    apply joinSep_mem hs
    intro w hw
    obtain ⟨t, htm, rfl⟩ := List.mem_map.1 hw
    refine hP t ?_
    simp only [flat, List.mem_cons, List.mem_flatMap]
    exact Or.inr ⟨hdr, hm, by simp only [Header.toks, Header.words] at htm ⊢; exact List.mem_cons_of_mem _ htm⟩
  intro c hc
  cases a with
  | condition s t ks =>
    obtain ⟨_, _, _, rfl⟩ := hst
    rcases sanitize_sub hc with hc | hc
    · exact hti c hc
    · subst hc; exact hu
  | action s t ks =>
    obtain ⟨_, _, rfl⟩ := hst
    exact hti c hc
  | description s t =>
    obtain ⟨_, _, n, rfl⟩ := hst
    rcases List.mem_append.1 hc with hc | hc
    · rw [List.eq_of_mem_replicate hc]; exact hs
    · exact hti c hc
  | root s t ks => exact hst.2.elim

/-! ## Uniqueness -/

theorem capital_kw [LawfulUcd] {kw : Str} (h : IsConditionWord kw) : ∃ c r, capital kw = c :: r ∧ (c = 'W' ∨ c = 'G') ∧
    (c = 'W' → kw.length = 4) ∧ (c = 'G' → kw.length = 5) ∧ (capital kw).length = kw.length := by
  obtain ⟨hne, hc⟩ := condWord_chars h
  cases kw with
  | nil => exact absurd rfl hne
  | cons x r =>
    have hl := letter_alnum (hc x (by simp))
    have hcap : capital (x :: r) = asciiUpper x :: r := by
      rw [capital, LawfulUcd.plain_upper x (letter_plain hl)]; rfl
    refine ⟨asciiUpper x, r, hcap, ?_, ?_, ?_, by rw [hcap]; simp⟩
    all_goals rcases h with h | h
    all_goals
      unfold IsKeyword at h
      rw [List.map_cons] at h
      simp only [List.cons.injEq] at h
      have hlen := congrArg List.length h.2
      simp only [List.length_map, List.length_cons, List.length_nil] at hlen
      have hn := congrArg Char.toNat h.1
      have hup : (asciiUpper x).toNat = (if x.toNat ≥ 97 then x.toNat - 32 else x.toNat) := by
        unfold IsLetter at hl
        rcases asciiUpper_cases x with ⟨h1, h2⟩ | ⟨h1, h2⟩
        · rw [h2, if_pos h1.1]
        · rw [h2, if_neg (by omega)]
      have hlo : (asciiLower x).toNat = (if x.toNat ≤ 90 then x.toNat + 32 else x.toNat) := by
        unfold IsLetter at hl
        rcases asciiLower_cases x with ⟨h1, h2⟩ | ⟨h1, h2⟩
        · rw [h2, if_pos h1.2]
        · rw [h2, if_neg (by omega)]
      rw [hlo] at hn
      unfold IsLetter at hl
      simp only [show ('w' : Char).toNat = 119 from rfl, show ('g' : Char).toNat = 103 from rfl] at hn
    · left
      apply Char.toNat_inj.1
      rw [hup]
      simp only [show ('W' : Char).toNat = 87 from rfl]
      split at hn <;> split <;> omega
    · right
      apply Char.toNat_inj.1
      rw [hup]
      simp only [show ('G' : Char).toNat = 71 from rfl]
      split at hn <;> split <;> omega
    · intro _; simp [hlen]
    · intro he
      have := congrArg Char.toNat he
      rw [hup] at this
      simp only [show ('W' : Char).toNat = 87 from rfl] at this
      split at hn <;> split at this <;> omega
    · intro he
      have := congrArg Char.toNat he
      rw [hup] at this
      simp only [show ('G' : Char).toNat = 71 from rfl] at this
      split at hn <;> split at this <;> omega
    · intro _; simp [hlen]

/-- The name of the test determines the modifier name. -/
theorem testName_inj [LawfulUcd] {c d : Ast} (hc : CondTitle (titleOf c)) (hd : CondTitle (titleOf d))
    (h : testName c = testName d) : modName c = modName d := by
  obtain ⟨kw, rest, hk, _, hw⟩ := condTitle_words hc
  obtain ⟨kw', rest', hk', _, hw'⟩ := condTitle_words hd
  obtain ⟨x, r, h1, h2, h3, h4, h5⟩ := capital_kw hk
  obtain ⟨x', r', h1', h2', h3', h4', h5'⟩ := capital_kw hk'
  suffices pascal (titleOf c) = pascal (titleOf d) by simp only [modName, camel, this]
  unfold testName at h
  rw [hw, hw'] at h
  simp only at h
  rw [pascal, pascal, hw, hw']
  have hR : ('R' : Char) ≠ 'W' ∧ ('R' : Char) ≠ 'G' := by decide
  by_cases rc : reverts c = true <;> by_cases rd : reverts d = true
  · simp only [rc, rd, if_true, List.append_assoc, List.append_cancel_left_eq] at h
    have hx : x = x' := by
      rw [h1, h1'] at h
      simp at h; exact h.1
    have hlen : (capital kw).length = (capital kw').length := by
      rw [h5, h5']
      rcases h2 with e | e
      · rw [h3 e, h3' (hx ▸ e)]
      · rw [h4 e, h4' (hx ▸ e)]
    obtain ⟨e1, e2⟩ := List.append_inj h hlen
    simp at e2
    simp [glue] at e2 ⊢
    rw [e1, e2]
  · simp [rc, rd, glue, h1'] at h
    rcases h2' with e | e <;> simp [e] at h
  · simp [rc, rd, glue, h1] at h
    rcases h2 with e | e <;> simp [e] at h
  · simpa [rc, rd] using h

theorem testNames_nodup [LawfulUcd] {cs : List Ast} (h : ∀ c ∈ cs, GoodItem c) (hd : ((named cs).map identOf).Nodup) :
    ((conditionsOf cs).map testName).Nodup := by
  have h1 := modNames_nodup h hd
  rw [List.Nodup, List.pairwise_map] at h1 ⊢
  refine List.Pairwise.imp_of_mem ?_ h1
  intro a b ha hb hne he
  exact hne (testName_inj (good_mem h a ha).1 (good_mem h b hb).1 he)

end
end Bulloak
