import Verif.Lemmas.Sol
/-! # Accepted files have well-behaved names and comments -/

set_option linter.unusedSectionVars false

namespace Bulloak
open Spec

section
variable [U : Ucd]

theorem lexes_word_chars {text : Str} {ps : List Piece} (h : Lexes text ps) : ∀ w, Piece.word w ∈ ps →
    ∃ c s, w = c :: s ∧ ¬ IsSkip c ∧ ¬ IsBreak c ∧ NoWs s := by
  induction h with
  | nil => intro w hw; simp at hw
  | word hs hd _ _ ih =>
    intro w hw
    rcases List.mem_cons.1 hw with hw | hw
    · cases hw; exact ⟨_, _, rfl, hs.1, hs.2.1, hd⟩
    · exact ih w hw
  | skip _ _ ih => intro w hw; exact ih w (by simpa using hw)
  | brk _ _ ih => intro w hw; exact ih w (by simpa using hw)
  | tee _ ih => intro w hw; exact ih w (by simpa using hw)
  | corner _ ih => intro w hw; exact ih w (by simpa using hw)
  | comment _ _ _ ih => intro w hw; exact ih w (by simpa using hw)

theorem tokensOf_lexeme (ps : List Piece) : ∀ pre, ∀ t ∈ tokensOf pre ps,
    t.lexeme = c!"├" ∨ t.lexeme = c!"└" ∨ Piece.word t.lexeme ∈ ps := by
  induction ps with
  | nil => intro pre t ht; simp [tokensOf] at ht
  | cons p ps ih =>
    intro pre t ht
    cases p with
    | tee =>
      rw [tokensOf] at ht
      rcases List.mem_cons.1 ht with rfl | ht
      · exact Or.inl rfl
      · rcases ih _ t ht with h | h | h <;> simp [h]
    | corner =>
      rw [tokensOf] at ht
      rcases List.mem_cons.1 ht with rfl | ht
      · exact Or.inr (Or.inl rfl)
      · rcases ih _ t ht with h | h | h <;> simp [h]
    | word w =>
      rw [tokensOf] at ht
      rcases List.mem_cons.1 ht with rfl | ht
      · simp
      · rcases ih _ t ht with h | h | h <;> simp [h]
    | _ =>
      rw [tokensOf] at ht
      rcases ih _ t ht with h | h | h <;> simp [h]

/-- The characters of a token. -/
theorem token_chars [LawfulUcd] {text : Str} {toks : List Token} (h : tokenize text = .ok toks) : ∀ t ∈ toks,
    ∃ c s, t.lexeme = c :: s ∧ (c ≠ ' ' ∧ c ≠ '\n' ∧ c ≠ '\r' ∧ c ≠ '\t') ∧ NoWs s := by
  intro t ht
  obtain ⟨ps, hl⟩ := lexes_exists text
  rw [tokenize_ok_tokensOf hl h] at ht
  rcases tokensOf_lexeme ps [] t ht with h | h | h
  · exact ⟨_, [], h, by decide, by intro c hc; simp at hc⟩
  · exact ⟨_, [], h, by decide, by intro c hc; simp at hc⟩
  · obtain ⟨c, s, h1, h2, h3, h4⟩ := lexes_word_chars hl _ h
    simp only [IsSkip, IsBreak, not_or] at h2 h3
    exact ⟨c, s, h1, ⟨h2.1, h3.1, h3.2.2, h3.2.1⟩, h4⟩

/-- No line feed, no carriage return, no tabulator in the titles of an accepted tree. -/
theorem accepted_lines [LawfulUcd] {order : HashOrder} {a : Ast} (h : Accepted order a) :
    ∀ b ∈ preAll (kids a), ∀ c ∈ titleOf b, c ≠ '\n' ∧ c ≠ '\r' ∧ c ≠ '\t' := by
  obtain ⟨text, h⟩ := h
  refine (titles_chars h (P := fun c => c ≠ '\n' ∧ c ≠ '\r' ∧ c ≠ '\t') (by decide) (by decide) ?_).2
  intro toks ht t htm c hc
  obtain ⟨x, s, hx, ⟨_, h2, h3, h4⟩, hs⟩ := token_chars ht t htm
  rw [hx] at hc
  rcases List.mem_cons.1 hc with rfl | hc
  · exact ⟨h2, h3, h4⟩
  · have := hs c hc
    refine ⟨?_, ?_, ?_⟩ <;> (rintro rfl; exact absurd this (by decide))

theorem accepted_root [LawfulUcd] {order : HashOrder} {a : Ast} (h : Accepted order a) :
    ∃ c s, titleOf a = c :: s ∧ (c ≠ ' ' ∧ c ≠ '\n' ∧ c ≠ '\r' ∧ c ≠ '\t') ∧ NoWs s := by
  obtain ⟨text, h⟩ := h
  obtain ⟨toks, root, hs, ht, rfl, _, _, ⟨s, cs, rfl, _⟩, _⟩ := C08_words_preserved h
  exact token_chars ht root (by simp)

theorem noWs_xid [LawfulUcd] {s : Str} (h : ∀ c ∈ s, U.isXid c = true) : NoWs s := by
  intro c hc
  cases hw : isWs c with
  | false => rfl
  | true => exact absurd (h c hc) (by rw [LawfulUcd.ws_not_xid c hw]; simp)

theorem xidIdent_noWs [LawfulUcd] {s : Str} (h : XidIdent s) : NoWs s := by
  obtain ⟨c, r, rfl, hl, hr⟩ := h
  intro x hx
  rcases List.mem_cons.1 hx with rfl | hx
  · cases hw : isWs x with
    | false => rfl
    | true =>
      unfold IsLetter at hl
      simp only [isWs, Bool.or_eq_true, Bool.and_eq_true, decide_eq_true_eq, beq_iff_eq] at hw
      omega
  · exact noWs_xid hr x hx

theorem letter_head {s : Str} (h : ∃ c r, s = c :: r ∧ IsLetter c) : s.head? ≠ some '=' := by
  obtain ⟨c, r, rfl, hl⟩ := h
  intro he
  simp only [List.head?_cons, Option.some.injEq] at he
  subst he
  unfold IsLetter at hl
  revert hl
  decide

theorem kids_mem_pre {cs : List Ast} (h : ∀ c ∈ cs, GoodItem c) : ∀ a ∈ preAll cs, ∀ k ∈ kids a, k ∈ preAll cs := by
  have key : ∀ a, GoodItem a → ∀ b ∈ preAll [a], ∀ k ∈ kids b, k ∈ preAll [a] := by
    intro a ha
    induction ha with
    | @action s t cs hcs =>
      intro b hb k hk
      simp only [preAll, pre, List.append_nil, List.mem_cons] at hb ⊢
      have hsub : ∀ k ∈ cs, k ∈ preAll cs := fun k hk => mem_preAll hk
      rcases hb with rfl | hb
      · exact Or.inr (hsub k hk)
      · exfalso
        clear hsub
        induction cs with
        | nil => simp [preAll] at hb
        | cons c cs ih =>
          obtain ⟨s', t', rfl⟩ := hcs c (by simp)
          simp only [preAll, pre, List.cons_append, List.nil_append, List.mem_cons] at hb
          rcases hb with rfl | hb
          · simp [kids] at hk
          · exact ih (fun c hc => hcs c (by simp [hc])) hb
    | @condition s t cs _ hcs ih =>
      intro b hb k hk
      simp only [preAll, pre, List.append_nil, List.mem_cons] at hb ⊢
      rcases hb with rfl | hb
      · exact Or.inr (mem_preAll hk)
      · right
        clear hcs
        induction cs with
        | nil => simp [preAll] at hb
        | cons c cs ih2 =>
          rw [preAll, List.mem_append] at hb ⊢
          rcases hb with hb | hb
          · left
            have := ih c (by simp) b (by simpa [preAll] using hb) k hk
            simpa [preAll] using this
          · exact Or.inr (ih2 (fun c hc => ih c (by simp [hc])) hb)
  intro a ha k hk
  induction cs with
  | nil => simp [preAll] at ha
  | cons c cs ih =>
    rw [preAll, List.mem_append] at ha ⊢
    rcases ha with ha | ha
    · left
      have := key c (h c (by simp)) a (by simpa [preAll] using ha) k hk
      simpa [preAll] using this
    · exact Or.inr (ih (fun c hc => h c (by simp [hc])) ha)

theorem action_parent {cs : List Ast} (h : ∀ c ∈ cs, GoodItem c) {a : Ast} (ha : a ∈ preAll cs) (hact : a.isAction = true) :
    a ∈ cs ∨ ∃ c ∈ conditionsOf cs, a ∈ kids c := by
  have key : ∀ x, GoodItem x → ∀ a ∈ pre x, a.isAction = true → a = x ∨ ∃ c ∈ conditionsOf [x], a ∈ kids c := by
    intro x hx
    induction hx with
    | @action s t cs hcs =>
      intro b hb hact
      rw [pre, List.mem_cons] at hb
      rcases hb with rfl | hb
      · exact Or.inl rfl
      · exfalso
        induction cs with
        | nil => simp [preAll] at hb
        | cons c cs ih =>
          obtain ⟨s', t', rfl⟩ := hcs c (by simp)
          simp only [preAll, pre, List.cons_append, List.nil_append, List.mem_cons] at hb
          rcases hb with rfl | hb
          · simp [Ast.isAction] at hact
          · exact ih (fun c hc => hcs c (by simp [hc])) hb
    | @condition s t cs _ hcs ih =>
      intro b hb hact
      rw [pre, List.mem_cons] at hb
      rcases hb with rfl | hb
      · simp [Ast.isAction] at hact
      · right
        have self : Ast.condition s t cs ∈ conditionsOf [Ast.condition s t cs] := by
          simp [conditionsOf, preAll, pre, Ast.isCondition]
        have : b ∈ cs ∨ ∃ c ∈ conditionsOf cs, b ∈ kids c := by
          clear hcs self
          induction cs with
          | nil => simp [preAll] at hb
          | cons c cs ih2 =>
            rw [preAll, List.mem_append] at hb
            rcases hb with hb | hb
            · rcases ih c (by simp) b hb hact with rfl | ⟨d, hd, hbd⟩
              · exact Or.inl (by simp)
              · refine Or.inr ⟨d, ?_, hbd⟩
                simp only [conditionsOf, preAll, List.append_nil, List.filter_append, List.mem_append] at hd ⊢
                exact Or.inl hd
            · rcases ih2 (fun c hc => ih c (by simp [hc])) hb with h | ⟨d, hd, hbd⟩
              · exact Or.inl (by simp [h])
              · refine Or.inr ⟨d, ?_, hbd⟩
                simp only [conditionsOf, preAll, List.filter_append, List.mem_append] at hd ⊢
                exact Or.inr hd
        rcases this with h | ⟨d, hd, hbd⟩
        · exact ⟨_, self, h⟩
        · refine ⟨d, ?_, hbd⟩
          simp only [conditionsOf, preAll, pre, List.append_nil, List.mem_filter, List.mem_cons] at hd ⊢
          exact ⟨Or.inr hd.1, hd.2⟩
  induction cs with
  | nil => simp [preAll] at ha
  | cons c cs ih =>
    rw [preAll, List.mem_append] at ha
    rcases ha with ha | ha
    · rcases key c (h c (by simp)) a ha hact with rfl | ⟨d, hd, hbd⟩
      · exact Or.inl (by simp)
      · refine Or.inr ⟨d, ?_, hbd⟩
        simp only [conditionsOf, preAll, List.append_nil, List.filter_append, List.mem_append] at hd ⊢
        exact Or.inl hd
    · rcases ih (fun c hc => h c (by simp [hc])) ha with h | ⟨d, hd, hbd⟩
      · exact Or.inl (by simp [h])
      · refine Or.inr ⟨d, ?_, hbd⟩
        simp only [conditionsOf, preAll, List.filter_append, List.mem_append] at hd ⊢
        exact Or.inr hd

theorem modName_ident [LawfulUcd] {cs : List Ast} (h : ∀ c ∈ cs, GoodItem c) {c : Ast} (hc : c ∈ conditionsOf cs) :
    XidIdent (modName c) :=
  xidIdent_of (modName_closed LawfulUcd.upper_xid LawfulUcd.lower_xid (condTitle_xid (good_mem h c hc).1)) (camel_start (good_mem h c hc).1)

theorem mem_commentLines {a : Ast} {t : Str} (h : t ∈ commentLines a) : ∃ b, (b = a ∨ b ∈ kids a) ∧ t = titleOf b := by
  rcases List.mem_cons.1 h with h | h
  · exact ⟨a, Or.inl rfl, h⟩
  · obtain ⟨b, hb, rfl⟩ := List.mem_map.1 h
    exact ⟨b, Or.inr hb, rfl⟩

theorem mem_body {skip : Bool} {l : List Str} {t : Str} (h : BodyItem.comment t ∈ bodyOf skip l) : t ∈ l := by
  unfold bodyOf at h
  rcases List.mem_append.1 h with h | h
  · obtain ⟨x, hx, he⟩ := List.mem_map.1 h
    cases he; exact hx
  · cases skip <;> simp at h

/-- A comment of a function is the title of an action or description. -/
theorem expected_comment {cs : List Ast} (h : ∀ c ∈ cs, GoodItem c) {skip : Bool} {f : HFn} (hf : f ∈ expected skip cs)
    {t : Str} (ht : BodyItem.comment t ∈ f.children.getD []) : ∃ b ∈ preAll cs, t = titleOf b := by
  rcases mem_expected.1 hf with ⟨a, ha, _, rfl⟩ | ⟨⟨p, c⟩, hp, hf⟩
  · obtain ⟨b, hb, rfl⟩ := mem_commentLines (mem_body ht)
    rcases hb with rfl | hb
    · exact ⟨b, mem_preAll ha, rfl⟩
    · exact ⟨b, kids_mem_pre h a (mem_preAll ha) b hb, rfl⟩
  · rcases mem_condFns.1 hf with ⟨_, rfl⟩ | ⟨_, rfl⟩
    · simp [modFn] at ht
    · have hc := path_mem ((mem_inScopeAll h p c).1 hp)
      have hcp : c ∈ preAll cs := (List.mem_filter.1 hc).1
      obtain ⟨a, ha, hta⟩ := List.mem_flatMap.1 (mem_body ht)
      have hap := kids_mem_pre h c hcp a (List.mem_filter.1 ha).1
      obtain ⟨b, hb, rfl⟩ := mem_commentLines hta
      rcases hb with rfl | hb
      · exact ⟨b, hap, rfl⟩
      · exact ⟨b, kids_mem_pre h a hap b hb, rfl⟩

theorem path_conditions {cs : List Ast} {p : List Ast} {c : Ast} (h : ∀ c ∈ cs, GoodItem c) (hp : Path cs p c) :
    ∀ d ∈ p, d ∈ conditionsOf cs := by
  induction hp with
  | here => intro d hd; simp at hd
  | @down ks e p a he hc hp ih =>
    intro d hd
    have hee : e ∈ conditionsOf ks := List.mem_filter.2 ⟨mem_preAll he, hc⟩
    have hg := (good_mem h e hee).2.2
    rcases List.mem_cons.1 hd with rfl | hd
    · exact hee
    · have hd' := ih hg d hd
      obtain ⟨q, hq⟩ := mem_path hg hd'
      exact path_mem (.down he hc hq)

theorem expected_ok [LawfulUcd] {order : HashOrder} {a : Ast} (ha : Accepted order a) {skip : Bool} {f : HFn}
    (hf : f ∈ expected skip (kids a)) : FnOk f := by
  have hg := accepted_good ha
  have hid := (expected_names hg hf).1
  refine ⟨xidIdent_noWs hid, ?_, ?_, ?_⟩
  · obtain ⟨c, r, h1, h2, _⟩ := hid
    exact letter_head ⟨c, r, h1, h2⟩
  · intro m hm
    have : ∃ c ∈ conditionsOf (kids a), m = modName c := by
      rcases mem_expected.1 hf with ⟨a', _, _, rfl⟩ | ⟨⟨p, c⟩, hp, hf⟩
      · simp [actFn] at hm
      · rcases mem_condFns.1 hf with ⟨_, rfl⟩ | ⟨_, rfl⟩
        · simp [modFn] at hm
        · have hpath := (mem_inScopeAll hg p c).1 hp
          simp only [condFn, modList_getD, guards] at hm
          obtain ⟨d, hd, rfl⟩ := List.mem_map.1 hm
          refine ⟨d, ?_, rfl⟩
          rcases List.mem_append.1 hd with hd | hd
          · exact path_conditions hg hpath d hd
          · by_cases hn : hasNested c = true
            · simp only [hn, if_true, List.mem_singleton] at hd
              subst hd; exact path_mem hpath
            · simp [hn] at hd
    obtain ⟨c, hc, rfl⟩ := this
    have := modName_ident hg hc
    refine ⟨xidIdent_noWs this, ?_⟩
    obtain ⟨x, r, h1, h2, _⟩ := this
    exact letter_head ⟨x, r, h1, h2⟩
  · intro t ht hn
    obtain ⟨b, hb, rfl⟩ := expected_comment hg hf ht
    exact (accepted_lines ha b hb _ hn).1 rfl

theorem splits_part_noWs [LawfulUcd] {order : HashOrder} {a : Ast} (ha : Accepted order a) {n f : Str} (hn : ¬ Blank n)
    (hs : Splits (titleOf a) n f) : NoWs f ∧ ' ' ∉ n ∧ '\n' ∉ n := by
  obtain ⟨c, s, h1, h2, h3⟩ := accepted_root ha
  rw [hs.1] at h1
  cases n with
  | nil => exact absurd (by intro c hc; simp at hc) hn
  | cons x n =>
    simp only [List.cons_append, List.cons.injEq] at h1
    obtain ⟨rfl, h1⟩ := h1
    subst h1
    refine ⟨fun c hc => h3 c (by simp [hc]), ?_, ?_⟩
    · intro hm
      rcases List.mem_cons.1 hm with h | h
      · exact h2.1 h.symm
      · exact absurd (h3 ' ' (by simp [h])) (by decide)
    · intro hm
      rcases List.mem_cons.1 hm with h | h
      · exact h2.2.1 h.symm
      · exact absurd (h3 '\n' (by simp [h])) (by decide)

theorem prefixed_ok [LawfulUcd] {f : HFn} (h : FnOk f) {part : Str} (hp : NoWs part) : FnOk (prefixFn part f) := by
  obtain ⟨i, ty, sp, m, c⟩ := f
  cases ty with
  | modifier => exact h
  | function =>
    refine ⟨?_, by simp [prefixFn], h.mods, h.comments⟩
    intro x hx
    simp only [prefixFn, List.mem_append] at hx
    rcases hx with (hx | hx) | hx
    · have : ∀ x ∈ c!"test_", isWs x = false := by decide
      exact this x hx
    · refine capital_closed (P := fun c => isWs c = false) ?_ hp x hx
      intro c hc d hd
      cases hw : isWs d with
      | false => rfl
      | true => rw [LawfulUcd.upper_ws c d hd hw] at hw; rw [hw] at hc; exact hc
    · obtain ⟨a, ha⟩ := dropTests_suffix i
      exact h.name x (by simp only; rw [ha]; simp [hx])

/-- The contract of an accepted file has well-behaved names and comments. -/
theorem translate_ok [LawfulUcd] {order : HashOrder} {cfg : Config} {text : Str} {r : HRoot} (hr : translate order cfg text = .ok r) :
    ∃ n fns, r = ⟨[⟨n, fns⟩]⟩ ∧ ' ' ∉ n ∧ '\n' ∉ n ∧ ∀ f ∈ fns, FnOk f := by
  cases h : parse order text with
  | panic => simp [translate, h, Res.mapErr] at hr
  | err e => simp [translate, h, Res.mapErr] at hr
  | ok asts =>
    rcases translate_cases h cfg with ⟨ast, rfl, h'⟩ | ⟨rfl, h'⟩ | ⟨hl, n, fs, hn, hs, h'⟩ | ⟨hl, n, A, a, B, e', ha, hA, hb, h'⟩
    · rw [h'] at hr; cases hr
      have hacc := parse_accepted h ast (by simp)
      obtain ⟨c, s, h1, h2, h3⟩ := accepted_root hacc
      refine ⟨_, _, rfl, ?_, ?_, fun f hf => expected_ok hacc hf⟩
      · rw [h1]; intro hm
        rcases List.mem_cons.1 hm with h | h
        · exact h2.1 h.symm
        · exact absurd (h3 _ h) (by decide)
      · rw [h1]; intro hm
        rcases List.mem_cons.1 hm with h | h
        · exact h2.2.1 h.symm
        · exact absurd (h3 _ h) (by decide)
    · rw [h'] at hr; cases hr
      exact ⟨[], [], rfl, by simp, by simp, by simp⟩
    · rw [h'] at hr; cases hr
      have hne : asts ≠ [] := by intro he; rw [he] at hl; simp at hl
      obtain ⟨a, ha⟩ := List.exists_mem_of_ne_nil _ hne
      obtain ⟨f, _, hf⟩ := each_mem hs ha
      have hpart := splits_part_noWs (parse_accepted h a ha) hn hf
      refine ⟨n, _, rfl, hpart.2.1, hpart.2.2, ?_⟩
      intro g hg
      have hg := (firstOnly_sublist _).subset hg
      obtain ⟨p, hp, g', hg', rfl⟩ := prefixed_mem.1 hg
      obtain ⟨h1, _, h3⟩ := zip_mem hs hp
      have hacc := parse_accepted h p.1 h1
      exact prefixed_ok (expected_ok hacc hg') (splits_part_noWs hacc hn h3).1
    · rw [h'] at hr; cases hr

/-! ## The `vm.skip` flag -/

theorem expected_skip (cs : List Ast) : expected true cs = (expected false cs).map addSkip := by
  unfold expected
  rw [List.map_flatMap]
  congr 1
  funext a
  by_cases ha : a.isAction = true
  · simp [ha, actFn, addSkip, bodyOf]
  · simp only [ha, Bool.false_eq_true, if_false]
    rw [List.map_flatMap]
    congr 1
    funext p
    unfold condFns
    by_cases h1 : hasNested p.2 = true <;> by_cases h2 : actionsOf p.2 = [] <;>
      simp [h1, h2, condFn, modFn, addSkip, bodyOf]

theorem addSkip_id (f : HFn) : (addSkip f).identifier = f.identifier ∧ (addSkip f).ty = f.ty := by
  obtain ⟨i, ty, sp, m, c⟩ := f
  cases ty <;> simp [addSkip]

theorem firstOnly_map {g : HFn → HFn} (hg : ∀ f, (g f).identifier = f.identifier) (fs : List HFn) :
    firstOnly (fs.map g) = (firstOnly fs).map g := by
  induction fs with
  | nil => rfl
  | cons f fs ih =>
    rw [List.map_cons, firstOnly, firstOnly, ih, List.map_cons, List.filter_map]
    congr 3
    funext x
    simp [hg]

theorem prefixFn_addSkip (part : Str) (f : HFn) : prefixFn part (addSkip f) = addSkip (prefixFn part f) := by
  obtain ⟨i, ty, sp, m, c⟩ := f
  cases ty <;> simp [addSkip, prefixFn]

theorem prefixed_skip (trees : List (Ast × Str)) : prefixedFns true trees = (prefixedFns false trees).map addSkip := by
  unfold prefixedFns
  rw [List.map_flatMap]
  congr 1
  funext p
  rw [expected_skip, List.map_map, List.map_map]
  apply List.map_congr_left
  intro f _
  exact prefixFn_addSkip _ _

theorem expected_noSkip (cs : List Ast) {f : HFn} (hf : f ∈ expected false cs) : BodyItem.vmSkip ∉ f.children.getD [] := by
  rcases mem_expected.1 hf with ⟨a, _, _, rfl⟩ | ⟨p, _, hf⟩
  · simp [actFn, bodyOf]
  · rcases mem_condFns.1 hf with ⟨_, rfl⟩ | ⟨_, rfl⟩
    · simp [modFn]
    · simp [condFn, bodyOf]

end
end Bulloak
