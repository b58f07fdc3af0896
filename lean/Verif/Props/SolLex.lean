import Verif.Lemmas.SolLex
/-!
# The Solidity code of the generated file

What the Solidity compiler reads in a generated file, apart from comments.
-/

namespace Bulloak
open Spec
set_option linter.unusedSectionVars false

/-! ## Names -/
section
variable [U : Ucd]

/-- The name starts like a test, or with the word that opens a condition. -/
def Spec.StartsKnown (s : Str) : Prop :=
  c!"test_" <+: s ∨ (s.take 4).map asciiLower = c!"when" ∨ (s.take 5).map asciiLower = c!"given"

theorem asciiLower_upper (c : Char) : asciiLower (asciiLower (asciiUpper c)) = asciiLower c := by
  have e : asciiLower (asciiUpper c) = asciiLower c := by
    rcases asciiUpper_cases c with ⟨h1, h2⟩ | ⟨h1, h2⟩
    · have h3 : 97 ≤ c.toNat ∧ c.toNat ≤ 122 := by omega
      apply Char.toNat_inj.1
      have e1 : (asciiLower (asciiUpper c)).toNat = (asciiUpper c).toNat + 32 := by
        rcases asciiLower_cases (asciiUpper c) with h | h <;> omega
      have e2 : (asciiLower c) = c := by
        rcases asciiLower_cases c with h | h
        · omega
        · exact h.2
      rw [e1, e2]; omega
    · rw [h2]
  rw [e]
  rcases asciiLower_cases c with ⟨h1, h2⟩ | ⟨h1, h2⟩
  · rcases asciiLower_cases (asciiLower c) with h | h
    · omega
    · exact h.2
  · rw [h2, h2]

theorem modName_known [LawfulUcd] {c : Ast} (h : CondTitle (titleOf c)) : StartsKnown (modName c) := by
  obtain ⟨kw, rest, hk, ht, hw⟩ := condTitle_words h
  obtain ⟨hne, hc⟩ := condWord_chars hk
  cases kw with
  | nil => exact absurd rfl hne
  | cons x r =>
    have hl := letter_alnum (hc x (by simp))
    have hp : pascal (titleOf c) = asciiUpper x :: (r ++ glue (splitWs rest)) := by
      rw [pascal, hw]
      simp [glue, capital, LawfulUcd.plain_upper x (letter_plain hl)]
    have hm : modName c = asciiLower (asciiUpper x) :: (r ++ glue (splitWs rest)) := by
      rw [modName, camel, hp]
      simp [LawfulUcd.plain_lower _ (letter_plain (letter_upper hl))]
    rw [hm]
    rcases hk with hk | hk
    · refine .inr (.inl ?_)
      have hlen : r.length = 3 := by have := congrArg List.length hk; simpa using this
      rw [List.take_succ_cons, List.take_append_of_le_length (by omega), List.take_of_length_le (by omega), List.map_cons, asciiLower_upper,
        ← List.map_cons]
      exact hk
    · refine .inr (.inr ?_)
      have hlen : r.length = 4 := by have := congrArg List.length hk; simpa using this
      rw [List.take_succ_cons, List.take_append_of_le_length (by omega), List.take_of_length_le (by omega), List.map_cons, asciiLower_upper,
        ← List.map_cons]
      exact hk

theorem testName_known [LawfulUcd] {c : Ast} (h : CondTitle (titleOf c)) : StartsKnown (testName c) := by
  obtain ⟨kw, rest, hk, _, hw⟩ := condTitle_words h
  unfold testName
  rw [hw]
  simp only
  split
  · exact .inl ⟨_, rfl⟩
  · exact .inl ⟨_, rfl⟩

/-- The names in the functions of a tree: their own start as they should, and those of their modifiers are names of conditions. -/
theorem expected_known [LawfulUcd] {cs : List Ast} (h : ∀ c ∈ cs, GoodItem c) {skip : Bool} {f : HFn} (hf : f ∈ expected skip cs) :
    StartsKnown f.identifier ∧ ∀ m ∈ f.modifiers.getD [], ∃ c ∈ conditionsOf cs, m = modName c := by
  rcases mem_expected.1 hf with ⟨a, _, _, rfl⟩ | ⟨⟨p, c⟩, hp, hf⟩
  · exact ⟨.inl ⟨_, rfl⟩, by simp [actFn]⟩
  · have hpath := (mem_inScopeAll h p c).1 hp
    have hg := (good_mem h c (path_mem hpath)).1
    rcases mem_condFns.1 hf with ⟨_, rfl⟩ | ⟨_, rfl⟩
    · exact ⟨modName_known hg, by simp [modFn]⟩
    · refine ⟨testName_known hg, ?_⟩
      intro m hm
      have hm : m ∈ (guards p c).map modName := by
        simp only [condFn, modList] at hm
        split at hm
        · simp at hm
        · simpa using hm
      obtain ⟨d, hd, rfl⟩ := List.mem_map.1 hm
      refine ⟨d, ?_, rfl⟩
      simp only [guards, List.mem_append] at hd
      rcases hd with hd | hd
      · exact path_conditions h hpath d hd
      · split at hd
        · rw [List.mem_singleton.1 hd]; exact path_mem hpath
        · cases hd

theorem known_not_reserved {s : Str} (h : StartsKnown s) : ¬ Reserved s := by
  have key : ∀ k, (∃ t ∈ [c!"int", c!"uint", c!"bytes", c!"fixed", c!"ufixed"], t <+: k) → ∃ x r, k = x :: r ∧ x ∈ [ 'i', 'u', 'b', 'f'] := by
    rintro k ⟨t, ht, r, rfl⟩
    simp only [List.mem_cons, List.not_mem_nil, or_false] at ht
    rcases ht with rfl | rfl | rfl | rfl | rfl <;> exact ⟨_, _, rfl, by decide⟩
  rintro (hk | hk)
  · have : ∀ k ∈ keywords, ¬ (c!"test_" <+: k) ∧ (k.take 4).map asciiLower ≠ c!"when" ∧ (k.take 5).map asciiLower ≠ c!"given" := by
      decide +kernel
    obtain ⟨h1, h2, h3⟩ := this s hk
    rcases h with h | h | h
    · exact h1 h
    · exact h2 h
    · exact h3 h
  · obtain ⟨x, r, rfl, hx⟩ := key s hk
    have hx' : x ≠ 't' ∧ asciiLower x ≠ 'w' ∧ asciiLower x ≠ 'g' := by
      simp only [List.mem_cons, List.not_mem_nil, or_false] at hx
      rcases hx with rfl | rfl | rfl | rfl <;> decide
    rcases h with ⟨t, h⟩ | h | h
    · simp only [List.cons_append, List.cons.injEq] at h
      exact hx'.1 h.1.symm
    · simp only [List.take_succ_cons, List.map_cons, List.cons.injEq] at h
      exact hx'.2.1 h.1
    · simp only [List.take_succ_cons, List.map_cons, List.cons.injEq] at h
      exact hx'.2.2 h.1

/-- Every function comes from a tree of the file. -/
theorem translate_from [LawfulUcd] {order : HashOrder} {cfg : Config} {text : Str} {n : Str} {fns : List HFn}
    (h : translate order cfg text = .ok ⟨[⟨n, fns⟩]⟩) : ∀ f ∈ fns, ∃ b ast part g, b <:+: text ∧ parseOne order b = .ok ast ∧
      g ∈ expected cfg.emitVmSkip (kids ast) ∧ (f = g ∨ f = prefixFn part g) := by
  cases hp : parse order text with
  | panic => exact absurd hp (C05_parse_never_panics order text)
  | err e => simp [translate, hp, Res.mapErr] at h
  | ok asts =>
    have hblock : ∀ a ∈ asts, ∃ b, b <:+: text ∧ parseOne order b = .ok a := by
      intro a ha
      obtain ⟨b, hbm, hb⟩ := each_right ((C13_parse_ok order text asts).1 hp) a ha
      exact ⟨b, splitTrees_mem hbm, hb⟩
    intro f hf
    rcases translate_cases hp cfg with ⟨ast, rfl, hA⟩ | ⟨rfl, hA⟩ | ⟨hl, n, fs, hn, hs, hA⟩ | ⟨hl, n, A, a, B, e', ha, hA', hb, hA⟩
    · rw [h] at hA
      injection hA with hA; injection hA with hA; injection hA with hA; injection hA with h1 h2
      subst h2
      obtain ⟨b, h1, h2⟩ := hblock ast (by simp)
      exact ⟨b, ast, [], f, h1, h2, hf, .inl rfl⟩
    · rw [h] at hA
      injection hA with hA; injection hA with hA; injection hA with hA; injection hA with h1 h2
      subst h2
      cases hf
    · rw [h] at hA
      injection hA with hA; injection hA with hA; injection hA with hA; injection hA with h1 h2
      subst h2
      have hf := (firstOnly_sublist _).subset hf
      obtain ⟨p, hpm, hf⟩ := List.mem_flatMap.1 hf
      obtain ⟨g, hg, rfl⟩ := List.mem_map.1 hf
      obtain ⟨b, h1, h2⟩ := hblock p.1 (zip_mem hs hpm).1
      exact ⟨b, p.1, p.2, g, h1, h2, hg, .inr rfl⟩
    · rw [h] at hA; cases hA

theorem prefixFn_known {part : Str} {g : HFn} (h : StartsKnown g.identifier) : StartsKnown (prefixFn part g).identifier := by
  unfold prefixFn
  cases g.ty with
  | function => exact .inl ⟨_, by simp only [List.append_assoc]; rfl⟩
  | modifier => exact h

theorem prefixFn_modifiers (part : Str) (g : HFn) : (prefixFn part g).modifiers = g.modifiers ∧ (prefixFn part g).children = g.children := by
  unfold prefixFn
  cases g.ty <;> exact ⟨rfl, rfl⟩

/-- **C89.** The names of all generated functions and modifiers, and of the modifiers applied, start with `test_` or with the `when` or `given`
of a condition; none is a reserved word of Solidity. -/
theorem C89_not_reserved [LawfulUcd] {order : HashOrder} {cfg : Config} {text : Str} {n : Str} {fns : List HFn}
    (h : translate order cfg text = .ok ⟨[⟨n, fns⟩]⟩) : ∀ f ∈ fns,
      StartsKnown f.identifier ∧ ¬ Reserved f.identifier ∧ ∀ m ∈ f.modifiers.getD [], StartsKnown m ∧ ¬ Reserved m := by
  intro f hf
  obtain ⟨b, ast, part, g, _, hb, hg, hfg⟩ := translate_from h f hf
  have hgood := accepted_good ⟨b, hb⟩
  obtain ⟨h1, h2⟩ := expected_known hgood hg
  have hm : ∀ m ∈ g.modifiers.getD [], StartsKnown m := by
    intro m hm
    obtain ⟨c, hc, rfl⟩ := h2 m hm
    exact modName_known (good_mem hgood c hc).1
  have : StartsKnown f.identifier ∧ ∀ m ∈ f.modifiers.getD [], StartsKnown m := by
    rcases hfg with rfl | rfl
    · exact ⟨h1, hm⟩
    · refine ⟨prefixFn_known h1, ?_⟩
      rw [(prefixFn_modifiers part g).1]
      exact hm
  exact ⟨this.1, known_not_reserved this.1, fun m hm => ⟨this.2 m hm, known_not_reserved (this.2 m hm)⟩⟩

/-- **C88.** If the names are Solidity identifiers, the contract name is not reserved, and the comments contain no line terminator of the
Solidity compiler, the compiler reads in the generated file exactly the pragma, the import, and the contract with the expected
functions, modifiers and `vm.skip` statements: no text of the tree is code. -/
theorem C88_code [LawfulUcd] {order : HashOrder} {cfg : Config} {text : Str} (hv : ∀ c ∈ cfg.solidityVersion, c ≠ '"' ∧ c ≠ '\n' ∧ c ≠ ';')
    {n : Str} {fns : List HFn} (h : translate order cfg text = .ok ⟨[⟨n, fns⟩]⟩) (hn : SolIdent (sanitize n)) (hr : ¬ Reserved (sanitize n))
    (hf : ∀ f ∈ fns, SolIdent f.identifier ∧ ∀ m ∈ f.modifiers.getD [], SolIdent m)
    (hc : ∀ f ∈ fns, ∀ t, .comment t ∈ f.children.getD [] → ∀ c ∈ t, c ∉ solTerminators) :
    ∃ src, scaffoldSource order cfg text = .ok src ∧
      solTokens src = some (fileTokens cfg.solidityVersion cfg.emitVmSkip (sanitize n) (written cfg fns)) := by
  refine ⟨_, C33_source (fun h => (hv _ h).1 rfl) (fun h => (hv _ h).2.1 rfl) h, ?_⟩
  refine tokens_solFile (fun h => (hv _ h).2.2 rfl) hn hr fun f hfm => ?_
  have hfm : f ∈ fns := by
    rw [← written_eq] at hfm
    exact (List.mem_filter.1 hfm).1
  have hk := C89_not_reserved h f hfm
  exact ⟨⟨(hf f hfm).1, hk.2.1⟩, fun m hm => ⟨(hf f hfm).2 m hm, (hk.2.2 m hm).2⟩, fun t ht c hcm => solEnd_of (hc f hfm t ht c hcm)⟩

/-- The names generated from the text are Solidity identifiers, the contract name is not reserved, and the comments contain no line
terminator of the Solidity compiler. -/
def Spec.Legible (order : HashOrder) (cfg : Config) (text : Str) : Prop :=
  ∀ n fns, translate order cfg text = .ok ⟨[⟨n, fns⟩]⟩ → SolIdent (sanitize n) ∧ ¬ Reserved (sanitize n) ∧
    (∀ f ∈ fns, SolIdent f.identifier ∧ ∀ m ∈ f.modifiers.getD [], SolIdent m) ∧
    ∀ f ∈ fns, ∀ t, .comment t ∈ f.children.getD [] → ∀ c ∈ t, c ∉ solTerminators

theorem legible_fn [LawfulUcd] {order : HashOrder} {cfg : Config} {text : Str} (hl : Legible order cfg text) {n : Str} {fns : List HFn}
    (h : translate order cfg text = .ok ⟨[⟨n, fns⟩]⟩) : ∀ f ∈ fns, ReadableFn f := by
  intro f hf
  obtain ⟨_, _, h3, h4⟩ := hl n fns h
  have hk := C89_not_reserved h f hf
  exact ⟨⟨(h3 f hf).1, hk.2.1⟩, fun m hm => ⟨(h3 f hf).2 m hm, (hk.2.2 m hm).2⟩, fun t ht c hcm => solEnd_of (h4 f hf t ht c hcm)⟩

theorem legible_ascii [LawfulUcd] {order : HashOrder} (cfg : Config) {text : Str}
    {ast : Ast} (h : parse order text = .ok [ast]) (hp : ∀ c ∈ text, isPlain c = true ∧ c ≠ '\x0b' ∧ c ≠ '\x0c')
    (hn : SolIdent (sanitize (titleOf ast))) (hr : ¬ Reserved (sanitize (titleOf ast))) : Legible order cfg text := by
  have htr := C30_single h cfg
  have hacc := parse_accepted h ast (by simp)
  have hg := accepted_good hacc
  obtain ⟨b, hbm, hb⟩ := each_right ((C13_parse_ok order text [ast]).1 h) ast (by simp)
  have hch : ∀ a ∈ preAll (kids ast), ∀ c ∈ titleOf a, isPlain c = true ∧ c ≠ '\x0b' ∧ c ≠ '\x0c' := by
    refine (titles_chars hb (P := fun c => isPlain c = true ∧ c ≠ '\x0b' ∧ c ≠ '\x0c') (by decide) (by decide) ?_).2
    intro toks ht t htm c hc
    obtain ⟨pre, post, rfl, _⟩ := C01_token_slice ht t htm
    exact hp c ((splitTrees_mem hbm).subset (by simp [hc]))
  intro n fns htr'
  rw [htr] at htr'
  cases htr'
  refine ⟨hn, hr, ?_, ?_⟩
  · intro f hf
    refine ⟨(expected_names hg hf).2 fun a ha c hc => (hch a ha c hc).1, ?_⟩
    intro m hm
    obtain ⟨c, hc, rfl⟩ := (expected_known hg hf).2 m hm
    refine solIdent_of (modName_ident hg hc) (modName_closed plain_upper_closed plain_lower_closed ?_)
    intro w hw x hx
    exact (hch c (List.mem_filter.1 hc).1 x ((splitWs_mem hw).2 x hx).1).1
  · intro f hf t ht c hc hterm
    obtain ⟨a, ha, rfl⟩ := expected_comment hg hf ht
    have h1 := accepted_lines hacc a ha c hc
    have h2 := hch a ha c hc
    simp only [solTerminators, List.mem_cons, List.not_mem_nil, or_false] at hterm
    rcases hterm with rfl | rfl | rfl | rfl | rfl | rfl
    · exact h1.1 rfl
    · exact h2.2.1 rfl
    · exact h2.2.2 rfl
    · exact h1.2.1 rfl
    · exact absurd h2.1 (by decide)
    · exact absurd h2.1 (by decide)

/-- **C88**, one tree: for a text of ASCII characters and the four glyphs, without vertical tabs and form feeds, the conditions hold if the
root is a Solidity identifier that is not reserved. -/
theorem C88_ascii [LawfulUcd] {order : HashOrder} {cfg : Config} {text : Str} (hv : ∀ c ∈ cfg.solidityVersion, c ≠ '"' ∧ c ≠ '\n' ∧ c ≠ ';')
    {ast : Ast} (h : parse order text = .ok [ast]) (hp : ∀ c ∈ text, isPlain c = true ∧ c ≠ '\x0b' ∧ c ≠ '\x0c')
    (hn : SolIdent (sanitize (titleOf ast))) (hr : ¬ Reserved (sanitize (titleOf ast))) :
    ∃ src, scaffoldSource order cfg text = .ok src ∧ solTokens src = some (fileTokens cfg.solidityVersion cfg.emitVmSkip
      (sanitize (titleOf ast)) (written cfg (expected cfg.emitVmSkip (kids ast)))) := by
  obtain ⟨h1, h2, h3, h4⟩ := legible_ascii cfg h hp hn hr _ _ (C30_single h cfg)
  exact C88_code hv (C30_single h cfg) h1 h2 h3 h4

theorem legible_ascii_many [LawfulUcd] {order : HashOrder} {cfg : Config} {text : Str}
    {asts : List Ast} (h : parse order text = .ok asts) (hl : 2 ≤ asts.length) {n : Str} {fns : List HFn}
    (htr : translate order cfg text = .ok ⟨[⟨n, fns⟩]⟩) (hp : ∀ c ∈ text, isPlain c = true ∧ c ≠ '\x0b' ∧ c ≠ '\x0c')
    (hparts : ∀ a ∈ asts, ∀ n f, Splits (titleOf a) n f → ∀ c ∈ f, U.isXid c = true)
    (hn : SolIdent (sanitize n)) (hr : ¬ Reserved (sanitize n)) : Legible order cfg text := by
  obtain ⟨n', fns', he, hid⟩ := C31_names_partial h hl cfg htr hparts
  cases he
  have hfrom : ∀ f ∈ fns, ∃ ast g, (∀ c ∈ kids ast, GoodItem c) ∧ Accepted order ast ∧ g ∈ expected cfg.emitVmSkip (kids ast) ∧
      f.modifiers = g.modifiers ∧ f.children = g.children ∧
      ∀ a ∈ preAll (kids ast), ∀ c ∈ titleOf a, isPlain c = true ∧ c ≠ '\x0b' ∧ c ≠ '\x0c' := by
    intro f hf
    obtain ⟨b, ast, part, g, hbt, hb, hg, hfg⟩ := translate_from htr f hf
    refine ⟨ast, g, accepted_good ⟨b, hb⟩, ⟨b, hb⟩, hg, ?_, ?_, ?_⟩
    · rcases hfg with rfl | rfl
      · rfl
      · exact (prefixFn_modifiers part g).1
    · rcases hfg with rfl | rfl
      · rfl
      · exact (prefixFn_modifiers part g).2
    · refine (titles_chars hb (P := fun c => isPlain c = true ∧ c ≠ '\x0b' ∧ c ≠ '\x0c') (by decide) (by decide) ?_).2
      intro toks ht t htm c hc
      obtain ⟨pre, post, rfl, _⟩ := C01_token_slice ht t htm
      exact hp c (hbt.subset (by simp [hc]))
  intro n' fns' htr'
  rw [htr] at htr'
  cases htr'
  refine ⟨hn, hr, ?_, ?_⟩
  · intro f hf
    refine ⟨(hid f hf).2 fun c hc => (hp c hc).1, ?_⟩
    intro m hm
    obtain ⟨ast, g, hgood, _, hg, hmods, _, hch⟩ := hfrom f hf
    rw [hmods] at hm
    obtain ⟨c, hc, rfl⟩ := (expected_known hgood hg).2 m hm
    refine solIdent_of (modName_ident hgood hc) (modName_closed plain_upper_closed plain_lower_closed ?_)
    intro w hw x hx
    exact (hch c (List.mem_filter.1 hc).1 x ((splitWs_mem hw).2 x hx).1).1
  · intro f hf t ht c hc hterm
    obtain ⟨ast, g, hgood, hacc, hg, _, hkids, hch⟩ := hfrom f hf
    rw [hkids] at ht
    obtain ⟨a, ha, rfl⟩ := expected_comment hgood hg ht
    have h1 := accepted_lines hacc a ha c hc
    have h2 := hch a ha c hc
    simp only [solTerminators, List.mem_cons, List.not_mem_nil, or_false] at hterm
    rcases hterm with rfl | rfl | rfl | rfl | rfl | rfl
    · exact h1.1 rfl
    · exact h2.2.1 rfl
    · exact h2.2.2 rfl
    · exact h1.2.1 rfl
    · exact absurd h2.1 (by decide)
    · exact absurd h2.1 (by decide)

/-- **C88**, several trees: for a text of ASCII characters and the four glyphs, without vertical tabs and form feeds, the conditions hold if
the contract is named by a Solidity identifier that is not reserved and the function parts of the roots consist of identifier characters. -/
theorem C88_ascii_many [LawfulUcd] {order : HashOrder} {cfg : Config} {text : Str} (hv : ∀ c ∈ cfg.solidityVersion, c ≠ '"' ∧ c ≠ '\n' ∧ c ≠ ';')
    {asts : List Ast} (h : parse order text = .ok asts) (hl : 2 ≤ asts.length) {n : Str} {fns : List HFn}
    (htr : translate order cfg text = .ok ⟨[⟨n, fns⟩]⟩) (hp : ∀ c ∈ text, isPlain c = true ∧ c ≠ '\x0b' ∧ c ≠ '\x0c')
    (hparts : ∀ a ∈ asts, ∀ n f, Splits (titleOf a) n f → ∀ c ∈ f, U.isXid c = true)
    (hn : SolIdent (sanitize n)) (hr : ¬ Reserved (sanitize n)) :
    ∃ src, scaffoldSource order cfg text = .ok src ∧
      solTokens src = some (fileTokens cfg.solidityVersion cfg.emitVmSkip (sanitize n) (written cfg fns)) := by
  obtain ⟨h1, h2, h3, h4⟩ := legible_ascii_many h hl htr hp hparts hn hr _ _ htr
  exact C88_code hv htr h1 h2 h3 h4

end

/-! ## Cases -/
section
attribute [local instance] asciiUcd

private def tokensOf' (text : Str) : Option (List SolTok) :=
  match scaffoldSource id .default text with
  | .ok src => solTokens src
  | _ => none

private def lexTree : Str := c!"A\n├── it /* x\n└── when b\n    ├── it c\n    └── given d\n        └── it }"

set_option maxRecDepth 16000 in
/-- C88: comment marks and braces in actions are not code. -/
example : tokensOf' lexTree = some [.pragma c!" solidity 0.8.0", .word c!"contract", .word c!"A", .sym '{',
    .word c!"function", .word c!"test_X", .sym '(', .sym ')', .word c!"external", .sym '{', .sym '}',
    .word c!"modifier", .word c!"whenB", .sym '(', .sym ')', .sym '{', .word c!"_", .sym ';', .sym '}',
    .word c!"function", .word c!"test_WhenB", .sym '(', .sym ')', .word c!"external", .word c!"whenB", .sym '{', .sym '}',
    .word c!"function", .word c!"test_GivenD", .sym '(', .sym ')', .word c!"external", .word c!"whenB", .sym '{', .sym '}', .sym '}'] := by
  cbv

set_option maxRecDepth 16000 in
private theorem lexTree_root : (match parse id lexTree with | .ok l => some (l.map titleOf) | _ => none) = some [c!"A"] := by cbv

/-- C88: `C88_ascii` applies to that tree. -/
example : ∃ src, scaffoldSource id .default lexTree = .ok src ∧ (solTokens src).isSome = true := by
  haveI := lawful_ascii
  have hr := lexTree_root
  cases ha : parse id lexTree with
  | panic => rw [ha] at hr; cases hr
  | err e => rw [ha] at hr; cases hr
  | ok l =>
    rw [ha] at hr
    simp only [Option.some.injEq] at hr
    obtain ⟨a, rfl, hA⟩ := List.map_eq_singleton_iff.1 hr
    have hs : sanitize (titleOf a) = c!"A" := by rw [hA]; cbv
    obtain ⟨src, h1, h2⟩ := C88_ascii (cfg := .default) (by decide) ha (by decide +kernel)
      (by rw [hs]; exact ⟨'A', [], rfl, .inl (by unfold IsLetter; decide), by simp⟩)
      (by
        rw [hs]
        rintro (h | ⟨t, ht, r, h⟩)
        · exact absurd h (by decide +kernel)
        · simp only [List.mem_cons, List.not_mem_nil, or_false] at ht
          rcases ht with rfl | rfl | rfl | rfl | rfl <;> simp at h)
    exact ⟨src, h1, by rw [h2]; rfl⟩

private def lexTrees : Str := c!"A::f\n└── it x\n\nA::g\n└── it y"

set_option maxRecDepth 16000 in
private theorem lexTrees_roots : (match parse id lexTrees with | .ok l => some (l.map titleOf) | _ => none) = some [c!"A::f", c!"A::g"] := by cbv

set_option maxRecDepth 16000 in
private theorem lexTrees_name : (contractOf lexTrees).map HContract.identifier = some c!"A" := by cbv

/-- C88: `C88_ascii_many` applies to two trees. -/
example : ∃ src, scaffoldSource id .default lexTrees = .ok src ∧ (solTokens src).isSome = true := by
  haveI := lawful_ascii
  have hr := lexTrees_roots
  have hn := lexTrees_name
  cases hc : contractOf lexTrees with
  | none => rw [hc] at hn; cases hn
  | some c =>
    rw [hc] at hn
    simp only [Option.map_some, Option.some.injEq] at hn
    have htr := contractOf_eq hc
    cases ha : parse id lexTrees with
    | panic => rw [ha] at hr; cases hr
    | err e => rw [ha] at hr; cases hr
    | ok l =>
      rw [ha] at hr
      simp only [Option.some.injEq] at hr
      have hs : sanitize c.identifier = c!"A" := by rw [hn]; cbv
      have hlen : 2 ≤ l.length := by have := congrArg List.length hr; simp at this; omega
      have hsplit : ∀ (x : Char) (n f : Str), x ≠ ':' → Splits (c!"A::" ++ [x]) n f → f = [x] := by
        intro x n f hx h
        exact (splits_unique h (a' := c!"A") (b' := [x]) ⟨rfl, by
          rintro ⟨u, v, h⟩
          have := congrArg List.length h
          simp at this
          have hu : u = [] := List.length_eq_zero_iff.1 (by omega)
          subst hu
          simp at h⟩).2
      obtain ⟨src, h1, h2⟩ := C88_ascii_many (cfg := .default) (by decide) ha hlen (n := c.identifier) (fns := c.children) htr
        (by decide +kernel)
        (by
          intro a ham n f hsp c hc
          have : titleOf a ∈ l.map titleOf := List.mem_map_of_mem ham
          rw [hr] at this
          simp only [List.mem_cons, List.not_mem_nil, or_false] at this
          rcases this with e | e
          · rw [e] at hsp
            rw [hsplit 'f' n f (by decide) hsp] at hc
            simp at hc; subst hc; rfl
          · rw [e] at hsp
            rw [hsplit 'g' n f (by decide) hsp] at hc
            simp at hc; subst hc; rfl)
        (by rw [hs]; exact ⟨'A', [], rfl, .inl (by unfold IsLetter; decide), by simp⟩)
        (by
          rw [hs]
          rintro (h | ⟨t, ht, r, h⟩)
          · exact absurd h (by decide +kernel)
          · simp only [List.mem_cons, List.not_mem_nil, or_false] at ht
            rcases ht with rfl | rfl | rfl | rfl | rfl <;> simp at h)
      exact ⟨src, h1, by rw [h2]; rfl⟩

/-- C89 applies to the two trees. -/
example : (contractOf lexTrees).isSome = true ∧ ∀ c, contractOf lexTrees = some c → ∀ f ∈ c.children, ¬ Reserved f.identifier := by
  haveI := lawful_ascii
  refine ⟨?_, fun c hc f hf => (C89_not_reserved (n := c.identifier) (fns := c.children) (contractOf_eq hc) f hf).2.1⟩
  have := lexTrees_name
  cases h : contractOf lexTrees with
  | none => rw [h] at this; cases this
  | some c => rfl

private def leakTree : Str := c!"A\n└── it \x0b} contract B {"

set_option maxRecDepth 16000 in
/-- C88: with a vertical tab in an action the rest of the action is code, here another contract. -/
example : tokensOf' leakTree = some [.pragma c!" solidity 0.8.0", .word c!"contract", .word c!"A", .sym '{',
    .word c!"function", .word c!"test_ContractB", .sym '(', .sym ')', .word c!"external", .sym '{', .sym '}',
    .word c!"contract", .word c!"B", .sym '{', .sym '}', .sym '}'] := by
  cbv

set_option maxRecDepth 16000 in
/-- C89: the root may be a reserved word, `contract contract {`. -/
example : tokensOf' c!"contract\n└── WHEN x\n    ├── it y\n    └── when z\n        └── it y" = some [.pragma c!" solidity 0.8.0", .word c!"contract", .word c!"contract", .sym '{',
    .word c!"modifier", .word c!"wHENX", .sym '(', .sym ')', .sym '{', .word c!"_", .sym ';', .sym '}',
    .word c!"function", .word c!"test_WHENX", .sym '(', .sym ')', .word c!"external", .word c!"wHENX", .sym '{', .sym '}',
    .word c!"function", .word c!"test_WhenZ", .sym '(', .sym ')', .word c!"external", .word c!"wHENX", .sym '{', .sym '}', .sym '}'] := by
  cbv

end
end Bulloak
