import Verif.Lemmas.Sol2
import Verif.Props.Combine
/-!
# The generated Solidity text (C24, C25, C33 to C36)
-/

set_option linter.unusedSectionVars false

namespace Bulloak
open Spec

section
variable [U : Ucd]

/-- The functions that are written: all, or with `-m` those that are not modifiers. -/
def Spec.written (cfg : Config) (fns : List HFn) : List HFn :=
  if cfg.skipModifiers then fns.filter HFn.isFunction else fns

theorem written_eq (cfg : Config) (fns : List HFn) :
    fns.filter (fun f => !(f.isModifier && cfg.skipModifiers)) = written cfg fns := by
  unfold written
  cases cfg.skipModifiers with
  | false => simp
  | true =>
    simp only [Bool.and_true, if_true]
    congr 1
    funext f
    obtain ⟨i, ty, sp, m, c⟩ := f
    cases ty <;> rfl

/-- The text handed to the formatter is the specified one. -/
theorem C33_source [LawfulUcd] {order : HashOrder} {cfg : Config} {text : Str} (hq : '"' ∉ cfg.solidityVersion)
    (hn : '\n' ∉ cfg.solidityVersion) {n : Str} {fns : List HFn} (h : translate order cfg text = .ok ⟨[⟨n, fns⟩]⟩) :
    scaffoldSource order cfg text = .ok (solFile cfg.solidityVersion cfg.emitVmSkip (sanitize n) (written cfg fns)) := by
  obtain ⟨n', fns', he, h1, h2, h3⟩ := translate_ok h
  cases he
  unfold scaffoldSource
  rw [h, Res.bind_ok, emitSource_eq cfg n fns hq hn h1 h2 h3, written_eq]

/-- **C33.** The generated source is the licence and pragma, the optional import, and one contract with the
functions of the specification in order. -/
theorem C33_file [LawfulUcd] {order : HashOrder} {cfg : Config} {text src : Str} (hq : '"' ∉ cfg.solidityVersion)
    (hn : '\n' ∉ cfg.solidityVersion) (h : scaffoldSource order cfg text = .ok src) :
    ∃ n fns, translate order cfg text = .ok ⟨[⟨n, fns⟩]⟩ ∧
      src = solFile cfg.solidityVersion cfg.emitVmSkip (sanitize n) (written cfg fns) := by
  unfold scaffoldSource at h
  obtain ⟨r, hr, _⟩ := Res.bind_eq_ok.1 h
  obtain ⟨n, fns, rfl, _⟩ := translate_ok hr
  refine ⟨n, fns, hr, ?_⟩
  have := C33_source hq hn hr
  unfold scaffoldSource at this
  rw [h] at this
  exact Res.ok.inj this

/-- **C33**, one tree: from the text of the tree to the text of the contract. -/
theorem C33_one_tree [LawfulUcd] {order : HashOrder} {cfg : Config} {text : Str} {ast : Ast} (hq : '"' ∉ cfg.solidityVersion)
    (hn : '\n' ∉ cfg.solidityVersion) (h : parse order text = .ok [ast]) :
    scaffoldSource order cfg text = .ok (solFile cfg.solidityVersion cfg.emitVmSkip (sanitize (titleOf ast))
      (written cfg (expected cfg.emitVmSkip (kids ast)))) := by
  refine C33_source hq hn ?_
  rcases translate_cases h cfg with ⟨a, he, h'⟩ | ⟨he, h'⟩ | ⟨hl, _⟩ | ⟨hl, _⟩
  · cases he; exact h'
  · cases he
  · simp at hl
  · simp at hl

/-- **C33**, failures: generating the source fails exactly with the errors of the translation and never panics. -/
theorem C33_errors [LawfulUcd] (order : HashOrder) (cfg : Config) (text : Str) :
    scaffoldSource order cfg text ≠ .panic ∧
    ∀ e, scaffoldSource order cfg text = .err e ↔ translate order cfg text = .err e := by
  unfold scaffoldSource
  cases h : translate order cfg text with
  | panic => exact absurd h (C57_translate_never_panics order cfg text)
  | err e => simp [Bind.bind, Res.bind]
  | ok r => simp [Bind.bind, Res.bind]

/-! ## Comments -/

theorem infix_stanzas {x : Str} {xs : List Str} (h : x ∈ xs) : x <:+: stanzas xs := by
  induction xs with
  | nil => simp at h
  | cons y xs ih =>
    cases xs with
    | nil => simp only [List.mem_singleton] at h; subst h; exact List.infix_refl _
    | cons z xs =>
      rw [stanzas]
      · rcases List.mem_cons.1 h with rfl | h
        · exact ⟨[], c!"\n\n" ++ stanzas (z :: xs), by simp⟩
        · obtain ⟨a, b, hab⟩ := ih h
          exact ⟨y ++ c!"\n\n" ++ a, b, by rw [← hab]; simp⟩
      · simp

theorem infix_file {version name : Str} {skip : Bool} {fns : List HFn} {f : HFn} (h : f ∈ fns) :
    solFn f <:+: solFile version skip name fns := by
  have h1 := infix_stanzas (List.mem_map_of_mem (f := solFn) h)
  obtain ⟨a, b, hab⟩ := h1
  unfold solFile
  rw [← hab]
  generalize (_ ++ c!"{" : Str) = p
  exact ⟨p ++ a, b ++ c!"}", by simp only [List.append_assoc]⟩

theorem item_line (pre : Str) (hp : ∃ q, pre = q ++ c!"\n") {l : List BodyItem} {t : Str} (h : .comment t ∈ l) :
    ∃ a b, pre ++ l.flatMap solItem = a ++ (c!"\n// " ++ t ++ c!"\n") ++ b := by
  induction l generalizing pre with
  | nil => simp at h
  | cons i l ih =>
    rcases List.mem_cons.1 h with rfl | h
    · obtain ⟨q, rfl⟩ := hp
      exact ⟨q, l.flatMap solItem, by simp [solItem]⟩
    · obtain ⟨a, b, hab⟩ := ih (pre ++ solItem i) (by
        cases i with
        | comment t => exact ⟨pre ++ c!"// " ++ t, by simp [solItem]⟩
        | vmSkip => exact ⟨pre ++ c!"vm.skip(true);", by simp [solItem]⟩) h
      exact ⟨a, b, by rw [← hab]; simp⟩

theorem fn_comment_line {f : HFn} (hf : f.ty = .function) {t : Str} (h : .comment t ∈ f.children.getD []) :
    c!"\n// " ++ t ++ c!"\n" <:+: solFn f := by
  unfold solFn
  rw [hf]
  obtain ⟨a, b, hab⟩ := item_line (c!"function " ++ f.identifier ++ c!"() external " ++ (f.modifiers.getD []).flatMap (fun m => m ++ c!" ") ++
      c!"{\n") ⟨_, by rw [show c!"{\n" = c!"{" ++ c!"\n" from rfl, ← List.append_assoc]⟩ h
  exact ⟨a, b ++ c!"}", by simp only [← List.append_assoc] at hab ⊢; rw [hab]⟩

/-- **C34.** Every comment of a function is a line `// text` of its own in the generated source, whatever the
text is. -/
theorem C34_comment_line [LawfulUcd] {order : HashOrder} {cfg : Config} {text src : Str} (hq : '"' ∉ cfg.solidityVersion)
    (hn : '\n' ∉ cfg.solidityVersion) (hs : scaffoldSource order cfg text = .ok src) {n : Str} {fns : List HFn}
    (h : translate order cfg text = .ok ⟨[⟨n, fns⟩]⟩) : ∀ f ∈ fns, f.ty = .function → ∀ t, .comment t ∈ f.children.getD [] →
      c!"\n// " ++ t ++ c!"\n" <:+: src := by
  intro f hf hty t ht
  rw [C33_source hq hn h] at hs
  cases hs
  refine (fn_comment_line hty ht).trans (infix_file ?_)
  unfold written
  split
  · exact List.mem_filter.2 ⟨hf, by simp [HFn.isFunction, hty]⟩
  · exact hf

/-- **C34**, one tree: every action and every description of the tree. -/
theorem C34_one_tree [LawfulUcd] {order : HashOrder} {cfg : Config} {text src : Str} {ast : Ast} (hq : '"' ∉ cfg.solidityVersion)
    (hn : '\n' ∉ cfg.solidityVersion) (h : parse order text = .ok [ast]) (hs : scaffoldSource order cfg text = .ok src) :
    ∀ a ∈ preAll (kids ast), a.isAction = true → ∀ t, (t = titleOf a ∨ ∃ d ∈ kids a, t = titleOf d) →
      c!"\n// " ++ t ++ c!"\n" <:+: src := by
  intro a ha hact t ht
  have hg := accepted_good (parse_accepted h ast (by simp))
  have htr : translate order cfg text = .ok ⟨[⟨titleOf ast, expected cfg.emitVmSkip (kids ast)⟩]⟩ := by
    rcases translate_cases h cfg with ⟨a, he, h'⟩ | ⟨he, h'⟩ | ⟨hl, _⟩ | ⟨hl, _⟩
    · cases he; exact h'
    · cases he
    · simp at hl
    · simp at hl
  have htl : t ∈ commentLines a := by
    rcases ht with rfl | ⟨d, hd, rfl⟩
    · simp [commentLines]
    · exact List.mem_cons_of_mem _ (List.mem_map_of_mem hd)
  rcases action_parent hg ha hact with htop | ⟨c, hc, hac⟩
  · refine C34_comment_line hq hn hs htr (actFn cfg.emitVmSkip a) (mem_expected.2 (Or.inl ⟨a, htop, hact, rfl⟩)) rfl t ?_
    simp [actFn, bodyOf, htl]
  · obtain ⟨p, hp⟩ := mem_path hg hc
    have hne : actionsOf c ≠ [] := by
      intro he
      have : a ∈ actionsOf c := List.mem_filter.2 ⟨hac, hact⟩
      rw [he] at this; cases this
    refine C34_comment_line hq hn hs htr (condFn cfg.emitVmSkip p c) (mem_expected.2 (Or.inr ⟨(p, c), (mem_inScopeAll hg p c).2 hp, mem_condFns.2 (Or.inr ⟨hne, rfl⟩)⟩)) rfl t ?_
    simp only [condFn, Option.getD_some, bodyOf, List.mem_append, List.mem_map]
    exact Or.inl ⟨t, List.mem_flatMap.2 ⟨a, List.mem_filter.2 ⟨hac, hact⟩, htl⟩, rfl⟩

/-! ## Flags -/

theorem translate_flags {cfg cfg' : Config} (h : cfg.emitVmSkip = cfg'.emitVmSkip) (order : HashOrder) (text : Str) :
    translate order cfg text = translate order cfg' text := by
  have e : translateOne cfg = translateOne cfg' := by funext a; unfold translateOne; rw [h]
  unfold translate
  rw [e]

/-- **C24**, specification: with the flag, every test (and no modifier) ends with one more statement,
`vm.skip(true)`; without the flag there is no such statement; everything else, also the errors, is the same. -/
theorem C24_vm_skip [LawfulUcd] {order : HashOrder} {cfg cfg' : Config} (h0 : cfg.emitVmSkip = false) (h1 : cfg'.emitVmSkip = true)
    (text : Str) :
    (∀ n fns, translate order cfg text = .ok ⟨[⟨n, fns⟩]⟩ →
      translate order cfg' text = .ok ⟨[⟨n, fns.map addSkip⟩]⟩ ∧ ∀ f ∈ fns, .vmSkip ∉ f.children.getD []) ∧
    ∀ e, translate order cfg text = .err e ↔ translate order cfg' text = .err e := by
  cases h : parse order text with
  | panic => exact absurd h (C05_parse_never_panics order text)
  | err e => simp [translate, h, Res.mapErr]
  | ok asts =>
    rcases translate_cases h cfg with ⟨ast, rfl, hA⟩ | ⟨rfl, hA⟩ | ⟨hl, n, fs, hn, hs, hA⟩ | ⟨hl, n, A, a, B, e', ha, hA', hb, hA⟩
    · rcases translate_cases h cfg' with ⟨a, he, hB⟩ | ⟨he, _⟩ | ⟨hl, _⟩ | ⟨hl, _⟩
      · cases he
        rw [hA, hB, h0, h1, expected_skip]
        refine ⟨?_, by simp⟩
        intro n fns he
        cases he
        exact ⟨rfl, fun f hf => expected_noSkip _ hf⟩
      · cases he
      · simp at hl
      · simp at hl
    · rcases translate_cases h cfg' with ⟨a, he, hB⟩ | ⟨he, hB⟩ | ⟨hl, _⟩ | ⟨hl, _⟩
      · cases he
      · rw [hA, hB]
        refine ⟨?_, by simp⟩
        intro n fns he
        cases he
        exact ⟨rfl, by simp⟩
      · simp at hl
      · simp at hl
    · have hB := translate_good (cfg := cfg') h (by omega) (by rintro rfl; simp at hl) hn hs
      rw [hA, hB, h0, h1, prefixed_skip, firstOnly_map (fun f => (addSkip_id f).1)]
      refine ⟨?_, by simp⟩
      intro m fns he
      cases he
      refine ⟨rfl, fun f hf => ?_⟩
      obtain ⟨p, _, g, hg, rfl⟩ := prefixed_mem.1 ((firstOnly_sublist _).subset hf)
      have := expected_noSkip _ hg
      obtain ⟨i, ty, sp, m, c⟩ := g
      cases ty <;> exact this
    · have hB := (C28_error_iff h cfg' _).2 ((C28_error_iff h cfg _).1 hA)
      rw [hA, hB]
      simp

/-- **C24**, text: the two files side by side. -/
theorem C24_text [LawfulUcd] {order : HashOrder} {cfg cfg' : Config} (h0 : cfg.emitVmSkip = false)
    (h1 : cfg' = { cfg with emitVmSkip := true }) {text src : Str} (hq : '"' ∉ cfg.solidityVersion)
    (hn : '\n' ∉ cfg.solidityVersion) (h : scaffoldSource order cfg text = .ok src) :
    ∃ name fns, (∀ f ∈ fns, .vmSkip ∉ f.children.getD []) ∧ src = solFile cfg.solidityVersion false name fns ∧
      scaffoldSource order cfg' text = .ok (solFile cfg.solidityVersion true name (fns.map addSkip)) := by
  obtain ⟨n, fns, ht, rfl⟩ := C33_file hq hn h
  have h1' : cfg'.emitVmSkip = true := by rw [h1]
  obtain ⟨h2, h3⟩ := (C24_vm_skip h0 h1' text).1 n fns ht
  have hv : cfg'.solidityVersion = cfg.solidityVersion := by rw [h1]
  have hm : cfg'.skipModifiers = cfg.skipModifiers := by rw [h1]
  have hsrc := C33_source (by rw [hv]; exact hq) (by rw [hv]; exact hn) h2
  refine ⟨sanitize n, written cfg fns, ?_, by rw [h0], ?_⟩
  · intro f hf
    refine h3 f ?_
    unfold written at hf
    split at hf
    · exact (List.mem_filter.1 hf).1
    · exact hf
  · rw [hsrc, hv, h1']
    congr 2
    unfold written
    rw [hm]
    split
    · rw [List.filter_map]
      congr 2
      funext f
      simp [HFn.isFunction, (addSkip_id f).2]
    · rfl

/-- **C25.** With `-m` the same file without the modifier definitions. -/
theorem C25_skip_modifiers [LawfulUcd] {order : HashOrder} {cfg cfg' : Config} (h0 : cfg.skipModifiers = false)
    (h1 : cfg' = { cfg with skipModifiers := true }) {text src : Str} (hq : '"' ∉ cfg.solidityVersion)
    (hn : '\n' ∉ cfg.solidityVersion) (h : scaffoldSource order cfg text = .ok src) :
    ∃ name fns, src = solFile cfg.solidityVersion cfg.emitVmSkip name fns ∧
      scaffoldSource order cfg' text =
        .ok (solFile cfg.solidityVersion cfg.emitVmSkip name (fns.filter (fun f => f.ty ≠ .modifier))) := by
  obtain ⟨n, fns, ht, rfl⟩ := C33_file hq hn h
  have ht' : translate order cfg' text = .ok ⟨[⟨n, fns⟩]⟩ := by rw [← ht]; exact translate_flags (by rw [h1]) _ _
  subst h1
  have hsrc := C33_source (cfg := { cfg with skipModifiers := true }) hq hn ht'
  rw [hsrc]
  refine ⟨sanitize n, fns, by simp [written, h0], ?_⟩
  simp only [written, if_true]
  congr 3
  funext f
  obtain ⟨i, ty, sp, m, c⟩ := f
  cases ty <;> rfl

/-- **C25**, errors: `-m` does not change what is accepted. -/
theorem C25_errors [LawfulUcd] {order : HashOrder} {cfg cfg' : Config} (h : cfg' = { cfg with skipModifiers := true }) (text : Str) (e : TranslateError) :
    scaffoldSource order cfg text = .err e ↔ scaffoldSource order cfg' text = .err e := by
  rw [(C33_errors order cfg text).2, (C33_errors order cfg' text).2, translate_flags (cfg := cfg) (cfg' := cfg') (by rw [h])]

/-- **C35**, what holds: a comment contains no line feed, carriage return or tabulator. -/
theorem C35_no_line_break_partial [LawfulUcd] {order : HashOrder} {cfg : Config} {text : Str} {n : Str} {fns : List HFn}
    (h : translate order cfg text = .ok ⟨[⟨n, fns⟩]⟩) : ∀ f ∈ fns, ∀ t, .comment t ∈ f.children.getD [] →
      '\n' ∉ t ∧ '\r' ∉ t ∧ '\t' ∉ t := by
  have key : ∀ a, Accepted order a → ∀ f ∈ expected cfg.emitVmSkip (kids a), ∀ t, .comment t ∈ f.children.getD [] →
      '\n' ∉ t ∧ '\r' ∉ t ∧ '\t' ∉ t := by
    intro a ha f hf t ht
    obtain ⟨b, hb, rfl⟩ := expected_comment (accepted_good ha) hf ht
    have := accepted_lines ha b hb
    exact ⟨fun h => (this _ h).1 rfl, fun h => (this _ h).2.1 rfl, fun h => (this _ h).2.2 rfl⟩
  intro f hf t ht
  cases hp : parse order text with
  | panic => exact absurd hp (C05_parse_never_panics order text)
  | err e => simp [translate, hp, Res.mapErr] at h
  | ok asts =>
    rcases translate_cases hp cfg with ⟨ast, rfl, hA⟩ | ⟨rfl, hA⟩ | ⟨hl, n, fs, hn, hs, hA⟩ | ⟨hl, n, A, a, B, e', ha, hA', hb, hA⟩
    · rw [h] at hA; cases hA
      exact key ast (parse_accepted hp ast (by simp)) f hf t ht
    · rw [h] at hA; cases hA
      cases hf
    · rw [h] at hA; cases hA
      obtain ⟨p, hpm, g, hg, rfl⟩ := prefixed_mem.1 ((firstOnly_sublist _).subset hf)
      obtain ⟨hmem, _⟩ := zip_mem hs hpm
      refine key p.1 (parse_accepted hp p.1 hmem) g hg t ?_
      obtain ⟨i, ty, sp, m, c⟩ := g
      cases ty <;> exact ht
    · rw [h] at hA; cases hA

/-! ## The two emitters -/

theorem squeeze_append (a b : Str) : squeeze (a ++ b) = squeeze a ++ squeeze b := by simp [squeeze]

theorem squeeze_flatMap {α : Type} (l : List α) (f g : α → Str) (h : ∀ x, squeeze (f x) = squeeze (g x)) :
    squeeze (l.flatMap f) = squeeze (l.flatMap g) := by
  induction l with
  | nil => rfl
  | cons x l ih => simp only [List.flatMap_cons, squeeze_append, h, ih]

/-- **C36.** The text `check --fix` inserts for a function is, up to white space, the one `scaffold` writes. -/
theorem C36_emitters_agree (f : HFn) : squeeze (emitFunction f) = squeeze (solFn f) := by
  obtain ⟨i, ty, sp, m, c⟩ := f
  cases ty with
  | modifier =>
    simp only [emitFunction, emitModifier, solFn, squeeze_append, indent1, indent2, spaces]
    simp (decide := true) [squeeze]
  | function =>
    simp only [emitFunction, emitFnHeader, solFn]
    cases m with
    | none =>
      simp only [squeeze_append, Option.getD_none, List.flatMap_nil]
      rw [squeeze_flatMap _ emitBodyItem solItem]
      · generalize squeeze ((c.getD []).flatMap solItem) = x
        simp only [indent1, spaces]
        simp (decide := true) [squeeze]
      · intro x
        cases x <;> simp only [emitBodyItem, solItem, squeeze_append] <;> rfl
    | some ms =>
      simp only [squeeze_append, Option.getD_some]
      rw [squeeze_flatMap _ emitBodyItem solItem, squeeze_flatMap ms (fun m => indent2 ++ m ++ c!"\n") (fun m => m ++ c!" ")]
      · generalize squeeze ((c.getD []).flatMap solItem) = x
        generalize squeeze (ms.flatMap _) = y
        simp only [indent1, indent2, spaces]
        simp (decide := true) [squeeze]
      · intro x
        simp only [squeeze_append]
        rfl
      · intro x
        cases x <;> simp only [emitBodyItem, solItem, squeeze_append] <;> rfl

/-- **C36**, lines: in the inserted text the body starts on a line of its own, and its lines are those
`scaffold` writes, indented. -/
theorem C36_lines (f : HFn) (h : f.ty = .function) : ∃ head, emitFunction f = head ++ c!"{\n" ++
    ((f.children.getD []).map (fun i => c!"    " ++ solItem i)).flatten ++ c!"  }\n\n" := by
  obtain ⟨i, ty, sp, m, c⟩ := f
  cases h
  have e : emitBodyItem = fun i => c!"    " ++ solItem i := by
    funext x
    cases x <;> rfl
  cases m with
  | none =>
    refine ⟨indent1 ++ c!"function " ++ i ++ c!"()" ++ c!" external" ++ c!" ", ?_⟩
    simp only [emitFunction, emitFnHeader, e, List.flatMap_def, indent1, spaces]
    simp
  | some ms =>
    refine ⟨indent1 ++ c!"function " ++ i ++ c!"()\n" ++ indent2 ++ c!"external\n" ++ (ms.flatMap (fun m => indent2 ++ m ++ c!"\n")) ++ indent1, ?_⟩
    simp only [emitFunction, emitFnHeader, e, List.flatMap_def, indent1, spaces]
    simp

end

/-! ## Counterexample and non-vacuity -/

/-- The line terminators of the Solidity compiler. -/
def Spec.solTerminators : List Char := ['\n', '\x0b', '\x0c', '\r', '\u2028', '\u2029']

/-- Full C35 is false: a vertical tab before a word stays in the comment and ends it for the compiler. -/
theorem C35_terminators_false : ∃ (U : Ucd) (_ : @LawfulUcd U), ¬ ∀ (order : HashOrder) (text : Str) (n : Str) (fns : List HFn),
    @translate U order .default text = .ok ⟨[⟨n, fns⟩]⟩ → ∀ f ∈ fns, ∀ t, .comment t ∈ f.children.getD [] →
      ∀ c ∈ t, c ∉ solTerminators := by
  refine ⟨asciiUcd, lawful_ascii, ?_⟩
  intro h
  cases hc : @contractOf asciiUcd c!"A\n└── it \x0bselfdestruct" with
  | none =>
    have : (@contractOf asciiUcd c!"A\n└── it \x0bselfdestruct").isSome = true := by cbv
    rw [hc] at this; cases this
  | some c =>
    have h2 := contractOf_eq hc
    have e1 : (@contractOf asciiUcd c!"A\n└── it \x0bselfdestruct").map
      (fun c => c.children.map (fun f => f.children.getD [])) = some [[.comment c!"it \x0bselfdestruct"]] := by cbv
    rw [hc] at e1
    simp only [Option.map_some, Option.some.injEq] at e1
    have hm : [BodyItem.comment c!"it \x0bselfdestruct"] ∈ c.children.map (fun f => f.children.getD []) := by rw [e1]; simp
    obtain ⟨f, hf, he⟩ := List.mem_map.1 hm
    have := h id _ c.identifier c.children h2 f hf c!"it \x0bselfdestruct" (by rw [he]; simp) '\x0b' (by simp)
    exact this (by simp [solTerminators])

section
attribute [local instance] asciiUcd

/-- The generated source. -/
def sourceOf (cfg : Config) (text : Str) : Option Str := match scaffoldSource id cfg text with
  | .ok s => some s
  | _ => none

set_option maxRecDepth 16000 in
/-- A comment with quotes and the internal marker. -/
example : sourceOf { Config.default with emitVmSkip := true } c!"Foo-Bar\n├── it says \"hi\";\n└── when a\n    ├── it string __bulloak_comment__ = \"x\";\n    └── when b\n        └── it y" =
    some c!"// SPDX-License-Identifier: UNLICENSED
pragma solidity 0.8.0;
import {Test} from \"forge-std/Test.sol\";
contract Foo_Bar is Test {function test_Sayshi() external {
// it says \"hi\";
vm.skip(true);
}

modifier whenA() {
_;
}

function test_WhenA() external whenA {
// it string __bulloak_comment__ = \"x\";
vm.skip(true);
}

function test_WhenB() external whenA {
// it y
vm.skip(true);
}}" := by cbv

end
end Bulloak
