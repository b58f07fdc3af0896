import Verif.Props.Alike
/-! # The tests alone determine the tree (C111 with `-m`) -/

namespace Bulloak
open Spec
set_option linter.unusedSectionVars false

/-- Code of a function. -/
private abbrev Code := FnTy × Str × List Str × List BodyItem

private def isTest (c : Code) : Bool := c.1 = .function

private def modCode (m : Str) : Code := (.modifier, m, [], [])

/-- Declares the modifiers of tests in front of their first use. -/
private def declare (seen : List Str) : List Code → List Code
  | [] => []
  | c :: r => (c.2.2.1.filter (fun m => m ∉ seen)).map modCode ++ c :: declare (seen ++ c.2.2.1) r

section
variable [U : Ucd]

private theorem own_tests (skip : Bool) (encl : List Ast) (s : Span) (t : Str) (ks : List Ast) :
    (ownCode skip encl s t ks).filter isTest = if ks.filter Ast.isAction = [] then []
    else [(.function, testName (.condition s t ks), (encl.map modName ++ if ks.any Ast.isCondition then [camel t] else []), bodyOf skip (actionLines ks))] := by
  unfold ownCode
  rw [List.filter_append]
  have : (if ks.any Ast.isCondition = true then [((.modifier, camel t, [], []) : Code)] else []).filter isTest = [] := by
    split <;> rfl
  rw [this, List.nil_append]
  split <;> rfl

private theorem filter_seen {l seen : List Str} (h : ∀ m ∈ l, m ∈ seen) : l.filter (fun m => m ∉ seen) = [] :=
  List.filter_eq_nil_iff.2 fun m hm => by simpa using h m hm

/-- The modifiers of branches are found from their tests. -/
private theorem forest_declare [LawfulUcd] {skip : Bool} (n : Nat) : ∀ {l encl : List Ast} {seen : List Str}, sizeOf l ≤ n → (∀ a ∈ l, GoodItem a) → Usable l →
    (∀ m ∈ (conditionsOf l).map modName, m ∉ seen ∧ m ∉ encl.map modName) → l.any Ast.isCondition = true →
    ∃ seen', (∀ m ∈ seen, m ∈ seen') ∧ (∀ m ∈ encl.map modName, m ∈ seen') ∧
      (∀ m ∈ seen', m ∈ seen ∨ m ∈ encl.map modName ∨ m ∈ (conditionsOf l).map modName) ∧
      ∀ x, declare seen ((forestCode skip encl l).filter isTest ++ x) =
        ((encl.map modName).filter (fun m => m ∉ seen)).map modCode ++ forestCode skip encl l ++ declare seen' x := by
  induction n with
  | zero => intro l _ _ h; cases l <;> simp at h
  | succ n ih =>
    intro l encl seen hsz hg hs hm hc
    cases l with
    | nil => cases hc
    | cons a l =>
      have hgl := fun b hb => hg b (List.mem_cons_of_mem _ hb)
      have hml : ∀ m ∈ (conditionsOf l).map modName, m ∉ seen ∧ m ∉ encl.map modName := fun m h => hm m (by
        rw [conditionsOf_cons, List.map_append]; exact List.mem_append_right _ h)
      cases ha : a.isCondition with
      | false =>
        rw [List.any_cons, ha, Bool.false_or] at hc
        obtain ⟨seen', h1, h2, h3, h4⟩ := ih (by simp at hsz; omega) hgl (sound_tail hs) hml hc
        refine ⟨seen', h1, h2, fun m h => (h3 m h).imp_right (Or.imp_right fun k => ?_), fun x => ?_⟩
        · rw [conditionsOf_cons, List.map_append]; exact List.mem_append_right _ k
        · rw [forestCode_other _ _ ha]; exact h4 x
      | true =>
        cases a with
        | action => cases ha
        | description => cases ha
        | root => cases ha
        | condition s t ks =>
          obtain ⟨g1, g2⟩ := good_cond (hg _ (List.mem_cons_self ..))
          obtain ⟨u1, u2, u3, u4⟩ := sound_kids hs
          simp only [List.cons.sizeOf_spec, Ast.condition.sizeOf_spec] at hsz
          have hct : camel t ∉ seen ∧ camel t ∉ encl.map modName := hm (camel t) (by
            rw [conditionsOf_cons, conditionsOf_condition]; exact List.mem_cons_self ..)
          have hkl : ∀ m, m ∈ (conditionsOf (Ast.condition s t ks :: l)).map modName ↔ m = camel t ∨ m ∈ (conditionsOf ks).map modName ∨ m ∈ (conditionsOf l).map modName := by
            intro m
            rw [conditionsOf_cons, conditionsOf_condition, List.cons_append, List.map_cons, List.map_append, List.mem_cons, List.mem_append]
            rfl
          have hnd := hs.2.1
          rw [conditionsOf_cons, conditionsOf_condition, List.cons_append, List.map_cons, List.map_append, List.nodup_cons, List.nodup_append] at hnd
          have hencl : (encl ++ [Ast.condition s t ks]).map modName = encl.map modName ++ [camel t] := by rw [List.map_append]; rfl
          -- the condition with what is below
          have hown : ∃ seen1, (∀ m ∈ seen, m ∈ seen1) ∧ (∀ m ∈ encl.map modName, m ∈ seen1) ∧
              (∀ m ∈ seen1, m ∈ seen ∨ m ∈ encl.map modName ∨ m = camel t ∨ m ∈ (conditionsOf ks).map modName) ∧
              ∀ x, declare seen ((ownCode skip encl s t ks).filter isTest ++ ((forestCode skip (encl ++ [Ast.condition s t ks]) ks).filter isTest ++ x)) =
                ((encl.map modName).filter (fun m => m ∉ seen)).map modCode ++ (ownCode skip encl s t ks ++ (forestCode skip (encl ++ [Ast.condition s t ks]) ks ++ declare seen1 x)) := by
            have hks : ∀ (sn : List Str), (∀ m ∈ sn, m ∈ seen ∨ m ∈ encl.map modName ∨ m = camel t) →
                ∀ m ∈ (conditionsOf ks).map modName, m ∉ sn ∧ m ∉ (encl ++ [Ast.condition s t ks]).map modName := by
              intro sn hsn m h
              have h0 := hm m ((hkl m).2 (.inr (.inl h)))
              have hne : m ≠ camel t := fun e => u3 (e ▸ h)
              refine ⟨fun k => ?_, fun k => ?_⟩
              · rcases hsn m k with k | k | k
                · exact h0.1 k
                · exact h0.2 k
                · exact hne k
              · rw [hencl, List.mem_append, List.mem_singleton] at k
                exact k.elim h0.2 hne
            rw [own_tests]
            cases hn : ks.any Ast.isCondition with
            | false =>
              have hact := nested_or g2 u1 hn
              refine ⟨seen ++ encl.map modName, fun m h => List.mem_append_left _ h, fun m h => List.mem_append_right _ h, fun m h => ?_, fun x => ?_⟩
              · exact (List.mem_append.1 h).imp_right .inl
              · rw [if_neg hact, forestCode_plain hn, ownCode, if_neg hact, hn]
                simp [declare]
            | true =>
              by_cases hact : ks.filter Ast.isAction = []
              · rw [if_pos hact]
                obtain ⟨seen1, h1, h2, h3, h4⟩ := ih (l := ks) (encl := encl ++ [Ast.condition s t ks]) (seen := seen) (by omega) g2 u2
                  (hks seen fun m h => .inl h) hn
                refine ⟨seen1, h1, fun m h => h2 m (by rw [hencl]; exact List.mem_append_left _ h), fun m h => ?_, fun x => ?_⟩
                · rcases h3 m h with k | k | k
                  · exact .inl k
                  · rw [hencl, List.mem_append, List.mem_singleton] at k
                    exact k.elim (fun k => .inr (.inl k)) (fun k => .inr (.inr (.inl k)))
                  · exact .inr (.inr (.inr k))
                · rw [List.nil_append, h4 x, hencl, List.filter_append, ownCode, if_pos hn, if_pos hact]
                  simp [hct.1, modCode]
              · rw [if_neg hact]
                simp only [if_true]
                have e1 : ∀ m ∈ (encl ++ [Ast.condition s t ks]).map modName, m ∈ seen ++ (encl.map modName ++ [camel t]) := fun m h => by
                  rw [hencl] at h; exact List.mem_append_right _ h
                obtain ⟨seen1, h1, h2, h3, h4⟩ := ih (l := ks) (encl := encl ++ [Ast.condition s t ks]) (seen := seen ++ (encl.map modName ++ [camel t])) (by omega) g2 u2
                  (hks _ fun m h => by
                    rw [List.mem_append, List.mem_append, List.mem_singleton] at h
                    exact h) hn
                refine ⟨seen1, fun m h => h1 m (List.mem_append_left _ h), fun m h => h1 m (List.mem_append_right _ (List.mem_append_left _ h)), fun m h => ?_, fun x => ?_⟩
                · rcases h3 m h with k | k | k
                  · rw [List.mem_append, List.mem_append, List.mem_singleton] at k
                    rcases k with k | k | k
                    · exact .inl k
                    · exact .inr (.inl k)
                    · exact .inr (.inr (.inl k))
                  · rw [hencl, List.mem_append, List.mem_singleton] at k
                    exact k.elim (fun k => .inr (.inl k)) (fun k => .inr (.inr (.inl k)))
                  · exact .inr (.inr (.inr k))
                · have h5 := h4 x
                  rw [filter_seen e1, List.map_nil, List.nil_append] at h5
                  rw [List.singleton_append, declare, h5, List.filter_append, ownCode, if_pos hn, if_neg hact, hn]
                  simp [hct.1, modCode]
          obtain ⟨seen1, h1, h2, h3, h4⟩ := hown
          rw [forestCode_condition, List.filter_append, List.filter_append]
          cases hcl : l.any Ast.isCondition with
          | false =>
            refine ⟨seen1, h1, h2, fun m h => ?_, fun x => ?_⟩
            · rw [hkl]
              rcases h3 m h with k | k | k | k
              · exact .inl k
              · exact .inr (.inl k)
              · exact .inr (.inr (.inl k))
              · exact .inr (.inr (.inr (.inl k)))
            · rw [forestCode_plain hcl, List.filter_nil, List.append_nil, List.append_nil, List.append_assoc, h4 x]
              simp only [List.append_assoc]
          | true =>
            obtain ⟨seen2, k1, k2, k3, k4⟩ := ih (l := l) (encl := encl) (seen := seen1) (by omega) hgl (sound_tail hs) (fun m h => by
              refine ⟨fun k => ?_, (hml m h).2⟩
              rcases h3 m k with k | k | k | k
              · exact (hml m h).1 k
              · exact (hml m h).2 k
              · exact u4 (k ▸ h)
              · exact hnd.2.2.2 m k m h rfl) hcl
            refine ⟨seen2, fun m h => k1 m (h1 m h), k2, fun m h => ?_, fun x => ?_⟩
            · rw [hkl]
              rcases k3 m h with k | k | k
              · rcases h3 m k with k | k | k | k
                · exact .inl k
                · exact .inr (.inl k)
                · exact .inr (.inr (.inl k))
                · exact .inr (.inr (.inr (.inl k)))
              · exact .inr (.inl k)
              · exact .inr (.inr (.inr (.inr k)))
            · have h5 := k4 x
              rw [filter_seen h2, List.map_nil, List.nil_append] at h5
              rw [List.append_assoc, List.append_assoc, h4, h5]
              simp only [List.append_assoc]

/-- The modifiers of a tree are found from its tests. -/
private theorem top_declare [LawfulUcd] {skip : Bool} {l : List Ast} : ∀ {seen : List Str}, (∀ a ∈ l, GoodItem a) → Usable l →
    (∀ m ∈ (conditionsOf l).map modName, m ∉ seen) → declare seen ((topCode skip l).filter isTest) = topCode skip l := by
  induction l with
  | nil => intros; rfl
  | cons a l ih =>
    intro seen hg hs hm
    have hgl := fun b hb => hg b (List.mem_cons_of_mem _ hb)
    rcases good_cases (hg a (List.mem_cons_self ..)) with ⟨s, t, ds, rfl⟩ | ⟨s, t, ks, rfl⟩
    · rw [topCode_action, List.filter_cons_of_pos (by rfl), declare]
      simp only [List.filter_nil, List.map_nil, List.nil_append, List.append_nil]
      rw [ih hgl (sound_tail hs) (fun m h => hm m (by rw [conditionsOf_cons, List.map_append]; exact List.mem_append_right _ h))]
    · have e : topCode skip (.condition s t ks :: l) = forestCode skip [] [.condition s t ks] ++ topCode skip l := by
        rw [topCode_condition, forestCode_condition, forestCode_nil, List.append_nil, List.append_assoc]
        rfl
      have hnd := hs.2.1
      rw [conditionsOf_cons, List.map_append, List.nodup_append] at hnd
      have hu : Usable [.condition s t ks] := by
        refine ⟨fun c hc => hs.1 c (by rw [conditionsOf_cons]; exact List.mem_append_left _ hc), hnd.1, fun b hb => hs.2.2 b ?_⟩
        rw [List.mem_singleton.1 hb]; exact List.mem_cons_self ..
      have hm1 : ∀ m ∈ (conditionsOf [Ast.condition s t ks]).map modName, m ∉ seen := fun m h => hm m (by
        rw [conditionsOf_cons, List.map_append]; exact List.mem_append_left _ h)
      obtain ⟨seen', h1, _, h3, h4⟩ := forest_declare (skip := skip) _ (encl := []) (seen := seen) (Nat.le_refl _)
        (fun b hb => hg b (by rw [List.mem_singleton.1 hb]; exact List.mem_cons_self ..)) hu (fun m h => ⟨hm1 m h, by simp⟩) rfl
      rw [e, List.filter_append, h4, ih hgl (sound_tail hs) ?_]
      · simp
      · intro m h k
        rcases h3 m k with k | k | k
        · exact hm m (by rw [conditionsOf_cons, List.map_append]; exact List.mem_append_right _ h) k
        · cases k
        · exact hnd.2.2 m k m h rfl

/-- **C111, tests.** The tests of a tree alone, with the modifiers they carry, determine the tree: what is said in `C111_functions` holds if only the tests are compared. -/
theorem C111_tests [LawfulUcd] {order order' : HashOrder} (ho : ∀ l, (order l).Perm l) (ho' : ∀ l, (order' l).Perm l) {text text' : Str} {ast ast' : Ast}
    (h : parse order text = .ok [ast]) (h' : parse order' text' = .ok [ast']) (cfg : Config) {n n' : Str} {fns fns' : List HFn}
    (ht : translate order cfg text = .ok ⟨[⟨n, fns⟩]⟩) (ht' : translate order' cfg text' = .ok ⟨[⟨n', fns'⟩]⟩) :
    n = n' ∧ (fns.filter (fun f => f.ty = .function)).map codeOf = (fns'.filter (fun f => f.ty = .function)).map codeOf ↔
      titleOf ast = titleOf ast' ∧ LookalikeTop (kids ast) (kids ast') := by
  rw [← C111_functions ho ho' h h' cfg ht ht']
  have e := C30_single h cfg
  rw [ht] at e
  cases e
  have e := C30_single h' cfg
  rw [ht'] at e
  cases e
  have ha := parse_accepted h ast (List.mem_singleton_self _)
  have ha' := parse_accepted h' ast' (List.mem_singleton_self _)
  have key : ∀ l : List HFn, (l.filter (fun f => f.ty = .function)).map codeOf = (l.map codeOf).filter isTest := by
    intro l
    rw [List.filter_map]
    rfl
  rw [key, key]
  refine and_congr_right fun _ => ⟨fun k => ?_, fun k => by rw [k]⟩
  have k1 := top_declare (skip := cfg.emitVmSkip) (seen := []) (accepted_good ha) (accepted_usable ho ha) (fun _ _ => by simp)
  have k2 := top_declare (skip := cfg.emitVmSkip) (seen := []) (accepted_good ha') (accepted_usable ho' ha') (fun _ _ => by simp)
  unfold topCode at k1 k2
  rw [← k1, ← k2, k]

/-- **C111, text.** With and without `-m` the generated text, before `forge fmt`, is the same exactly if the trees have the same title, up to characters that are removed, and the
same branches, up to what `LookalikeTop` leaves open: leaving out the modifiers loses nothing. -/
theorem C111_text_all [LawfulUcd] {order order' : HashOrder} (ho : ∀ l, (order l).Perm l) (ho' : ∀ l, (order' l).Perm l) {text text' : Str} {ast ast' : Ast}
    (h : parse order text = .ok [ast]) (h' : parse order' text' = .ok [ast']) {cfg : Config} (hq : '"' ∉ cfg.solidityVersion) (hn : '\n' ∉ cfg.solidityVersion) :
    scaffoldSource order cfg text = scaffoldSource order' cfg text' ↔ sanitize (titleOf ast) = sanitize (titleOf ast') ∧ LookalikeTop (kids ast) (kids ast') := by
  by_cases hm : cfg.skipModifiers = true
  · have ht := C30_single h cfg
    have ht' := C30_single h' cfg
    rw [C33_source hq hn ht, C33_source hq hn ht', written, written, hm]
    simp only [if_true, Res.ok.injEq]
    have ha := parse_accepted h ast (List.mem_singleton_self _)
    have ha' := parse_accepted h' ast' (List.mem_singleton_self _)
    have key : ∀ l : List HFn, (l.filter HFn.isFunction).map codeOf = (l.map codeOf).filter isTest := by
      intro l
      rw [List.filter_map]
      congr 1
    constructor
    · intro e
      have sp : ∀ {order : HashOrder} {text : Str} {ast : Ast}, translate order cfg text = .ok ⟨[⟨titleOf ast, expected cfg.emitVmSkip (kids ast)⟩]⟩ → ' ' ∉ sanitize (titleOf ast) := by
        intro order text ast ht
        obtain ⟨n, fns, e, h1, _, _⟩ := translate_ok ht
        simp only [HRoot.mk.injEq, List.cons.injEq, HContract.mk.injEq, and_true] at e
        rw [e.1]
        exact fun k => (sanitize_sub k).elim h1 (by decide)
      obtain ⟨k1, k2⟩ := solFile_inj (sp ht) (sp ht') (fun f hf => tree_plainly ho h cfg f (List.mem_filter.1 hf).1)
        (fun f hf => tree_plainly ho' h' cfg f (List.mem_filter.1 hf).1) e
      rw [key, key] at k2
      refine ⟨k1, top_unique (skip := cfg.emitVmSkip) (accepted_good ha) (accepted_good ha') (accepted_usable ho ha) (accepted_usable ho' ha') ?_⟩
      rw [← top_declare (skip := cfg.emitVmSkip) (seen := []) (accepted_good ha) (accepted_usable ho ha) (fun _ _ => by simp),
        ← top_declare (skip := cfg.emitVmSkip) (seen := []) (accepted_good ha') (accepted_usable ho' ha') (fun _ _ => by simp)]
      unfold topCode
      rw [k2]
    · rintro ⟨e, hl⟩
      have k := top_alike (skip := cfg.emitVmSkip) hl (accepted_good ha) (accepted_good ha')
      unfold topCode at k
      have := stanzas_code (l := (expected cfg.emitVmSkip (kids ast)).filter HFn.isFunction) (l' := (expected cfg.emitVmSkip (kids ast')).filter HFn.isFunction)
        (by rw [key, key, k])
      unfold solFile
      rw [e, this]
  · exact C111_text ho ho' h h' hq hn (by simpa using hm)

end
end Bulloak
