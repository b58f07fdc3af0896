import Verif.Spec.Sol
import Verif.Props.Combine
/-! # Lemmas about the generated text -/

set_option linter.unusedSectionVars false

namespace Bulloak
open Spec

/-! ## Comment clean-up -/

theorem splitNlAux_append (a b : Str) : ∀ cur, splitNlAux cur (a ++ '\n' :: b) = splitNlAux cur a ++ splitNlAux [] b := by
  induction a with
  | nil => intro cur; simp [splitNlAux]
  | cons c a ih =>
    intro cur
    rw [List.cons_append, splitNlAux, splitNlAux]
    by_cases hc : c = '\n'
    · rw [if_pos hc, if_pos hc, ih]; rfl
    · rw [if_neg hc, if_neg hc, ih]

theorem joinSep_append (sep : Str) {xs ys : List Str} (hx : xs ≠ []) (hy : ys ≠ []) :
    joinSep sep (xs ++ ys) = joinSep sep xs ++ sep ++ joinSep sep ys := by
  induction xs with
  | nil => exact absurd rfl hx
  | cons x xs ih =>
    cases xs with
    | nil =>
      cases ys with
      | nil => exact absurd rfl hy
      | cons y ys => simp [joinSep]
    | cons x' xs =>
      have := ih (by simp)
      simp only [List.cons_append] at this ⊢
      rw [joinSep, this, joinSep]
      simp

theorem cleanup_nl (a b : Str) : cleanupComments (a ++ '\n' :: b) = cleanupComments a ++ '\n' :: cleanupComments b := by
  unfold cleanupComments
  rw [splitNlAux_append, List.map_append, joinSep_append _ (by simpa using splitNlAux_ne a []) (by simpa using splitNlAux_ne b [])]
  simp

theorem splitNlAux_line (l : Str) : ∀ cur, '\n' ∉ l → splitNlAux cur l = [cur ++ l] := by
  induction l with
  | nil => intro cur _; simp [splitNlAux]
  | cons c l ih =>
    intro cur h
    simp only [List.mem_cons, not_or] at h
    rw [splitNlAux, if_neg (fun e => h.1 e.symm), ih _ h.2]
    simp

theorem cleanup_line {l : Str} (h : '\n' ∉ l) : cleanupComments l = cleanupLine l := by
  simp [cleanupComments, splitNlAux_line l [] h, joinSep]

theorem cleanup_nil : cleanupComments [] = [] := by rfl

/-- No `=` directly after a space. -/
def Tight : Str → Prop
  | a :: b :: r => ¬ (a = ' ' ∧ b = '=') ∧ Tight (b :: r)
  | _ => True

instance instDecidableTight : (l : Str) → Decidable (Tight l)
  | [] => .isTrue trivial
  | [_] => .isTrue trivial
  | a :: b :: r => by
    unfold Tight
    exact @instDecidableAnd _ _ _ (instDecidableTight (b :: r))

theorem tight_tail {c : Char} {r : Str} (h : Tight (c :: r)) : Tight r := by
  cases r with
  | nil => trivial
  | cons d r => exact h.2

theorem tight_append {a b : Str} (ha : Tight a) (hb : Tight b) (h : b.head? ≠ some '=') : Tight (a ++ b) := by
  induction a with
  | nil => exact hb
  | cons c a ih =>
    have ih := ih (tight_tail ha)
    cases a with
    | nil =>
      cases b with
      | nil => trivial
      | cons d b =>
        refine ⟨?_, hb⟩
        rintro ⟨_, rfl⟩
        exact h rfl
    | cons d a => exact ⟨ha.1, ih⟩

theorem tight_noSpace {a : Str} (h : ' ' ∉ a) : Tight a := by
  induction a with
  | nil => trivial
  | cons c a ih =>
    cases a with
    | nil => trivial
    | cons d a =>
      refine ⟨?_, ih (fun hm => h (by simp [hm]))⟩
      rintro ⟨rfl, _⟩
      exact h (by simp)

theorem tight_suffix {a b : Str} (h : Tight (a ++ b)) : Tight b := by
  induction a with
  | nil => exact h
  | cons c a ih => exact ih (tight_tail h)

theorem not_tight_marker (r : Str) : ¬ Tight (commentMarker ++ r) := by
  intro h
  have e : commentMarker ++ r = c!"string __bulloak_comment__" ++ (' ' :: '=' :: ' ' :: '"' :: r) := by simp [commentMarker]
  rw [e] at h
  exact (tight_suffix h).1 ⟨rfl, rfl⟩

theorem cleanupLine_tight {l : Str} (h : Tight l) : cleanupLine l = l := by
  induction l with
  | nil => rfl
  | cons c r ih =>
    unfold cleanupLine
    have hs : stripPrefix commentMarker (c :: r) = none := by
      cases hs : stripPrefix commentMarker (c :: r) with
      | none => rfl
      | some t =>
        have := stripPrefix_eq.1 hs
        rw [this] at h
        exact absurd h (not_tight_marker t)
    rw [hs]
    simp only [Option.bind_none]
    rw [ih (tight_tail h)]

theorem cleanup_tight {l : Str} (hn : '\n' ∉ l) (h : Tight l) : cleanupComments l = l := by
  rw [cleanup_line hn, cleanupLine_tight h]

theorem splitLastQuote_none {r : Str} (h : '"' ∉ r) : splitLastQuote r = none := by
  induction r with
  | nil => rfl
  | cons c r ih =>
    simp only [List.mem_cons, not_or] at h
    rw [splitLastQuote, ih h.2]
    simp only
    rw [if_neg]
    rintro ⟨rfl, _⟩
    exact h.1 rfl

theorem splitLastQuote_end (t : Str) : splitLastQuote (t ++ c!"\";") = some (t, []) := by
  induction t with
  | nil => rfl
  | cons c t ih => rw [List.cons_append, splitLastQuote, ih]

theorem cleanup_stmt {item : BodyItem} (h : ∀ t, item = .comment t → '\n' ∉ t) (rest : Str) :
    cleanupComments ((genStmt item).show ++ '\n' :: rest) = solItem item ++ cleanupComments rest := by
  rw [cleanup_nl]
  cases item with
  | vmSkip =>
    have : cleanupComments (genStmt .vmSkip).show = c!"vm.skip(true);" := by decide
    rw [this]
    simp [solItem]
  | comment t =>
    have hn : '\n' ∉ (genStmt (.comment t)).show := by
      have := h t rfl
      simp only [genStmt, PtStmt.show, List.mem_append, not_or]
      exact ⟨⟨by decide, this⟩, by decide⟩
    rw [cleanup_line hn]
    have hs : stripPrefix commentMarker ((genStmt (.comment t)).show) = some (t ++ c!"\";") := by
      rw [stripPrefix_eq]
      simp [genStmt, PtStmt.show, commentMarker]
    unfold cleanupLine
    rw [hs]
    simp only [Option.bind_some, splitLastQuote_end]
    simp [solItem]

theorem cleanup_items (items : List BodyItem) (h : ∀ t, BodyItem.comment t ∈ items → '\n' ∉ t) (rest : Str) :
    cleanupComments (items.flatMap (fun i => (genStmt i).show ++ c!"\n") ++ rest) = items.flatMap solItem ++ cleanupComments rest := by
  induction items with
  | nil => simp
  | cons i items ih =>
    rw [List.flatMap_cons, List.flatMap_cons]
    simp only [List.append_assoc, List.cons_append, List.nil_append]
    rw [cleanup_stmt (fun t ht => h t (by simp [ht])), ih (fun t ht => h t (by simp [ht]))]

/-- Names without white space that do not begin with `=`; comments on one line. -/
structure FnOk (f : HFn) : Prop where
  name : NoWs f.identifier
  start : f.identifier.head? ≠ some '='
  mods : ∀ m ∈ f.modifiers.getD [], NoWs m ∧ m.head? ≠ some '='
  comments : ∀ t, BodyItem.comment t ∈ f.children.getD [] → '\n' ∉ t

/-- The header of a function up to the opening brace. -/
def headOf (f : HFn) : Str :=
  match f.ty with
  | .modifier => c!"modifier " ++ f.identifier ++ c!"() "
  | .function => c!"function " ++ f.identifier ++ c!"() external " ++ (f.modifiers.getD []).flatMap (fun m => m ++ c!" ")

/-- The lines of the body of a function. -/
def linesOf (f : HFn) : Str :=
  match f.ty with
  | .modifier => c!"_;\n"
  | .function => (f.children.getD []).flatMap solItem

theorem solFn_eq (f : HFn) : solFn f = headOf f ++ c!"{\n" ++ linesOf f ++ c!"}" := by
  unfold solFn headOf linesOf
  cases f.ty <;> simp

theorem joinSep_flat (xs : List Str) (h : xs ≠ []) : joinSep c!"\n" xs ++ c!"\n" = xs.flatMap (fun x => x ++ c!"\n") := by
  induction xs with
  | nil => exact absurd rfl h
  | cons x xs ih =>
    cases xs with
    | nil => simp [joinSep]
    | cons y ys =>
      rw [joinSep, List.append_assoc, ih (by simp)]
      simp

theorem fmtBlock_eq (items : List BodyItem) :
    fmtBlock (items.map genStmt) = c!"{\n" ++ items.flatMap (fun i => (genStmt i).show ++ c!"\n") ++ c!"}" := by
  unfold fmtBlock
  cases items with
  | nil => rfl
  | cons i items =>
    have := joinSep_flat ((List.map genStmt (i :: items)).map PtStmt.show) (by simp)
    simp only [List.map_cons, List.isEmpty_cons, Bool.false_eq_true, if_false] at this ⊢
    rw [List.append_assoc c!"{\n", this]
    simp [List.flatMap_map]

theorem mods_join (ms : List Str) : c!" " ++ joinSep c!" " (c!"external" :: ms) ++ c!" " =
    c!" external " ++ ms.flatMap (fun m => m ++ c!" ") := by
  have : ∀ (ms : List Str) (x : Str), joinSep c!" " (x :: ms) ++ c!" " = x ++ c!" " ++ ms.flatMap (fun m => m ++ c!" ") := by
    intro ms
    induction ms with
    | nil => intro x; simp [joinSep]
    | cons m ms ih =>
      intro x
      rw [joinSep, List.append_assoc, ih]
      simp
  rw [List.append_assoc, this]
  simp

theorem fmtFunction_eq (f : HFn) : ∃ S, fmtFunction (ptFunction f) = headOf f ++ c!"{\n" ++ S ++ c!"}" ∧
    ((∀ t, BodyItem.comment t ∈ f.children.getD [] → '\n' ∉ t) → ∀ rest, cleanupComments (S ++ rest) = linesOf f ++ cleanupComments rest) := by
  obtain ⟨i, ty, sp, m, c⟩ := f
  cases ty with
  | modifier =>
    refine ⟨c!"_;\n", ?_, ?_⟩
    · simp [fmtFunction, ptFunction, headOf, genFnAttr, genFnBody, FnTy.show, fmtBlock, PtStmt.show, joinSep]
    · intro _ rest
      have : c!"_;\n" ++ rest = c!"_;" ++ '\n' :: rest := rfl
      rw [this, cleanup_nl]
      rfl
  | function =>
    refine ⟨(c.getD []).flatMap (fun i => (genStmt i).show ++ c!"\n"), ?_, ?_⟩
    · have := mods_join (m.getD [])
      have e : List.map PtAttr.show (PtAttr.external :: List.map PtAttr.modifierUse (m.getD [])) = c!"external" :: m.getD [] := by
        rw [List.map_cons, List.map_map]
        congr 1
        exact List.map_id _
      simp only [fmtFunction, ptFunction, genFnAttr, genFnBody, FnTy.show, fmtBlock_eq, headOf, e, List.isEmpty_cons,
        Bool.false_eq_true, if_false]
      have this := congrArg (fun x => x ++ (c!"{\n" ++ (c.getD []).flatMap (fun i => (genStmt i).show ++ c!"\n") ++ c!"}")) this
      simpa using this
    · intro h rest
      exact cleanup_items _ h rest

theorem head_tight {f : HFn} (h : FnOk f) : Tight (headOf f) ∧ '\n' ∉ headOf f := by
  have sp : ∀ {s : Str}, NoWs s → ' ' ∉ s := fun hs hm => absurd (hs _ hm) (by decide)
  have nl : ∀ {s : Str}, NoWs s → '\n' ∉ s := fun hs hm => absurd (hs _ hm) (by decide)
  have hmods : Tight ((f.modifiers.getD []).flatMap (fun m => m ++ c!" ")) ∧
      ((f.modifiers.getD []).flatMap (fun m => m ++ c!" ")).head? ≠ some '=' ∧
      '\n' ∉ (f.modifiers.getD []).flatMap (fun m => m ++ c!" ") := by
    have := h.mods
    generalize f.modifiers.getD [] = ms at this
    induction ms with
    | nil => exact ⟨by simp [Tight], by simp, by simp⟩
    | cons m ms ih =>
      obtain ⟨h1, h2, h3⟩ := ih (fun x hx => this x (by simp [hx]))
      obtain ⟨h4, h5⟩ := this m (by simp)
      rw [List.flatMap_cons]
      refine ⟨?_, ?_, ?_⟩
      · apply tight_append _ h1 h2
        exact tight_append (tight_noSpace (sp h4)) (by simp [Tight]) (by simp)
      · cases m with
        | nil => simp
        | cons x m => simpa using h5
      · simp only [List.mem_append, not_or]
        exact ⟨⟨nl h4, by decide⟩, h3⟩
  unfold headOf
  cases f.ty with
  | modifier =>
    simp only
    refine ⟨?_, ?_⟩
    · apply tight_append _ (by decide) (by decide)
      exact tight_append (by decide) (tight_noSpace (sp h.name)) h.start
    · simp only [List.mem_append, not_or]
      exact ⟨⟨by decide, nl h.name⟩, by decide⟩
  | function =>
    simp only
    refine ⟨?_, ?_⟩
    · apply tight_append _ hmods.1 hmods.2.1
      apply tight_append _ (by decide) (by decide)
      exact tight_append (by decide) (tight_noSpace (sp h.name)) h.start
    · simp only [List.mem_append, not_or]
      exact ⟨⟨⟨by decide, nl h.name⟩, by decide⟩, hmods.2.2⟩

theorem headOf_start (f : HFn) : (headOf f).head? ≠ some '=' := by
  unfold headOf
  cases f.ty <;> simp

theorem cleanup_fns (fs : List HFn) : ∀ p, Tight p → '\n' ∉ p → (∀ f ∈ fs, FnOk f) →
    cleanupComments (p ++ joinSep c!"\n\n" (fs.map (fun f => fmtFunction (ptFunction f))) ++ c!"}") =
      p ++ stanzas (fs.map solFn) ++ c!"}" := by
  have step : ∀ f, FnOk f → ∀ p, Tight p → '\n' ∉ p → ∀ q,
      cleanupComments (p ++ fmtFunction (ptFunction f) ++ q) = p ++ headOf f ++ c!"{\n" ++ linesOf f ++ cleanupComments (c!"}" ++ q) := by
    intro f hf p hp hn q
    obtain ⟨S, h1, h2⟩ := fmtFunction_eq f
    have e : p ++ fmtFunction (ptFunction f) ++ q = (p ++ headOf f ++ c!"{") ++ '\n' :: (S ++ (c!"}" ++ q)) := by
      rw [h1]; simp
    rw [e, cleanup_nl, h2 hf.comments, cleanup_tight]
    · simp
    · simp only [List.mem_append, not_or]
      exact ⟨⟨hn, (head_tight hf).2⟩, by decide⟩
    · exact tight_append (tight_append hp (head_tight hf).1 (headOf_start f)) (by simp [Tight]) (by decide)
  induction fs with
  | nil =>
    intro p hp hn _
    simp only [List.map_nil, joinSep, stanzas, List.append_nil]
    apply cleanup_tight
    · simp only [List.mem_append, not_or]; exact ⟨hn, by decide⟩
    · exact tight_append hp (by simp [Tight]) (by decide)
  | cons f fs ih =>
    intro p hp hn h
    have hf := h f (by simp)
    cases fs with
    | nil =>
      simp only [List.map_cons, List.map_nil, joinSep, stanzas]
      rw [step f hf p hp hn, solFn_eq]
      have : cleanupComments (c!"}" ++ c!"}") = c!"}}" := by decide
      rw [this]
      simp
    | cons g gs =>
      have ih := ih [] (by simp [Tight]) (by simp) (fun x hx => h x (by simp [hx]))
      have e : p ++ joinSep c!"\n\n" (List.map (fun f => fmtFunction (ptFunction f)) (f :: g :: gs)) ++ c!"}" =
          p ++ fmtFunction (ptFunction f) ++ (c!"\n\n" ++ (joinSep c!"\n\n" (List.map (fun f => fmtFunction (ptFunction f)) (g :: gs)) ++ c!"}")) := by
        simp [joinSep]
      rw [e, step f hf p hp hn]
      have e2 : c!"}" ++ (c!"\n\n" ++ (joinSep c!"\n\n" (List.map (fun f => fmtFunction (ptFunction f)) (g :: gs)) ++ c!"}")) =
          c!"}" ++ '\n' :: ([] ++ '\n' :: (joinSep c!"\n\n" (List.map (fun f => fmtFunction (ptFunction f)) (g :: gs)) ++ c!"}")) := by simp
      have e3 : cleanupComments c!"}" = c!"}" := by decide
      rw [List.nil_append] at ih
      rw [e2, cleanup_nl, cleanup_nl, e3, cleanup_nil, ih]
      simp [stanzas, solFn_eq f]

section
variable [U : Ucd]

/-- The generated text, if names and comments are well-behaved. -/
theorem emitSource_eq [LawfulUcd] (cfg : Config) (n : Str) (fns : List HFn) (hv : '"' ∉ cfg.solidityVersion) (hvn : '\n' ∉ cfg.solidityVersion)
    (hn1 : ' ' ∉ n) (hn2 : '\n' ∉ n) (hf : ∀ f ∈ fns, FnOk f) : emitSource (ptTranslate cfg ⟨[⟨n, fns⟩]⟩) =
      solFile cfg.solidityVersion cfg.emitVmSkip (sanitize n) (fns.filter (fun f => !(f.isModifier && cfg.skipModifiers))) := by
  have hnoq : ∀ l : Str, '\n' ∉ l → '"' ∉ l → cleanupComments l = l := by
    intro l h1 h2
    rw [cleanup_line h1]
    clear h1
    induction l with
    | nil => rfl
    | cons c r ih =>
      unfold cleanupLine
      have hs : stripPrefix commentMarker (c :: r) = none := by
        cases hs : stripPrefix commentMarker (c :: r) with
        | none => rfl
        | some t =>
          have := stripPrefix_eq.1 hs
          rw [this] at h2
          exact absurd (List.mem_append_left _ (by decide)) h2
      rw [hs]
      simp only [Option.bind_none]
      rw [ih (fun h => h2 (by simp [h]))]
  have hs1 : ' ' ∉ sanitize n := by
    intro h
    rcases sanitize_sub h with h | h
    · exact hn1 h
    · exact absurd h (by decide)
  have hs2 : '\n' ∉ sanitize n := by
    intro h
    rcases sanitize_sub h with h | h
    · exact hn2 h
    · exact absurd h (by decide)
  have hs3 : (sanitize n).head? ≠ some '=' := by
    intro h
    have : '=' ∈ sanitize n := List.mem_of_mem_head? h
    rcases sanitize_mem this with h | h
    · rw [LawfulUcd.plain_xid _ (by decide)] at h; exact absurd h (by decide)
    · exact absurd h (by decide)
  generalize hfs : fns.filter (fun f => !(f.isModifier && cfg.skipModifiers)) = fs
  have hok : ∀ f ∈ fs, FnOk f := by
    intro f hm
    rw [← hfs] at hm
    exact hf f (List.mem_filter.1 hm).1
  have hparts : (ptContract cfg ⟨n, fns⟩) = ⟨n, if cfg.emitVmSkip then [c!"Test"] else [], fs.map ptFunction⟩ := by
    simp only [ptContract, hfs]
  have hbase : ∀ p, Tight p → '\n' ∉ p → cleanupComments (p ++ c!"{" ++ joinSep c!"\n\n" ((fs.map ptFunction).map fmtFunction) ++ c!"}") =
      p ++ c!"{" ++ stanzas (fs.map solFn) ++ c!"}" := by
    intro p hp hpn
    have := cleanup_fns fs (p ++ c!"{") (tight_append hp (by simp [Tight]) (by decide))
      (by simp only [List.mem_append, not_or]; exact ⟨hpn, by decide⟩) hok
    rw [List.map_map]
    exact this
  have hpre : Tight (c!"contract " ++ sanitize n ++ c!" ") ∧ '\n' ∉ c!"contract " ++ sanitize n ++ c!" " := by
    refine ⟨?_, ?_⟩
    · apply tight_append _ (by simp [Tight]) (by decide)
      exact tight_append (by decide) (tight_noSpace hs1) hs3
    · simp only [List.mem_append, not_or]
      exact ⟨⟨by decide, hs2⟩, by decide⟩
  have hpragma : cleanupComments (c!"pragma solidity " ++ cfg.solidityVersion ++ c!";") = c!"pragma solidity " ++ cfg.solidityVersion ++ c!";" := by
    apply hnoq
    · simp only [List.mem_append, not_or]; exact ⟨⟨by decide, hvn⟩, by decide⟩
    · simp only [List.mem_append, not_or]; exact ⟨⟨by decide, hv⟩, by decide⟩
  have hlic : cleanupComments c!"// SPDX-License-Identifier: UNLICENSED" = c!"// SPDX-License-Identifier: UNLICENSED" :=
    hnoq _ (by decide) (by decide)
  have himp : cleanupComments c!"import {Test} from \"forge-std/Test.sol\";" = c!"import {Test} from \"forge-std/Test.sol\";" := by
    apply cleanup_tight
    · decide
    · decide
  unfold emitSource fmtSourceUnit ptTranslate
  rw [List.map_cons, List.map_nil, hparts]
  by_cases hsk : cfg.emitVmSkip = true
  · simp only [hsk, if_true, List.cons_append, List.nil_append, List.map_cons, List.map_nil, joinSep, fmtPart, fmtContract,
      List.isEmpty_cons, Bool.false_eq_true, if_false]
    refine (congrArg cleanupComments (?e : c!"// SPDX-License-Identifier: UNLICENSED\npragma solidity " ++ cfg.solidityVersion ++ c!";" ++ c!"\n" ++
        (c!"import {Test} from \"forge-std/Test.sol\";" ++ c!"\n" ++ (c!"contract " ++ sanitize n ++ c!" " ++ (c!"is " ++ c!"Test" ++ c!" ") ++ c!"{" ++
          joinSep c!"\n\n" (List.map fmtFunction (List.map ptFunction fs)) ++ c!"}")) =
        c!"// SPDX-License-Identifier: UNLICENSED" ++ '\n' :: ((c!"pragma solidity " ++ cfg.solidityVersion ++ c!";") ++ '\n' ::
          (c!"import {Test} from \"forge-std/Test.sol\";" ++ '\n' :: ((c!"contract " ++ sanitize n ++ c!" " ++ c!"is Test ") ++ c!"{" ++
          joinSep c!"\n\n" (List.map fmtFunction (List.map ptFunction fs)) ++ c!"}"))))).trans ?_
    case e => simp
    rw [cleanup_nl, cleanup_nl, cleanup_nl, hlic, hpragma, himp, hbase]
    · simp [solFile]
    · exact tight_append hpre.1 (by decide) (by decide)
    · rw [List.mem_append, not_or]; exact ⟨hpre.2, by decide⟩
  · simp only [hsk, if_false, List.cons_append, List.nil_append, List.map_cons, List.map_nil, joinSep, fmtPart, fmtContract,
      List.isEmpty_nil, if_true, Bool.false_eq_true]
    refine (congrArg cleanupComments (?e : c!"// SPDX-License-Identifier: UNLICENSED\npragma solidity " ++ cfg.solidityVersion ++ c!";" ++ c!"\n" ++
        (c!"contract " ++ sanitize n ++ c!" " ++ [] ++ c!"{" ++ joinSep c!"\n\n" (List.map fmtFunction (List.map ptFunction fs)) ++ c!"}") =
        c!"// SPDX-License-Identifier: UNLICENSED" ++ '\n' :: ((c!"pragma solidity " ++ cfg.solidityVersion ++ c!";") ++ '\n' ::
          ((c!"contract " ++ sanitize n ++ c!" ") ++ c!"{" ++
          joinSep c!"\n\n" (List.map fmtFunction (List.map ptFunction fs)) ++ c!"}")))).trans ?_
    case e => simp
    rw [cleanup_nl, cleanup_nl, hlic, hpragma, hbase _ hpre.1 hpre.2]
    simp [solFile]

end
end Bulloak
