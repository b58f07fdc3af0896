import Verif.Lemmas.SolFile2
/-! # Lemmas about Solidity files: the layout of a file with the tokens of a generated one -/

namespace Bulloak
open Spec
set_option linter.unusedSectionVars false

/-! ## Parts -/

theorem takePart_neutral {d : Nat} {t : SolTok} {r p q : List SolTok} (h1 : ¬ (t = .sym ';' ∧ d = 0)) (ho : isOpen t = false) (hc : isClose t = false)
    (h : takePart d r = some (p, q)) : takePart d (t :: r) = some (t :: p, q) := by
  have h2 : t ≠ .sym '}' := by rintro rfl; cases hc
  rw [takePart]
  rw [if_neg h1, if_neg (fun h => h2 h.1), if_neg (by simp [hc]), ho, hc]
  simp [h]

theorem takePart_word {d : Nat} {w : Str} {r p q : List SolTok} (h : takePart d r = some (p, q)) : takePart d (.word w :: r) = some (.word w :: p, q) :=
  takePart_neutral (by simp) rfl rfl h

theorem takePart_words {d : Nat} {l : List Str} {r p q : List SolTok} (h : takePart d r = some (p, q)) :
    takePart d (l.map .word ++ r) = some (l.map .word ++ p, q) := by
  induction l with
  | nil => exact h
  | cons w l ih => exact takePart_word ih

theorem takePart_item {b : BodyItem} {r p q : List SolTok} (h : takePart 1 r = some (p, q)) :
    takePart 1 (itemTokens b ++ r) = some (itemTokens b ++ p, q) := by
  cases b with
  | comment t => exact h
  | vmSkip =>
    simp [itemTokens, takePart, isOpen, isClose, h]

theorem takePart_items {l : List BodyItem} {r p q : List SolTok} (h : takePart 1 r = some (p, q)) :
    takePart 1 (l.flatMap itemTokens ++ r) = some (l.flatMap itemTokens ++ p, q) := by
  induction l with
  | nil => exact h
  | cons b l ih =>
    rw [List.flatMap_cons, List.append_assoc, List.append_assoc]
    exact takePart_item ih

theorem onePart_fn (f : HFn) : OnePart (fnTokens f) := by
  unfold OnePart fnTokens
  cases f.ty with
  | modifier => simp [takePart, isOpen, isClose]
  | function =>
    have h1 : takePart 1 [.sym '}'] = some ([.sym '}'], []) := by simp [takePart]
    have h2 := takePart_items (l := f.children.getD []) h1
    have h3 : takePart 0 (.sym '{' :: ((f.children.getD []).flatMap itemTokens ++ [.sym '}'])) =
        some (.sym '{' :: ((f.children.getD []).flatMap itemTokens ++ [.sym '}']), []) := by
      rw [takePart]
      simp [isOpen, isClose, h2]
    have h4 := takePart_words (l := f.modifiers.getD []) h3
    have h5 : ∀ {r p q : List SolTok}, takePart 0 r = some (p, q) → takePart 0 (.word c!"function" :: .word f.identifier :: .sym '(' :: .sym ')' ::
        .word c!"external" :: r) = some (.word c!"function" :: .word f.identifier :: .sym '(' :: .sym ')' :: .word c!"external" :: p, q) := by
      intro r p q h
      apply takePart_word
      apply takePart_word
      simp [takePart, isOpen, isClose, h]
    simpa using h5 h4

theorem declared_fn (f : HFn) : declared (fnTokens f) = some (solTy f.ty, some f.identifier) := by
  unfold fnTokens
  cases f.ty with
  | modifier => simp [declared, solTy]
  | function => simp [declared, solTy]

/-- The tokens of a function end with a brace. -/
theorem fnTokens_end (f : HFn) : ∃ ts, fnTokens f = ts ++ [.sym '}'] := by
  unfold fnTokens
  cases f.ty with
  | modifier => exact ⟨[.word c!"modifier", .word f.identifier, .sym '(', .sym ')', .sym '{', .word c!"_", .sym ';'], rfl⟩
  | function => exact ⟨_, rfl⟩

theorem fnTokens_start (f : HFn) : ∃ w ts, fnTokens f = .word w :: ts := by
  unfold fnTokens
  cases f.ty with
  | modifier => exact ⟨_, _, rfl⟩
  | function => exact ⟨_, _, rfl⟩

/-- A text with the tokens of a function is a part. -/
theorem fits_fn {G : SolGrammar} (hG : G.HasGenerated) {f : HFn} (hf : ReadableFn f) {s : Str} (hs : StartsTok s) (he : EndsPart s)
    (hr : SolReads s (fnTokens f)) : (Seg.fn (solTy f.ty) (some f.identifier) s).Fits G :=
  ⟨hs, he, _, hr, onePart_fn f, hG.part f hf, declared_fn f⟩

/-- The parts of a text with the tokens of functions, a brace and the rest. -/
theorem segs_of_tokens {G : SolGrammar} (hG : G.HasGenerated) {fns : List HFn} (hf : ∀ f ∈ fns, ReadableFn f) {s : Str} {m : SolMode}
    (h : solRun .code s = some (fns.flatMap fnTokens ++ [.sym '}'], m)) :
    ∃ g segs rest, s = g ++ (segsText segs ++ '}' :: rest) ∧ SolReads g [] ∧ (∀ p ∈ segs, p.1.Fits G ∧ SolReads p.2 []) ∧
      solRun .code rest = some ([], m) ∧ ∀ o, Written fns (partsFrom o segs) := by
  induction fns generalizing s with
  | nil =>
    obtain ⟨g, s', rfl, h1, h2, h3⟩ := code_gap (by decide) (by simpa using h : solRun .code s = some (.sym '}' :: [], m))
    obtain ⟨r, rfl, h4⟩ := starts_sym h2 h3
    exact ⟨g, [], r, rfl, h1, by simp, h4, fun _ => .nil⟩
  | cons f fns ih =>
    obtain ⟨w, tw, hw⟩ := fnTokens_start f
    obtain ⟨te, hte⟩ := fnTokens_end f
    rw [List.flatMap_cons, List.append_assoc] at h
    obtain ⟨g, s', rfl, h1, h2, h3⟩ := code_gap (t := .word w) (ts := tw ++ (fns.flatMap fnTokens ++ [.sym '}'])) (by simp) (by
      rw [h, hw]; rfl)
    have h3' : solRun .code s' = some (te ++ .sym '}' :: (fns.flatMap fnTokens ++ [.sym '}']), m) := by
      rw [h3, ← List.cons_append, ← hw, hte]
      simp
    obtain ⟨s1, c, s2, rfl, h4, h5, h6⟩ := run_closing (by simp [Closing] : Closing (.sym '}')) h3'
    have hc := h6 _ rfl
    subst hc
    rw [← hte] at h4
    obtain ⟨g', segs, rest, rfl, h7, h8, h9, h10⟩ := ih (fun x hx => hf x (by simp [hx])) h5
    have hst : StartsTok (s1 ++ ['}']) := by
      obtain ⟨c, r, e, hc⟩ := h2
      cases s1 with
      | nil => exact close_startsTok []
      | cons d s1 =>
        simp only [List.cons_append, List.cons.injEq] at e
        exact ⟨d, s1 ++ ['}'], rfl, e.1 ▸ hc⟩
    refine ⟨g, (.fn (solTy f.ty) (some f.identifier) (s1 ++ ['}']), g') :: segs, rest, ?_, h1, ?_, h9, ?_⟩
    · simp [segsText, Seg.text]
    · intro p hp
      rcases List.mem_cons.1 hp with rfl | hp
      · exact ⟨fits_fn hG (hf f (by simp)) hst ⟨s1, '}', rfl, .inl rfl⟩ h4, h7⟩
      · exact h8 p hp
    · intro o
      refine .cons rfl ?_ (h10 _)
      cases f.ty <;> rfl

/-- A file with the tokens of a generated file has the layout of one. -/
theorem layout_of_tokens {G : SolGrammar} (hG : G.HasGenerated) {version n : Str} {skip : Bool} {fns : List HFn} {out : Str}
    (hb : G.before (headTokens version skip)) (hn : SolIdent n) (hr : ¬ Reserved n) (hf : ∀ f ∈ fns, ReadableFn f)
    (h : solTokens out = some (fileTokens version skip n fns)) (hu : UsualEnds out) :
    ∃ L : Layout, L.Fits G ∧ L.text = out ∧ L.name = some n ∧ Written fns L.parts := by
  -- the end of the file completes no token
  obtain ⟨m, h0, hfin⟩ : ∃ m, solRun .code out = some (fileTokens version skip n fns, m) ∧ solFinish m = some [] := by
    unfold solTokens at h
    cases hq : solRun .code out with
    | none => rw [hq] at h; cases h
    | some q =>
      rw [hq] at h
      simp only [Option.bind_some] at h
      obtain ⟨q1, m⟩ := q
      have hend : fileTokens version skip n fns = (headTokens version skip ++
        ([.word c!"contract", .word n] ++ (if skip then [.word c!"is", .word c!"Test"] else []) ++ [.sym '{'] ++ fns.flatMap fnTokens)) ++
          [.sym '}'] := by simp [fileTokens, headTokens]
      have hl : ∀ t, q1 ++ [t] = fileTokens version skip n fns → t = .sym '}' := by
        intro t e
        rw [hend] at e
        have := List.append_inj_right' e rfl
        simpa using this
      cases m with
      | code => simp [solFinish] at h; exact ⟨_, by rw [h], rfl⟩
      | line => simp [solFinish] at h; exact ⟨_, by rw [h], rfl⟩
      | word w =>
        simp only [solFinish] at h
        split at h
        · cases h
        · simp only [Option.map_some, Option.some.injEq] at h
          exact absurd (hl _ h) (by simp)
      | slash =>
        simp only [solFinish, Option.map_some, Option.some.injEq] at h
        exact absurd (hl _ h) (by decide)
      | block => simp [solFinish] at h
      | blockStar => simp [solFinish] at h
      | str s => simp [solFinish] at h
      | escape _ _ => simp [solFinish] at h
      | pragma s => simp [solFinish] at h
  -- what is in front of the contract
  obtain ⟨hd, t, hhd, ht⟩ : ∃ hd t, headTokens version skip = hd ++ [t] ∧ Closing t := by
    cases skip with
    | false => exact ⟨[], .pragma (c!" solidity " ++ version), by simp [headTokens], trivial⟩
    | true =>
      exact ⟨[.pragma (c!" solidity " ++ version), .word c!"import", .sym '{', .word c!"Test", .sym '}', .word c!"from",
        .str c!"forge-std/Test.sol"], .sym ';', by simp [headTokens], by simp [Closing]⟩
  generalize hB : (if skip then [.word c!"is", .word c!"Test"] else [] : List SolTok) = base
  have h1 : solRun .code out = some (hd ++ t :: ([.word c!"contract", .word n] ++ base ++ .sym '{' :: (fns.flatMap fnTokens ++ [.sym '}'])), m) := by
    rw [h0]
    have : fileTokens version skip n fns = headTokens version skip ++ ([.word c!"contract", .word n] ++ base ++ .sym '{' :: (fns.flatMap fnTokens ++ [.sym '}'])) := by
      rw [← hB]; simp [fileTokens, headTokens]
    rw [this, hhd]
    simp
  obtain ⟨s1, c1, s2, rfl, h2, h3, _⟩ := run_closing ht h1
  rw [← hhd] at h2
  obtain ⟨g, s3, rfl, h4, h5, h6⟩ := code_gap (t := .word c!"contract") (by simp) h3
  -- the header
  have h6' : solRun .code s3 = some (([.word c!"contract", .word n] ++ base) ++ .sym '{' :: (fns.flatMap fnTokens ++ [.sym '}']), m) := by
    rw [h6]; simp
  obtain ⟨hdr, c2, s4, rfl, h7, h8, h9⟩ := run_closing (by simp [Closing] : Closing (.sym '{')) h6'
  have hc := h9 _ rfl
  subst hc
  obtain ⟨lead, segs, rest, rfl, h10, h11, h12, h13⟩ := segs_of_tokens hG hf h8
  have hhs : StartsTok hdr := by
    obtain ⟨c, r, e, hc⟩ := h5
    cases hdr with
    | nil =>
      exfalso
      have hx : SolReads ['{'] [.sym '{'] := rfl
      have := hx.unique h7
      simp at this
    | cons d hdr =>
      simp only [List.cons_append, List.cons.injEq] at e
      exact ⟨d, hdr, rfl, e.1 ▸ hc⟩
  have hbase : .sym '{' ∉ base := by rw [← hB]; cases skip <;> decide
  have h2g : SolReads (s1 ++ c1 :: g) (headTokens version skip) := by
    have := (show SolReads (s1 ++ [c1]) (headTokens version skip) from h2).append h4
    simpa using this
  let L : Layout := ⟨s1 ++ c1 :: g, some n, hdr, lead, segs, rest⟩
  have htext : L.text = s1 ++ c1 :: (g ++ (hdr ++ '{' :: (lead ++ (segsText segs ++ '}' :: rest)))) := by
    simp [L, Layout.text, Layout.front]
  refine ⟨L, ⟨?_, ?_, ?_, h10, h11, ?_⟩, htext, rfl, h13 _⟩
  · rw [htext]; exact hu
  · refine ⟨_, h2g, ?_, hb⟩
    intro k hk
    simp only [contractWords, List.mem_cons, List.not_mem_nil, or_false] at hk
    cases skip <;> rcases hk with rfl | rfl | rfl | rfl <;> simp [headTokens]
  · refine ⟨c!"contract", .word n :: base, by decide, hhs, by unfold SolReads; simpa using h7, by simp [hbase], ?_, ?_⟩
    · simp [headerName, L]
    · have := hG.header skip n hn hr
      rw [hB] at this
      simpa using this
  · refine ⟨[], ?_, hG.rest⟩
    show solTokens rest = some []
    unfold solTokens
    rw [h12]
    simp [hfin]

/-! ## Line terminators -/

theorem usual_append {a b : Str} (ha : UsualEnds a) (hb : UsualEnds b) : UsualEnds (a ++ b) := by
  intro c hc he
  rcases List.mem_append.1 hc with h | h
  · exact ha c h he
  · exact hb c h he

theorem usual_none {a : Str} (h : ∀ c ∈ a, isSolEnd c = false) : UsualEnds a := by
  intro c hc he
  rw [h c hc] at he; cases he

theorem usual_flatMap {α} {f : α → Str} {l : List α} (h : ∀ a ∈ l, UsualEnds (f a)) : UsualEnds (l.flatMap f) := by
  intro c hc he
  obtain ⟨a, ha, hc⟩ := List.mem_flatMap.1 hc
  exact h a ha c hc he

theorem wordChar_not_end {c : Char} (h : isWordChar c = true) : isSolEnd c = false := by
  cases hs : isSolEnd c with
  | false => rfl
  | true =>
    simp only [isSolEnd, Bool.or_eq_true, beq_iff_eq] at hs
    rcases hs with ((((rfl | rfl) | rfl) | rfl) | rfl) | rfl <;> exact absurd h (by decide)

theorem usual_ident {w : Str} (hw : SolIdent w) : UsualEnds w := by
  obtain ⟨d, u, rfl, hd, hu⟩ := hw
  apply usual_none
  intro c hc
  rcases List.mem_cons.1 hc with rfl | hc
  · exact wordChar_not_end (by simp [isWordChar, wordStart_of hd])
  · exact wordChar_not_end (wordChar_of (hu c hc))

theorem usual_lit {s : Str} (hs : (s.all fun c => !isSolEnd c || c == '\n') = true) : UsualEnds s := by
  intro c hc he
  have := List.all_eq_true.1 hs c hc
  simp [he] at this
  exact .inl this

theorem usual_fn {f : HFn} (h : ReadableFn f) : UsualEnds (solFn f) := by
  unfold solFn
  cases f.ty with
  | modifier =>
    exact usual_append (usual_append (usual_lit (by decide)) (usual_ident h.name.1)) (usual_lit (by decide))
  | function =>
    refine usual_append (usual_append (usual_append (usual_append (usual_append (usual_append ?_ ?_) ?_) ?_) ?_) ?_) ?_
    · exact usual_lit (by decide)
    · exact usual_ident h.name.1
    · exact usual_lit (by decide)
    · exact usual_flatMap fun m hm => usual_append (usual_ident (h.mods m hm).1) (usual_lit (by decide))
    · exact usual_lit (by decide)
    · refine usual_flatMap fun b hb => ?_
      cases b with
      | comment t => exact usual_append (usual_append (usual_lit (by decide)) (usual_none (h.lines t hb))) (usual_lit (by decide))
      | vmSkip => exact usual_lit (by decide)
    · exact usual_lit (by decide)

theorem usual_stanzas {l : List Str} (h : ∀ s ∈ l, UsualEnds s) : UsualEnds (stanzas l) := by
  induction l with
  | nil => exact usual_lit (by decide)
  | cons x l ih =>
    have ih := ih fun s hs => h s (by simp [hs])
    cases l with
    | nil => exact h x (by simp)
    | cons y l => exact usual_append (usual_append (h x (by simp)) (usual_lit (by decide))) ih

/-- A generated file has only the usual line terminators. -/
theorem usual_solFile {version name : Str} {skip : Bool} {fns : List HFn} (hv : UsualEnds version) (hn : SolIdent name)
    (h : ∀ f ∈ fns, ReadableFn f) : UsualEnds (solFile version skip name fns) := by
  have h3 : UsualEnds (stanzas (fns.map solFn)) := usual_stanzas (by
    intro s hs
    obtain ⟨f, hf, rfl⟩ := List.mem_map.1 hs
    exact usual_fn (h f hf))
  have h1 : UsualEnds (if skip then c!"import {Test} from \"forge-std/Test.sol\";\n" else []) := by
    cases skip <;> exact usual_lit (by decide)
  have h2 : UsualEnds (if skip then c!"is Test " else []) := by
    cases skip <;> exact usual_lit (by decide)
  unfold solFile
  exact usual_append (usual_append (usual_append (usual_append (usual_append (usual_append (usual_append (usual_append (usual_append (usual_append
    (usual_lit (by decide)) hv) (usual_lit (by decide))) h1) (usual_lit (by decide))) (usual_ident hn)) (usual_lit (by decide))) h2)
    (usual_lit (by decide))) h3) (usual_lit (by decide))

end Bulloak
