import Verif.Lemmas.SolFile3
import Verif.Props.Fix
/-! # Lemmas about Solidity files: `check --fix` keeps files valid -/

namespace Bulloak
open Spec
set_option linter.unusedSectionVars false

theorem emitFunction_trim {f : HFn} {x : Str} (h : emitFunction f = c!"  " ++ (x ++ c!"\n\n")) : (newSeg f).text = x := by
  obtain ⟨c, r, hc, e⟩ := emitFunction_shape f
  have h2 := trimEnd_emitFunction f
  have e1 : trimEnd (emitFunction f) = c!"  " ++ (c :: r ++ c!"}") := by
    rw [e]
    have := trimEnd_append_of_not_ws (c!"  " ++ c :: r) '}' c!"\n\n" (by decide) (by decide)
    simpa using this
  rw [e1] at h2
  rw [← List.append_cancel_left h2]
  rw [h] at e
  have e3 := List.append_cancel_left e
  have e4 : x ++ c!"\n\n" = (c :: r ++ c!"}") ++ c!"\n\n" := by rw [e3]; simp
  exact (List.append_cancel_right e4).symm

theorem reads_emitItem {b : BodyItem} (h : ∀ t, b = .comment t → ∀ c ∈ t, isSolEnd c = false) : SolReads (emitBodyItem b) (itemTokens b) := by
  have e : emitBodyItem b = c!"    " ++ solItem b := by cases b <;> rfl
  rw [e]
  exact (show SolReads c!"    " [] from rfl).append (reads_item h)

/-- The tokens of the inserted text. -/
theorem newSeg_reads {f : HFn} (h : ReadableFn f) : SolReads (newSeg f).text (fnTokens f) ∧ UsualEnds (newSeg f).text ∧
    StartsTok (newSeg f).text ∧ EndsPart (newSeg f).text := by
  obtain ⟨hn, hm, hl⟩ := h
  obtain ⟨i, ty, sp, m, ch⟩ := f
  simp only at hn hm hl
  have hid : UsualEnds i := usual_ident hn.1
  have hit : SolReads ((ch.getD []).flatMap emitBodyItem) ((ch.getD []).flatMap itemTokens) :=
    reads_flatMap fun b hb => reads_emitItem (by rintro t rfl; exact hl t hb)
  have hit' : UsualEnds ((ch.getD []).flatMap emitBodyItem) := by
    refine usual_flatMap fun b hb => ?_
    cases b with
    | comment t => exact usual_append (usual_append (usual_lit (s := c!"    // ") (by decide)) (usual_none (hl t hb))) (usual_lit (by decide))
    | vmSkip => exact usual_lit (by decide)
  have h4 : SolReads c!"  }" [.sym '}'] := rfl
  cases ty with
  | modifier =>
    rw [emitFunction_trim (x := c!"modifier " ++ (i ++ c!"() {\n    _;\n  }"))]
    · refine ⟨?_, usual_append (usual_lit (by decide)) (usual_append hid (usual_lit (by decide))),
        ⟨'m', _, rfl, .inl (by decide)⟩, ⟨c!"modifier " ++ (i ++ c!"() {\n    _;\n  "), '}', by simp, .inl rfl⟩⟩
      have h1 : SolReads c!"modifier " [.word c!"modifier"] := rfl
      have h2 : SolReads c!"() {\n    _;\n  }" [.sym '(', .sym ')', .sym '{', .word c!"_", .sym ';', .sym '}'] := rfl
      have := h1.append (SolReads.word hn.1 (known_not_pragma hn.2) (by decide) h2)
      simpa [fnTokens] using this
    · simp [emitFunction, emitModifier, indent1, indent2, spaces, List.replicate]
  | function =>
    have h1 : SolReads c!"function " [.word c!"function"] := rfl
    cases m with
    | none =>
      rw [emitFunction_trim (x := c!"function " ++ (i ++ (c!"() external {\n" ++ ((ch.getD []).flatMap emitBodyItem ++ c!"  }"))))]
      · refine ⟨?_, usual_append (usual_lit (by decide)) (usual_append hid (usual_append (usual_lit (by decide)) (usual_append hit' (usual_lit (by decide))))),
          ⟨'f', _, rfl, .inl (by decide)⟩, ⟨c!"function " ++ (i ++ (c!"() external {\n" ++ ((ch.getD []).flatMap emitBodyItem ++ c!"  "))), '}', by simp, .inl rfl⟩⟩
        have h2 : SolReads c!"() external {\n" [.sym '(', .sym ')', .word c!"external", .sym '{'] := rfl
        have := h1.append (SolReads.word hn.1 (known_not_pragma hn.2) (by decide) (h2.append (hit.append h4)))
        simpa [fnTokens] using this
      · simp [emitFunction, emitFnHeader, indent1, spaces, List.replicate]
    | some ms =>
      simp only [Option.getD_some] at hm
      have hms : SolReads (ms.flatMap fun m => c!"    " ++ m ++ c!"\n") (ms.map .word) := by
        clear hit hit' hl
        induction ms with
        | nil => exact reads_nil
        | cons m ms ih =>
          have g1 : SolReads (m ++ c!"\n") [.word m] :=
            SolReads.word (hm m (by simp)).1 (known_not_pragma (hm m (by simp)).2) (by decide) (reads_ws (by decide))
          have := ((show SolReads c!"    " [] from rfl).append g1).append (ih fun x hx => hm x (by simp [hx]))
          simpa using this
      have hms' : UsualEnds (ms.flatMap fun m => c!"    " ++ m ++ c!"\n") :=
        usual_flatMap fun m hmm => usual_append (usual_append (usual_lit (by decide)) (usual_ident (hm m hmm).1)) (usual_lit (by decide))
      rw [emitFunction_trim (x := c!"function " ++ (i ++ (c!"()\n    external\n" ++ (ms.flatMap (fun m => c!"    " ++ m ++ c!"\n") ++
        (c!"  {\n" ++ ((ch.getD []).flatMap emitBodyItem ++ c!"  }"))))))]
      · refine ⟨?_, usual_append (usual_lit (by decide)) (usual_append hid (usual_append (usual_lit (by decide)) (usual_append hms'
          (usual_append (usual_lit (by decide)) (usual_append hit' (usual_lit (by decide))))))),
          ⟨'f', _, rfl, .inl (by decide)⟩, ⟨c!"function " ++ (i ++ (c!"()\n    external\n" ++ (ms.flatMap (fun m => c!"    " ++ m ++ c!"\n") ++
            (c!"  {\n" ++ ((ch.getD []).flatMap emitBodyItem ++ c!"  "))))), '}', by simp, .inl rfl⟩⟩
        have h2 : SolReads c!"()\n    external\n" [.sym '(', .sym ')', .word c!"external"] := rfl
        have h3 : SolReads c!"  {\n" [.sym '{'] := rfl
        have := h1.append (SolReads.word hn.1 (known_not_pragma hn.2) (by decide) (h2.append (hms.append (h3.append (hit.append h4)))))
        simpa [fnTokens] using this
      · simp [emitFunction, emitFnHeader, indent1, indent2, spaces, List.replicate]

theorem newSeg_fits {G : SolGrammar} (hG : G.HasGenerated) {f : HFn} (h : ReadableFn f) : (newSeg f).Fits G :=
  fits_fn hG h (newSeg_reads h).2.2.1 (newSeg_reads h).2.2.2 (newSeg_reads h).1

theorem insertAfter_fits {G : SolGrammar} {f : HFn} (hf : (newSeg f).Fits G) {k : Nat} {l : List (Seg × Str)}
    (hl : ∀ p ∈ l, p.1.Fits G ∧ SolReads p.2 []) : ∀ p ∈ insertAfter f k l, p.1.Fits G ∧ SolReads p.2 [] := by
  induction l generalizing k with
  | nil => cases k <;> simp [insertAfter]
  | cons x l ih =>
    obtain ⟨s, g⟩ := x
    cases k with
    | zero =>
      intro p hp
      simp only [insertAfter, List.mem_cons] at hp
      rcases hp with rfl | rfl | hp
      · exact ⟨(hl (s, g) (by simp)).1, rfl⟩
      · exact ⟨hf, (hl (s, g) (by simp)).2⟩
      · exact hl p (by simp [hp])
    | succ k =>
      intro p hp
      simp only [insertAfter, List.mem_cons] at hp
      rcases hp with rfl | hp
      · exact hl _ (by simp)
      · exact ih (fun q hq => hl q (by simp [hq])) p hp

theorem insertAfter_chars {f : HFn} {k : Nat} {l : List (Seg × Str)} {c : Char} (hc : c ∈ segsText (insertAfter f k l)) :
    c ∈ segsText l ∨ c ∈ c!"\n\n  " ∨ c ∈ (newSeg f).text := by
  induction l generalizing k with
  | nil => cases k <;> simp [insertAfter, segsText] at hc
  | cons x l ih =>
    obtain ⟨s, g⟩ := x
    cases k with
    | zero =>
      simp only [insertAfter, segsText, List.flatMap_cons, List.mem_append] at hc ⊢
      rcases hc with (h | h) | (h | h) | h
      · exact .inl (.inl (.inl h))
      · exact .inr (.inl h)
      · exact .inr (.inr h)
      · exact .inl (.inl (.inr h))
      · exact .inl (.inr h)
    | succ k =>
      simp only [insertAfter, segsText, List.flatMap_cons, List.mem_append] at hc ⊢
      rcases hc with h | h
      · exact .inl (.inl h)
      · rcases ih h with h | h
        · exact .inl (.inr h)
        · exact .inr h

/-- Inserting a function keeps a file valid. -/
theorem insert_fits {G : SolGrammar} (hG : G.HasGenerated) {f : HFn} (hf : ReadableFn f) {L : Layout} (hL : L.Fits G) (k : Nat) :
    (L.insert f k).Fits G := by
  have hu : UsualEnds (L.insert f k).text := by
    intro c hc he
    have : c ∈ L.text ∨ c ∈ c!"\n\n  " ∨ c ∈ (newSeg f).text := by
      cases k with
      | zero =>
        simp only [Layout.insert, Layout.text, Layout.front, segsText, List.flatMap_cons, List.mem_append, List.mem_cons] at hc ⊢
        rcases hc with (h | h | h | h) | ((h | h) | h) | h | h
        · exact .inl (.inl (.inl h))
        · exact .inl (.inl (.inr (.inl h)))
        · exact .inl (.inl (.inr (.inr (.inl h))))
        · exact .inr (.inl h)
        · exact .inr (.inr h)
        · exact .inl (.inl (.inr (.inr (.inr h))))
        · exact .inl (.inr (.inl h))
        · exact .inl (.inr (.inr (.inl h)))
        · exact .inl (.inr (.inr (.inr h)))
      | succ k =>
        simp only [Layout.insert, Layout.text, Layout.front, List.mem_append] at hc
        rcases hc with h | h | h
        · exact .inl (by simp only [Layout.text, Layout.front, List.mem_append]; exact .inl h)
        · rcases insertAfter_chars h with h | h
          · exact .inl (by simp only [Layout.text, List.mem_append]; exact .inr (.inl h))
          · exact .inr h
        · exact .inl (by simp only [Layout.text, List.mem_append]; exact .inr (.inr h))
    rcases this with h | h | h
    · exact hL.plain c h he
    · exact usual_lit (s := c!"\n\n  ") (by decide) c h he
    · exact (newSeg_reads hf).2.1 c h he
  have hnew := newSeg_fits hG hf
  cases k with
  | zero =>
    refine ⟨hu, hL.before, hL.header, rfl, ?_, hL.rest⟩
    intro p hp
    simp only [Layout.insert, List.mem_cons] at hp
    rcases hp with rfl | hp
    · exact ⟨hnew, hL.lead⟩
    · exact hL.segs p hp
  | succ k => exact ⟨hu, hL.before, hL.header, hL.lead, insertAfter_fits hnew hL.segs, hL.rest⟩

/-- Filling in functions keeps a file valid. -/
theorem filling_fits {G : SolGrammar} (hG : G.HasGenerated) {skip : Bool} {fns : List HFn} (hf : ∀ f ∈ fns, ReadableFn f) {L : Layout} (hL : L.Fits G)
    {k : Nat} {L' : Layout} (h : Filling skip fns L k L') : L'.Fits G := by
  induction h with
  | start => exact hL
  | insert _ hk _ _ ih => exact insert_fits hG (hf _ (List.mem_of_getElem? hk)) ih _
  | keep _ _ _ ih => exact ih

theorem reads_spaces (n : Nat) : SolReads (spaces n) [] := by
  induction n with
  | zero => rfl
  | succ n ih => exact (reads_ws (c := ' ') (by decide)).append ih

theorem reads_blanked {G : SolGrammar} {l : List (Seg × Str)} (hl : ∀ p ∈ l, p.1.Fits G ∧ SolReads p.2 []) (k : Nat) :
    SolReads (blanked (fun _ => true) k l) [] := by
  induction l generalizing k with
  | nil => rfl
  | cons x l ih =>
    obtain ⟨s, g⟩ := x
    exact (reads_spaces _).append ((hl (s, g) (by simp)).2.append (ih (fun p hp => hl p (by simp [hp])) _))

theorem mem_withGaps {m : Str} {ss : List Seg} {p : Seg × Str} (h : p ∈ withGaps m ss) : p.1 ∈ ss ∧ (p.2 = m ∨ p.2 = c!"\n\n") := by
  induction ss with
  | nil => cases h
  | cons s ss ih =>
    cases ss with
    | nil =>
      simp only [withGaps, List.mem_singleton] at h
      subst h
      exact ⟨by simp, .inl rfl⟩
    | cons t ss =>
      simp only [withGaps, List.mem_cons] at h
      rcases h with rfl | h
      · exact ⟨by simp, .inr rfl⟩
      · have := ih (by simpa [withGaps] using h)
        exact ⟨List.mem_cons_of_mem _ this.1, this.2⟩

theorem blanked_chars {B : Nat → Bool} {k : Nat} {l : List (Seg × Str)} {c : Char} (h : c ∈ blanked B k l) : c ∈ segsText l ∨ c = ' ' := by
  induction l generalizing k with
  | nil => cases h
  | cons x l ih =>
    obtain ⟨s, g⟩ := x
    simp only [blanked, segsText, List.flatMap_cons, List.mem_append] at h ⊢
    rcases h with h | h | h
    · split at h
      · exact .inr (List.eq_of_mem_replicate h)
      · exact .inl (.inl (.inl h))
    · exact .inl (.inl (.inr h))
    · rcases ih h with h | h
      · exact .inl (.inr h)
      · exact .inr h

/-- Reordering the parts keeps a file valid. -/
theorem reordered_fits {G : SolGrammar} {L : Layout} (hL : L.Fits G) {ss : List Seg} (hs : ∀ s ∈ ss, s ∈ L.segs.map Prod.fst) : (L.reordered ss).Fits G := by
  have hseg : ∀ s ∈ ss, s.Fits G ∧ ∀ c ∈ s.text, c ∈ segsText L.segs := by
    intro s hsm
    obtain ⟨p, hp, rfl⟩ := List.mem_map.1 (hs s hsm)
    refine ⟨(hL.segs p hp).1, fun c hc => ?_⟩
    exact List.mem_flatMap.2 ⟨p, hp, List.mem_append.2 (.inl hc)⟩
  have hmem : ∀ c ∈ segsText L.segs, c ∈ L.text := fun c hc => by simp only [Layout.text, List.mem_append]; exact .inr (.inl hc)
  refine ⟨?_, hL.before, hL.header, hL.lead, ?_, hL.rest⟩
  · intro c hc he
    simp only [Layout.reordered, Layout.text, List.mem_append] at hc
    rcases hc with h | h | h
    · exact hL.plain c (by simp only [Layout.text, List.mem_append]; exact .inl h) he
    · obtain ⟨p, hp, hc⟩ := List.mem_flatMap.1 h
      obtain ⟨h1, h2⟩ := mem_withGaps hp
      rcases List.mem_append.1 hc with hc | hc
      · exact hL.plain c (hmem c ((hseg _ h1).2 c hc)) he
      · rcases h2 with h2 | h2
        · rw [h2] at hc
          rcases blanked_chars hc with hc | rfl
          · exact hL.plain c (hmem c hc) he
          · cases he
        · rw [h2] at hc
          exact usual_lit (s := c!"\n\n") (by decide) c hc he
    · exact hL.plain c (by simp only [Layout.text, List.mem_append]; exact .inr (.inr h)) he
  · intro p hp
    obtain ⟨h1, h2⟩ := mem_withGaps hp
    refine ⟨(hseg _ h1).1, ?_⟩
    rcases h2 with h2 | h2
    · rw [h2]; exact reads_blanked hL.segs 0
    · rw [h2]; rfl

/-! ## Renaming -/

theorem start_word {c : Char} {ts : List SolTok} {w : Str} (h : solStart c = some (ts, .word w)) : w = [c] ∧ isWordChar c = true := by
  unfold solStart at h
  split at h
  · cases h
  · split at h
    · cases h; exact ⟨rfl, by assumption⟩
    · split at h
      · cases h
      · split at h
        · cases h
        · split at h <;> cases h

/-- A word of a text is at least as long as what was read of it. -/
theorem run_word_longer {w : Str} {s : Str} {t : SolTok} {ts : List SolTok} {m : SolMode} (h : solRun (.word w) s = some (t :: ts, m)) :
    (∃ w', t = .word w' ∧ w <+: w' ∧ ∀ c r, s = c :: r → isWordChar c = true → w ++ [c] <+: w') ∨ ∃ v, t = .pragma v := by
  induction s generalizing w with
  | nil => simp [solRun] at h
  | cons d s ih =>
    obtain ⟨t1, m1, t2, h1, h2, h3⟩ := run_cons h
    simp only at h2 h3
    simp only [solStep] at h1
    split at h1
    · rename_i hd
      cases h1
      rw [List.nil_append] at h3
      rw [← h3] at h2
      rcases ih h2 with ⟨w', e1, e2, _⟩ | e
      · refine .inl ⟨w', e1, (List.prefix_append w [d]).trans e2, ?_⟩
        intro c r hc _
        cases hc
        exact e2
      · exact .inr e
    · rename_i hd
      split at h1
      · right
        cases h1
        rw [List.nil_append] at h3
        rw [← h3] at h2
        clear ih h h3 hd
        have : ∀ {u : Str}, solRun (.pragma u) s = some (t :: ts, m) → ∃ v, t = .pragma v := by
          clear h2
          induction s with
          | nil => intro u h; simp [solRun] at h
          | cons e s ih =>
            intro u h
            obtain ⟨t1, m1, t2, h1, h2, h3⟩ := run_cons h
            simp only at h2 h3
            simp only [solStep] at h1
            split at h1
            · cases h1
              simp only [List.cons_append, List.nil_append, List.cons.injEq] at h3
              exact ⟨u, h3.1⟩
            · cases h1
              rw [List.nil_append] at h3
              rw [← h3] at h2
              exact ih h2
        exact this h2
      · cases hs : solStart d with
        | none => rw [hs] at h1; cases h1
        | some p =>
          rw [hs] at h1
          cases h1
          simp only [List.cons_append, List.cons.injEq] at h3
          refine .inl ⟨w, h3.1, List.prefix_refl _, ?_⟩
          intro c r hc hw
          cases hc
          exact absurd hw hd

/-- Another name for the first word of a text. -/
theorem swap_word {old new x : Str} {ts : List SolTok} (ho : SolIdent old) (hn : SolIdent new) (hp : new ≠ c!"pragma")
    (hx : x ≠ []) (h : SolReads (old ++ x) (.word old :: ts)) : SolReads (new ++ x) (.word new :: ts) := by
  cases x with
  | nil => exact absurd rfl hx
  | cons c x =>
    obtain ⟨ta, m', tb, h1, h2, h3⟩ := run_split h
    rw [run_ident ho] at h1
    cases h1
    simp only [List.nil_append] at h2 h3
    rw [← h3] at h2
    have hc : isWordChar c = false := by
      cases hc : isWordChar c with
      | false => rfl
      | true =>
        rcases run_word_longer h2 with ⟨w', e1, _, e2⟩ | ⟨v, e⟩
        · cases e1
          have := (e2 c x rfl hc).length_le
          simp at this
          omega
        · cases e
    by_cases hop : old = c!"pragma"
    · exfalso
      obtain ⟨t1, m1, t2, g1, g2, g3⟩ := run_cons h2
      simp only [solStep, hc, hop, Bool.false_eq_true, if_false, if_true] at g1
      cases g1
      simp only [List.nil_append] at g3
      simp only at g2
      rw [← g3] at g2
      have : ∀ {s u : Str} {ts : List SolTok} {m : SolMode} {w : Str}, solRun (.pragma u) s ≠ some (.word w :: ts, m) := by
        intro s
        induction s with
        | nil => intro u ts m w h; simp [solRun] at h
        | cons e s ih =>
          intro u ts m w h
          obtain ⟨t1, m1, t2, h1, h2, h3⟩ := run_cons h
          simp only [solStep] at h1
          simp only at h2 h3
          split at h1
          · cases h1; simp at h3
          · cases h1
            rw [List.nil_append] at h3
            rw [← h3] at h2
            exact ih h2
      exact this g2
    · rw [run_after_word hop hc] at h2
      cases hr : solRun .code (c :: x) with
      | none => rw [hr] at h2; cases h2
      | some q =>
        rw [hr] at h2
        obtain ⟨q1, q2⟩ := q
        simp only [Option.map_some, Option.some.injEq, Prod.mk.injEq, List.cons.injEq, true_and] at h2
        rw [h2.1, h2.2] at hr
        exact SolReads.word hn hp hc hr

/-- A file stays valid if its contract is renamed. -/
theorem renamed_fits {G : SolGrammar} {L : Layout} (hL : L.Fits G) {old new pre post : Str} {tp : List SolTok} (hn : L.name = some old)
    (hh : L.header = pre ++ (c!"contract " ++ old ++ post)) (hpre : SolReads pre tp) (htp : tp = [] ∨ tp = [.word c!"abstract"])
    (ho : SolIdent old) (hnew : SolIdent new) (hr : ¬ Reserved new)
    (hG : ∀ r, G.header (tp ++ .word c!"contract" :: .word old :: r) → G.header (tp ++ .word c!"contract" :: .word new :: r)) :
    ({ L with name := some new, header := pre ++ (c!"contract " ++ new ++ post) } : Layout).Fits G := by
  obtain ⟨k, ts, hk, hst, hrd, hno, hnm, hgh⟩ := hL.header
  rw [hn] at hnm
  have hc : SolReads c!"contract " [.word c!"contract"] := rfl
  have hx : post ++ ['{'] ≠ [] := by simp
  have hrd' : SolReads (pre ++ (c!"contract " ++ (old ++ (post ++ ['{'])))) (.word k :: ts ++ [.sym '{']) := by
    rw [hh] at hrd
    simpa using hrd
  obtain ⟨t1, h1, e1⟩ := hpre.split hrd'
  obtain ⟨t2, h2, e2⟩ := hc.split h1
  subst e2
  -- the next word is the name
  obtain ⟨t3, rfl⟩ : ∃ t3, t2 = .word old :: t3 := by
    have : ∃ a t3, t2 = .word a :: t3 ∧ a = old := by
      rcases htp with rfl | rfl
      · simp only [List.nil_append, List.cons_append, List.cons.injEq] at e1
        obtain ⟨rk, e1⟩ := e1
        cases rk
        cases ts with
        | nil => simp [headerName] at hnm
        | cons t ts =>
          cases t with
          | word a =>
            simp only [List.cons_append] at e1
            refine ⟨a, _, e1.symm, ?_⟩
            simpa [headerName] using hnm
          | sym _ => simp [headerName] at hnm
          | str _ => simp [headerName] at hnm
          | pragma _ => simp [headerName] at hnm
      · simp only [List.nil_append, List.cons_append, List.cons.injEq] at e1
        obtain ⟨rk, e1⟩ := e1
        cases rk
        cases ts with
        | nil => simp [headerName] at hnm
        | cons t ts =>
          simp only [List.cons_append, List.cons.injEq] at e1
          obtain ⟨rfl, e1⟩ := e1
          cases ts with
          | nil => simp [headerName] at hnm
          | cons t ts =>
            cases t with
            | word a =>
              simp only [List.cons_append] at e1
              refine ⟨a, _, e1.symm, ?_⟩
              simpa [headerName] using hnm
            | sym _ => simp [headerName] at hnm
            | str _ => simp [headerName] at hnm
            | pragma _ => simp [headerName] at hnm
    obtain ⟨a, t3, rfl, rfl⟩ := this
    exact ⟨t3, rfl⟩
  have h3 := swap_word ho hnew (known_not_pragma hr) hx h2
  have h4 : SolReads (pre ++ (c!"contract " ++ (new ++ (post ++ ['{'])))) (tp ++ ([.word c!"contract"] ++ .word new :: t3)) :=
    hpre.append (hc.append h3)
  obtain ⟨t4, rfl⟩ : ∃ t4, t3 = t4 ++ [.sym '{'] := by
    rcases List.eq_nil_or_concat t3 with rfl | ⟨t4, x, rfl⟩
    · exfalso
      have e : (.word k :: ts) ++ [.sym '{'] = (tp ++ [.word c!"contract"]) ++ [.word old] := by simpa using e1
      have := List.append_inj_right' e rfl
      simp at this
    · have e : (.word k :: ts) ++ [.sym '{'] = (tp ++ ([.word c!"contract"] ++ .word old :: t4)) ++ [x] := by simpa using e1
      have := List.append_inj_right' e rfl
      simp only [List.cons.injEq, and_true] at this
      subst this
      exact ⟨t4, by simp⟩
  have e5 : (.word k :: ts : List SolTok) = tp ++ .word c!"contract" :: .word old :: t4 := by
    have e : (.word k :: ts) ++ [.sym '{'] = (tp ++ .word c!"contract" :: .word old :: t4) ++ [.sym '{'] := by simpa using e1
    exact List.append_inj_left' e rfl
  have hno4 : SolTok.sym '{' ∉ t4 := by
    intro hm
    have : SolTok.sym '{' ∈ (.word k :: ts : List SolTok) := by rw [e5]; simp [hm]
    simp [hno] at this
  rw [e5] at hgh
  have hg := hG _ hgh
  refine ⟨?_, hL.before, ?_, hL.lead, hL.segs, hL.rest⟩
  · intro c hc he
    have hcn : c ∈ L.text ∨ c ∈ new := by
      simp only [Layout.text, Layout.front, hh, List.mem_append] at hc ⊢
      rcases hc with (h | (h | (h | h) | h) | h) | h
      · exact .inl (.inl (.inl h))
      · exact .inl (.inl (.inr (.inl (.inl h))))
      · exact .inl (.inl (.inr (.inl (.inr (.inl (.inl h))))))
      · exact .inr h
      · exact .inl (.inl (.inr (.inl (.inr (.inr h)))))
      · exact .inl (.inl (.inr (.inr h)))
      · exact .inl (.inr h)
    rcases hcn with h | h
    · exact hL.plain c h he
    · exact usual_ident hnew c h he
  · have hst' : StartsTok (pre ++ (c!"contract " ++ new ++ post)) := by
      obtain ⟨d, r, hd, hw⟩ := hst
      rw [hh] at hd
      cases pre with
      | nil => exact ⟨'c', _, rfl, .inl (by decide)⟩
      | cons y pre =>
        simp only [List.cons_append, List.cons.injEq] at hd
        exact ⟨y, _, rfl, hd.1 ▸ hw⟩
    rcases htp with rfl | rfl
    · refine ⟨c!"contract", .word new :: t4, by decide, hst', by unfold SolReads at h4 ⊢; simpa using h4, by simp [hno4], by simp [headerName], hg⟩
    · refine ⟨c!"abstract", .word c!"contract" :: .word new :: t4, by decide, hst', by unfold SolReads at h4 ⊢; simpa using h4, by simp [hno4],
        by simp [headerName], hg⟩

end Bulloak
