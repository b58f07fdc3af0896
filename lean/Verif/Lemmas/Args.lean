import Verif.Spec.Args
/-! # The command line parser against the ways to write a command line -/

namespace Bulloak

/-- Options can be told apart by name and letter. -/
structure Table (opts : List Opt) : Prop where
  long : ∀ o ∈ opts, ∀ p ∈ opts, o.long = p.long → o = p
  short : ∀ o ∈ opts, ∀ p ∈ opts, ∀ c, o.short = some c → p.short = some c → o = p
  noEq : ∀ o ∈ opts, '=' ∉ o.long
  noEmpty : ∀ o ∈ opts, o.long ≠ []
  noDash : ∀ o ∈ opts, o.short ≠ some '-'

theorem scaffold_table : Table scaffoldOpts := by
  constructor <;> simp [scaffoldOpts, Opt.write, Opt.force, Opt.version, Opt.vmSkip, Opt.skip]

theorem check_table : Table checkOpts := by
  constructor <;> simp [checkOpts, Opt.fix, Opt.stdout, Opt.skip]

/-- Adding items one after the other. -/
def addItems (g : Given) : List Item → Option Given
  | [] => some g
  | .opt o v :: is => (g.add o v).bind (addItems · is)
  | .file f :: is => addItems { g with files := g.files ++ [f] } is

theorem addItems_append (g : Given) (is js : List Item) : addItems g (is ++ js) = (addItems g is).bind (addItems · js) := by
  induction is generalizing g with
  | nil => rfl
  | cons i is ih =>
    cases i with
    | file f => exact ih _
    | opt o v =>
      show (g.add o v).bind _ = ((g.add o v).bind _).bind _
      cases g.add o v with
      | none => rfl
      | some g => exact ih g

theorem addItems_files (g : Given) (fs : List Str) : addItems g (fs.map .file) = some { g with files := g.files ++ fs } := by
  induction fs generalizing g with
  | nil => simp [addItems]
  | cons f fs ih =>
    show addItems { g with files := g.files ++ [f] } (fs.map .file) = _
    rw [ih]
    simp

theorem has_iff (g : Given) (o : Opt) : g.has o = true ↔ o ∈ g.opts.map Prod.fst := by
  simp only [Given.has, List.any_eq_true, List.mem_map, decide_eq_true_eq]

theorem add_some {g g' : Given} {o : Opt} {v : Str} :
    g.add o v = some g' ↔ o ∉ g.opts.map Prod.fst ∧ g' = ⟨g.opts ++ [(o, v)], g.files⟩ := by
  unfold Given.add
  rw [← has_iff]
  by_cases h : g.has o = true
  · simp [h]
  · rw [if_neg h, Option.some.injEq]
    exact ⟨fun e => ⟨h, e.symm⟩, fun e => e.2.symm⟩

theorem addItems_some {g g' : Given} {is : List Item} (hg : (g.opts.map Prod.fst).Nodup) :
    addItems g is = some g' ↔ ((g.opts ++ Item.options is).map Prod.fst).Nodup ∧
      g' = ⟨g.opts ++ Item.options is, g.files ++ Item.files is⟩ := by
  induction is generalizing g with
  | nil => simp [addItems, Item.options, Item.files, hg, eq_comm]
  | cons i is ih =>
    cases i with
    | file f =>
      show addItems { g with files := g.files ++ [f] } is = _ ↔ _
      rw [ih (g := { g with files := g.files ++ [f] }) hg]
      simp [Item.options, Item.files]
    | opt o v =>
      show (g.add o v).bind _ = _ ↔ _
      rw [Option.bind_eq_some_iff]
      constructor
      · rintro ⟨g1, h1, h2⟩
        obtain ⟨h3, rfl⟩ := add_some.1 h1
        rw [ih] at h2
        · simpa [Item.options, Item.files] using h2
        · simp only [List.map_append, List.map_cons, List.map_nil]
          rw [List.nodup_append]
          refine ⟨hg, by simp, ?_⟩
          intro a ha b hb
          rw [List.mem_singleton.1 hb]
          rintro rfl
          exact h3 ha
      · rintro ⟨h1, h2⟩
        have h3 : o ∉ g.opts.map Prod.fst := by
          intro h
          have h1' := h1
          simp only [Item.options, List.map_append, List.map_cons] at h1'
          exact (List.nodup_append.1 h1').2.2 o h o (by simp) rfl
        refine ⟨_, add_some.2 ⟨h3, rfl⟩, ?_⟩
        rw [ih]
        · refine ⟨?_, by rw [h2]; simp [Item.options, Item.files]⟩
          simpa [Item.options] using h1
        · refine List.Sublist.nodup ?_ h1
          refine List.Sublist.map _ ?_
          show (g.opts ++ [(o, v)]).Sublist (g.opts ++ (o, v) :: Item.options is)
          simp

/-! ## One argument -/

theorem find_short {opts : List Opt} (ht : Table opts) {o : Opt} {c : Char} (ho : o ∈ opts) (hc : o.short = some c) :
    opts.find? (fun o => o.short = some c) = some o := by
  cases h : opts.find? (fun o => o.short = some c) with
  | none =>
    have := List.find?_eq_none.1 h o ho
    simp [hc] at this
  | some p =>
    have hp := List.find?_some h
    have hm := List.mem_of_find?_eq_some h
    rw [ht.short o ho p hm c hc (by simpa using hp)]

theorem find_long {opts : List Opt} (ht : Table opts) {o : Opt} (ho : o ∈ opts) :
    opts.find? (fun p => p.long = o.long) = some o := by
  cases h : opts.find? (fun p => p.long = o.long) with
  | none =>
    have := List.find?_eq_none.1 h o ho
    simp at this
  | some p =>
    have hp := List.find?_some h
    have hm := List.mem_of_find?_eq_some h
    rw [ht.long o ho p hm (by simpa using (of_decide_eq_true hp).symm)]

theorem found_short {opts : List Opt} {o : Opt} {c : Char} (h : opts.find? (fun o => o.short = some c) = some o) :
    o ∈ opts ∧ o.short = some c :=
  ⟨List.mem_of_find?_eq_some h, by simpa using List.find?_some h⟩

theorem found_long {opts : List Opt} {o : Opt} {n : Str} (h : opts.find? (fun o => o.long = n) = some o) :
    o ∈ opts ∧ o.long = n :=
  ⟨List.mem_of_find?_eq_some h, by simpa using List.find?_some h⟩

theorem shortArgs_letters {opts : List Opt} (ht : Table opts) {os : List Opt} {cs : Str} (h : Letters opts os cs) (g : Given) (rest : Str) :
    shortArgs opts g (cs ++ rest) = match addItems g (os.map (.opt · [])) with
      | some g => shortArgs opts g rest
      | none => .usage := by
  induction h generalizing g with
  | nil => rfl
  | @cons o c os cs ho hv hs hr ih =>
    show shortArgs opts g (c :: (cs ++ rest)) = _
    rw [shortArgs, find_short ht ho hs]
    simp only [hv, Bool.false_eq_true, if_false]
    rw [List.map_cons, addItems]
    cases g.add o [] with
    | none => rfl
    | some g => exact ih g

theorem longArg_name {o : Opt} (h : '=' ∉ o.long) (v : Str) :
    (o.long ++ '=' :: v).takeWhile (· ≠ '=') = o.long ∧ (o.long ++ '=' :: v).dropWhile (· ≠ '=') = '=' :: v := by
  constructor
  · rw [List.takeWhile_append_of_pos]
    · simp
    · intro a ha; simp; rintro rfl; exact h ha
  · rw [List.dropWhile_append_of_pos]
    · simp
    · intro a ha; simp; rintro rfl; exact h ha

theorem longArg_bare {l : Str} (h : '=' ∉ l) : l.takeWhile (· ≠ '=') = l ∧ l.dropWhile (· ≠ '=') = [] := by
  induction l with
  | nil => exact ⟨rfl, rfl⟩
  | cons x l ih =>
    have hx : x ≠ '=' := fun e => h (e ▸ List.mem_cons_self)
    obtain ⟨h1, h2⟩ := ih (fun hm => h (List.mem_cons_of_mem _ hm))
    rw [List.takeWhile_cons, List.dropWhile_cons, if_pos (by simpa using hx), if_pos (by simpa using hx), h1, h2]
    exact ⟨rfl, rfl⟩

theorem operand_iff (a : Str) : isOperand a = true ↔ Operand a := by
  unfold isOperand Operand
  match a with
  | [] => simp
  | [c] =>
    by_cases h : c = '-'
    · subst h; simp
    · simp [h]
  | c :: d :: r =>
    by_cases h : c = '-'
    · subst h; simp
    · simp [h]

/-! ## Everything written is read -/

theorem loop_long (opts : List Opt) (g : Given) {l : Str} {as : List Str} (h : l ≠ []) :
    argLoop opts g none (('-' :: '-' :: l) :: as) = match longArg opts g l with
      | .more g => argLoop opts g none as
      | .pending g o => argLoop opts g (some o) as
      | .help => .help
      | .usage => .usage := by
  rw [argLoop, if_neg (by simpa using h), if_neg (by simp [isOperand])]
  rfl

theorem loop_short (opts : List Opt) (g : Given) {c : Char} {s : Str} {as : List Str} (h : c ≠ '-') :
    argLoop opts g none (('-' :: c :: s) :: as) = match shortArgs opts g (c :: s) with
      | .more g => argLoop opts g none as
      | .pending g o => argLoop opts g (some o) as
      | .help => .help
      | .usage => .usage := by
  rw [argLoop, if_neg (by simp [h]), if_neg (by simp [isOperand]), scanArg, if_neg (by simpa using h)]
  rfl

theorem loop_pending (opts : List Opt) (g : Given) (o : Opt) {v : Str} {as : List Str} (h : isOperand v = true) :
    argLoop opts g (some o) (v :: as) = match g.add o v with
      | some g => argLoop opts g none as
      | none => .usage := by
  rw [argLoop, if_pos h]
  rfl

private theorem letters_head {opts : List Opt} (ht : Table opts) {os : List Opt} {cs : Str} (h : Letters opts os cs) {o : Opt} {c : Char}
    (ho : o ∈ opts) (hc : o.short = some c) (r : Str) : ∃ d s, cs ++ c :: r = d :: s ∧ d ≠ '-' := by
  cases h with
  | nil => exact ⟨c, r, rfl, fun h => ht.noDash o ho (h ▸ hc)⟩
  | cons ho hv hs _ => exact ⟨_, _, rfl, fun h => ht.noDash _ ho (h ▸ hs)⟩

theorem spelled_read {opts : List Opt} (ht : Table opts) {is : List Item} {as : List Str} (h : Spelled opts is as) (g : Given) :
    argLoop opts g none as = match addItems g is with
      | some g => .run g
      | none => .usage := by
  induction h generalizing g with
  | nil => rfl
  | @file f is as hf hop _ ih =>
    rw [argLoop, if_neg, if_pos ((operand_iff f).2 hop), if_neg hf, ih]
    · rfl
    · rintro rfl
      rcases hop with h | h
      · cases h
      · exact h _ rfl
  | @flag o is as ho hv _ ih =>
    rw [show (c!"--" ++ o.long) = '-' :: '-' :: o.long from rfl, loop_long _ _ (ht.noEmpty o ho)]
    unfold longArg
    rw [(longArg_bare (ht.noEq o ho)).1, (longArg_bare (ht.noEq o ho)).2, find_long ht ho]
    simp only [hv, Bool.false_eq_true, if_false]
    rw [addItems]
    cases g.add o [] with
    | none => rfl
    | some g => exact ih g
  | @valueEq o v is as ho hv _ ih =>
    rw [show (c!"--" ++ o.long ++ '=' :: v) = '-' :: '-' :: (o.long ++ '=' :: v) from rfl, loop_long _ _ (by simp)]
    unfold longArg
    rw [(longArg_name (ht.noEq o ho) v).1, (longArg_name (ht.noEq o ho) v).2, find_long ht ho]
    simp only [hv, if_true]
    rw [addItems]
    cases g.add o v with
    | none => rfl
    | some g => exact ih g
  | @valueNext o v is as ho hv hop _ ih =>
    rw [show (c!"--" ++ o.long) = '-' :: '-' :: o.long from rfl, loop_long _ _ (ht.noEmpty o ho)]
    unfold longArg
    rw [(longArg_bare (ht.noEq o ho)).1, (longArg_bare (ht.noEq o ho)).2, find_long ht ho]
    simp only [hv, if_true]
    rw [loop_pending _ _ _ ((operand_iff v).2 hop)]
    rw [addItems]
    cases g.add o v with
    | none => rfl
    | some g => exact ih g
  | @letters os cs is as hne hl _ ih =>
    have hl' := hl
    cases hl' with
    | nil => exact absurd rfl hne
    | @cons o c os cs ho hv hs hr =>
      rw [loop_short _ _ (fun h => ht.noDash o ho (h ▸ hs)), addItems_append]
      have := shortArgs_letters ht hl g []
      rw [List.append_nil] at this
      rw [this]
      cases addItems g (List.map (.opt · []) (o :: os)) with
      | none => rfl
      | some g => exact ih g
  | @lettersValue os cs o c d v is as hl ho hv hs hd _ ih =>
    obtain ⟨d', s, he, hd'⟩ := letters_head ht hl ho hs (d :: v)
    rw [show '-' :: cs ++ c :: d :: v = '-' :: d' :: s from congrArg _ he, loop_short _ _ hd', ← he, shortArgs_letters ht hl, addItems_append]
    cases addItems g (List.map (.opt · []) os) with
    | none => rfl
    | some g =>
      simp only [Option.bind_some]
      rw [shortArgs, find_short ht ho hs]
      simp only [hv, if_true, if_neg hd]
      rw [addItems]
      cases g.add o (d :: v) with
      | none => rfl
      | some g => exact ih g
  | @lettersEq os cs o c v is as hl ho hv hs _ ih =>
    obtain ⟨d', s, he, hd'⟩ := letters_head ht hl ho hs ('=' :: v)
    rw [show '-' :: cs ++ c :: '=' :: v = '-' :: d' :: s from congrArg _ he, loop_short _ _ hd', ← he, shortArgs_letters ht hl, addItems_append]
    cases addItems g (List.map (.opt · []) os) with
    | none => rfl
    | some g =>
      simp only [Option.bind_some]
      rw [shortArgs, find_short ht ho hs]
      simp only [hv, if_true]
      rw [addItems]
      cases g.add o v with
      | none => rfl
      | some g => exact ih g
  | @lettersNext os cs o c v is as hl ho hv hs hop _ ih =>
    obtain ⟨d', s, he, hd'⟩ := letters_head ht hl ho hs []
    rw [show '-' :: cs ++ [c] = '-' :: d' :: s from congrArg _ he, loop_short _ _ hd', ← he, shortArgs_letters ht hl, addItems_append]
    cases addItems g (List.map (.opt · []) os) with
    | none => rfl
    | some g =>
      simp only [Option.bind_some]
      rw [shortArgs, find_short ht ho hs]
      simp only [hv, if_true]
      rw [loop_pending _ _ _ ((operand_iff v).2 hop)]
      rw [addItems]
      cases g.add o v with
      | none => rfl
      | some g => exact ih g
  | @rest fs hf =>
    rw [argLoop, if_pos rfl, if_neg, addItems_files]
    intro h
    obtain ⟨f, hm, h⟩ := List.any_eq_true.1 h
    exact hf f hm (by simpa using h)

/-! ## Everything read is written -/

theorem shortArgs_inv {opts : List Opt} (g : Given) (s : Str) :
    (∀ g', shortArgs opts g s = .more g' →
      (∃ os, Letters opts os s ∧ addItems g (os.map (.opt · [])) = some g') ∨
      (∃ os cs o c v g1, Letters opts os cs ∧ addItems g (os.map (.opt · [])) = some g1 ∧ o ∈ opts ∧ o.valued = true ∧ o.short = some c ∧
        g1.add o v = some g' ∧ (s = cs ++ c :: '=' :: v ∨ ∃ d r, d ≠ '=' ∧ v = d :: r ∧ s = cs ++ c :: d :: r))) ∧
    (∀ g' o, shortArgs opts g s = .pending g' o → ∃ os cs c, Letters opts os cs ∧ addItems g (os.map (.opt · [])) = some g' ∧
      o ∈ opts ∧ o.valued = true ∧ o.short = some c ∧ s = cs ++ [c]) := by
  induction s generalizing g with
  | nil =>
    refine ⟨?_, ?_⟩
    · intro g' h
      rw [shortArgs] at h
      cases h
      exact .inl ⟨[], .nil, rfl⟩
    · intro g' o h
      rw [shortArgs] at h
      cases h
  | cons c cs ih =>
    rw [shortArgs]
    cases hf : opts.find? (fun o => o.short = some c) with
    | none =>
      simp only
      refine ⟨fun g' h => ?_, fun g' o h => ?_⟩ <;> (split at h <;> cases h)
    | some o =>
      obtain ⟨ho, hs⟩ := found_short hf
      simp only
      cases hv : o.valued with
      | true =>
        simp only [if_true]
        cases cs with
        | nil =>
          refine ⟨fun g' h => (nomatch h), fun g' p h => ?_⟩
          cases h
          exact ⟨[], [], c, .nil, rfl, ho, hv, hs, rfl⟩
        | cons d r =>
          simp only
          by_cases hd : d = '='
          · subst hd
            rw [if_pos rfl]
            cases ha : g.add o r with
            | none => exact ⟨fun g' h => (nomatch h), fun g' p h => (nomatch h)⟩
            | some g1 =>
              refine ⟨fun g' h => ?_, fun g' p h => (nomatch h)⟩
              cases h
              exact .inr ⟨[], [], o, c, r, g, .nil, rfl, ho, hv, hs, ha, .inl rfl⟩
          · rw [if_neg hd]
            cases ha : g.add o (d :: r) with
            | none => exact ⟨fun g' h => (nomatch h), fun g' p h => (nomatch h)⟩
            | some g1 =>
              refine ⟨fun g' h => ?_, fun g' p h => (nomatch h)⟩
              cases h
              exact .inr ⟨[], [], o, c, d :: r, g, .nil, rfl, ho, hv, hs, ha, .inr ⟨d, r, hd, rfl, rfl⟩⟩
      | false =>
        simp only [Bool.false_eq_true, if_false]
        cases ha : g.add o [] with
        | none => exact ⟨fun g' h => (nomatch h), fun g' p h => (nomatch h)⟩
        | some g1 =>
          simp only
          have hadd : ∀ l, addItems g (.opt o [] :: l) = addItems g1 l := by
            intro l
            show (g.add o []).bind _ = _
            rw [ha]; rfl
          refine ⟨fun g' h => ?_, fun g' p h => ?_⟩
          · rcases (ih g1).1 g' h with ⟨os, h1, h2⟩ | ⟨os, ds, p, e, v, g2, h1, h2, h3, h4, h5, h6, h7⟩
            · exact .inl ⟨o :: os, .cons ho hv hs h1, (hadd _).trans h2⟩
            · refine .inr ⟨o :: os, c :: ds, p, e, v, g2, .cons ho hv hs h1, (hadd _).trans h2, h3, h4, h5, h6, ?_⟩
              rcases h7 with rfl | ⟨d, r, hd, hv', rfl⟩
              · exact .inl rfl
              · exact .inr ⟨d, r, hd, hv', rfl⟩
          · obtain ⟨os, ds, e, h1, h2, h3, h4, h5, rfl⟩ := (ih g1).2 g' p h
            exact ⟨o :: os, c :: ds, e, .cons ho hv hs h1, (hadd _).trans h2, h3, h4, h5, rfl⟩

private theorem eq_split (a : Str) : a.takeWhile (· ≠ '=') ++ a.dropWhile (· ≠ '=') = a ∧
    ∀ c r, a.dropWhile (· ≠ '=') = c :: r → c = '=' := by
  refine ⟨List.takeWhile_append_dropWhile, ?_⟩
  induction a with
  | nil => intro c r h; cases h
  | cons x a ih =>
    intro c r h
    by_cases hx : x = '='
    · subst hx
      simp at h
      exact h.1.symm
    · rw [List.dropWhile_cons, if_pos (by simpa using hx)] at h
      exact ih c r h

theorem longArg_inv {opts : List Opt} (g : Given) (s : Str) :
    (∀ g', longArg opts g s = .more g' → ∃ o ∈ opts, (o.valued = false ∧ s = o.long ∧ g.add o [] = some g') ∨
      (o.valued = true ∧ ∃ v, s = o.long ++ '=' :: v ∧ g.add o v = some g')) ∧
    (∀ g' o, longArg opts g s = .pending g' o → g' = g ∧ o ∈ opts ∧ o.valued = true ∧ s = o.long) := by
  unfold longArg
  obtain ⟨h1, h2⟩ := eq_split s
  cases hf : opts.find? (fun o => o.long = s.takeWhile (· ≠ '=')) with
  | none => refine ⟨fun g' h => ?_, fun g' o h => ?_⟩ <;> (simp only at h; split at h <;> cases h)
  | some o =>
    obtain ⟨ho, hl⟩ := found_long hf
    rw [← hl] at h1
    simp only
    cases hd : s.dropWhile (· ≠ '=') with
    | nil =>
      rw [hd, List.append_nil] at h1
      simp only
      cases hv : o.valued with
      | true =>
        simp only [if_true]
        refine ⟨fun g' h => (nomatch h), fun g' p h => ?_⟩
        cases h
        exact ⟨rfl, ho, hv, h1.symm⟩
      | false =>
        simp only [Bool.false_eq_true, if_false]
        cases ha : g.add o [] with
        | none => exact ⟨fun g' h => (nomatch h), fun g' p h => (nomatch h)⟩
        | some g1 =>
          refine ⟨fun g' h => ?_, fun g' p h => (nomatch h)⟩
          cases h
          exact ⟨o, ho, .inl ⟨hv, h1.symm, ha⟩⟩
    | cons c v =>
      rw [hd] at h1
      obtain rfl := h2 c v hd
      simp only
      cases hv : o.valued with
      | true =>
        simp only [if_true]
        cases ha : g.add o v with
        | none => exact ⟨fun g' h => (nomatch h), fun g' p h => (nomatch h)⟩
        | some g1 =>
          refine ⟨fun g' h => ?_, fun g' p h => (nomatch h)⟩
          cases h
          exact ⟨o, ho, .inr ⟨hv, v, h1.symm, ha⟩⟩
      | false =>
        simp only [Bool.false_eq_true, if_false]
        exact ⟨fun g' h => (nomatch h), fun g' p h => (nomatch h)⟩

theorem read_spelled {opts : List Opt} (as : List Str) : ∀ (g g' : Given),
    (argLoop opts g none as = .run g' → ∃ is, Spelled opts is as ∧ addItems g is = some g') ∧
    (∀ o, argLoop opts g (some o) as = .run g' → ∃ v as' is, as = v :: as' ∧ Operand v ∧ Spelled opts is as' ∧
      addItems g (.opt o v :: is) = some g') := by
  induction as with
  | nil =>
    intro g g'
    refine ⟨fun h => ?_, fun o h => ?_⟩
    · cases h; exact ⟨[], .nil, rfl⟩
    · cases h
  | cons a as ih =>
    intro g g'
    refine ⟨fun h => ?_, fun o h => ?_⟩
    · by_cases h1 : a = c!"--"
      · subst h1
        rw [argLoop, if_pos rfl] at h
        by_cases h2 : as.any List.isEmpty = true
        · rw [if_pos h2] at h; cases h
        · rw [if_neg h2] at h
          cases h
          refine ⟨as.map .file, .rest ?_, addItems_files _ _⟩
          rintro f hf rfl
          exact h2 (List.any_eq_true.2 ⟨_, hf, rfl⟩)
      · by_cases h2 : isOperand a = true
        · rw [argLoop, if_neg h1, if_pos h2] at h
          by_cases h3 : a = []
          · rw [if_pos h3] at h; cases h
          · rw [if_neg h3] at h
            obtain ⟨is, h4, h5⟩ := (ih _ _).1 h
            exact ⟨.file a :: is, .file h3 ((operand_iff a).1 h2) h4, h5⟩
        · have hc : ∃ d r, a = '-' :: d :: r := by
            match a, h2 with
            | [], h2 => simp [isOperand] at h2
            | [c], h2 => simp [isOperand] at h2
            | c :: d :: r, h2 =>
              by_cases hc : c = '-'
              · exact ⟨d, r, by rw [hc]⟩
              · simp [isOperand, hc] at h2
          obtain ⟨d, r, rfl⟩ := hc
          by_cases hd : d = '-'
          · subst hd
            have hl : r ≠ [] := by rintro rfl; exact h1 rfl
            rw [loop_long opts g hl] at h
            have hinv := longArg_inv (opts := opts) g r
            cases hs : longArg opts g r with
            | help => rw [hs] at h; cases h
            | usage => rw [hs] at h; cases h
            | more g1 =>
              rw [hs] at h
              obtain ⟨is, h4, h5⟩ := (ih _ _).1 h
              obtain ⟨o, ho, ⟨hv, rfl, ha⟩ | ⟨hv, v, rfl, ha⟩⟩ := hinv.1 g1 hs
              · exact ⟨.opt o [] :: is, .flag ho hv h4, by rw [addItems, ha]; exact h5⟩
              · exact ⟨.opt o v :: is, .valueEq ho hv h4, by rw [addItems, ha]; exact h5⟩
            | pending g1 o =>
              rw [hs] at h
              obtain ⟨rfl, ho, hv, rfl⟩ := hinv.2 g1 o hs
              obtain ⟨v, as', is, rfl, hop, h4, h5⟩ := (ih _ _).2 o h
              exact ⟨.opt o v :: is, .valueNext ho hv hop h4, h5⟩
          · rw [loop_short opts g hd] at h
            have hinv := shortArgs_inv (opts := opts) g (d :: r)
            cases hs : shortArgs opts g (d :: r) with
            | help => rw [hs] at h; cases h
            | usage => rw [hs] at h; cases h
            | more g1 =>
              rw [hs] at h
              obtain ⟨is, h4, h5⟩ := (ih _ _).1 h
              rcases hinv.1 g1 hs with ⟨os, hl, ha⟩ | ⟨os, cs, o, c, v, g2, hl, ha, ho, hv, hsh, hadd, he⟩
              · refine ⟨os.map (.opt · []) ++ is, .letters ?_ hl h4, by rw [addItems_append, ha]; exact h5⟩
                rintro rfl
                cases hl
              · have h6 : addItems g (os.map (.opt · []) ++ .opt o v :: is) = some g' := by
                  rw [addItems_append, ha, Option.bind_some, addItems, hadd]
                  exact h5
                rcases he with he | ⟨e, t, he1, rfl, he⟩
                · rw [he]
                  exact ⟨_, .lettersEq hl ho hv hsh h4, h6⟩
                · rw [he]
                  exact ⟨_, .lettersValue hl ho hv hsh he1 h4, h6⟩
            | pending g1 o =>
              rw [hs] at h
              obtain ⟨os, cs, c, hl, ha, ho, hv, hsh, he⟩ := hinv.2 g1 o hs
              obtain ⟨v, as', is, rfl, hop, h4, h5⟩ := (ih _ _).2 o h
              rw [he]
              exact ⟨_, .lettersNext hl ho hv hsh hop h4, by rw [addItems_append, ha]; exact h5⟩
    · by_cases hop : isOperand a = true
      · rw [loop_pending _ _ _ hop] at h
        cases ha : g.add o a with
        | none => rw [ha] at h; cases h
        | some g2 =>
          rw [ha] at h
          obtain ⟨is, h4, h5⟩ := (ih _ _).1 h
          exact ⟨a, as, is, rfl, (operand_iff a).1 hop, h4, by rw [addItems, ha]; exact h5⟩
      · rw [argLoop, if_neg hop] at h
        cases h

end Bulloak
