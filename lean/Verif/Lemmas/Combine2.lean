import Verif.Lemmas.Combine
/-! # Lemmas about translating files -/

set_option linter.unusedSectionVars false

namespace Bulloak
open Spec

theorem firstOnly_split (fs : List HFn) : ∀ A f B, firstOnly fs = A ++ f :: B →
    ∃ A' B', fs = A' ++ f :: B' ∧ A = firstOnly A' := by
  induction fs with
  | nil => intro A f B h; simp [firstOnly] at h
  | cons x xs ih =>
    intro A f B h
    rw [firstOnly] at h
    cases A with
    | nil =>
      simp only [List.nil_append, List.cons.injEq] at h
      obtain ⟨rfl, _⟩ := h
      exact ⟨[], xs, rfl, rfl⟩
    | cons y A =>
      simp only [List.cons_append, List.cons.injEq] at h
      obtain ⟨rfl, h⟩ := h
      obtain ⟨l1, l2, h1, h2, h3⟩ := List.filter_eq_append_iff.1 h
      obtain ⟨l3, l4, h4, h5, _, _⟩ := List.filter_eq_cons_iff.1 h3
      obtain ⟨A', B', h6, h7⟩ := ih (l1 ++ l3) f l4 (by rw [h1, h4]; simp)
      refine ⟨x :: A', B', by rw [h6]; rfl, ?_⟩
      rw [firstOnly, ← h7, List.filter_append, h2, List.filter_eq_nil_iff.2 h5, List.append_nil]

theorem firstOnly_declared {known : List Str} {fs : List HFn} (h : Declared known fs)
    (hk : ∀ f ∈ fs, ∀ g ∈ fs, f.identifier = g.identifier → f.ty = g.ty) : Declared known (firstOnly fs) := by
  intro A f B he m hm
  obtain ⟨A', B', h1, h2⟩ := firstOnly_split fs A f B he
  rcases h A' f B' h1 m hm with h3 | ⟨g, hg, h4, h5⟩
  · exact Or.inl h3
  · right
    have hmem : m ∈ (firstOnly A').map HFn.identifier := mem_firstOnly_ids.2 (h5 ▸ List.mem_map_of_mem hg)
    obtain ⟨g', hg', he'⟩ := List.mem_map.1 hmem
    refine ⟨g', h2 ▸ hg', ?_, he'⟩
    have hin : g' ∈ fs := by rw [h1]; exact List.mem_append_left _ ((firstOnly_sublist A').subset hg')
    have hin2 : g ∈ fs := by rw [h1]; exact List.mem_append_left _ hg
    have := hk g' hin g hin2 (by rw [he', h5])
    simpa [HFn.isModifier, this] using h4

theorem firstOnly_filter {p : HFn → Bool} (fs : List HFn)
    (hk : ∀ f ∈ fs, ∀ g ∈ fs, f.identifier = g.identifier → p f = p g) : (firstOnly fs).filter p = firstOnly (fs.filter p) := by
  induction fs with
  | nil => rfl
  | cons f fs ih =>
    have ih := ih (fun a ha b hb => hk a (by simp [ha]) b (by simp [hb]))
    rw [firstOnly]
    by_cases hf : p f = true
    · rw [List.filter_cons_of_pos hf, List.filter_cons_of_pos hf, firstOnly, ← ih, List.filter_filter, List.filter_filter]
      congr 1
      apply List.filter_congr
      intro g _
      rw [Bool.and_comm]
    · rw [List.filter_cons_of_neg hf, List.filter_cons_of_neg hf, ← ih, List.filter_filter]
      apply List.filter_congr
      intro g hg
      have hg' : g ∈ fs := (firstOnly_sublist fs).subset hg
      by_cases hp : p g = true
      · have : g.identifier ≠ f.identifier := fun he => hf (by rw [← hk g (by simp [hg']) f (by simp) he]; exact hp)
        simp [hp, this]
      · simp [hp]

section
variable [U : Ucd]

theorem dropTests_suffix (s : Str) : ∃ a, s = a ++ dropTests s := by
  induction h : s.length using Nat.strongRecOn generalizing s with
  | _ n ih =>
    unfold dropTests
    split
    · rename_i r
      obtain ⟨a, ha⟩ := ih r.length (by rw [← h]; simp; omega) r rfl
      exact ⟨c!"test_" ++ a, by simpa using ha⟩
    · exact ⟨[], rfl⟩

theorem modName_start [LawfulUcd] {c : Ast} (h : CondTitle (titleOf c)) : ∃ x r, modName c = x :: r ∧ (x = 'w' ∨ x = 'g') := by
  obtain ⟨kw, rest, hk, _, hw⟩ := condTitle_words h
  obtain ⟨x, r, h1, h2, _⟩ := capital_kw hk
  refine ⟨asciiLower x, r ++ (splitWs rest |>.map capital).flatten, ?_, ?_⟩
  · unfold modName camel pascal glue
    rw [hw, List.map_cons, List.flatten_cons, h1]
    simp only [List.cons_append]
    have : isPlain x = true := by rcases h2 with rfl | rfl <;> decide
    rw [LawfulUcd.plain_lower x this]; simp
  · rcases h2 with rfl | rfl
    · left; decide
    · right; decide

/-- Tests begin with `t`, modifiers with `w` or `g`. -/
def KindByName (f : HFn) : Prop :=
  (f.ty = .function ∧ ∃ r, f.identifier = 't' :: r) ∨ (f.ty = .modifier ∧ ∃ x r, f.identifier = x :: r ∧ (x = 'w' ∨ x = 'g'))

theorem kindByName_ty {f g : HFn} (hf : KindByName f) (hg : KindByName g) (h : f.identifier = g.identifier) : f.ty = g.ty := by
  rcases hf with ⟨h1, r, h2⟩ | ⟨h1, x, r, h2, h3⟩ <;> rcases hg with ⟨h1', r', h2'⟩ | ⟨h1', x', r', h2', h3'⟩
  · rw [h1, h1']
  · rw [h2, h2'] at h
    simp only [List.cons.injEq] at h
    rcases h3' with rfl | rfl <;> exact absurd h.1 (by decide)
  · rw [h2, h2'] at h
    simp only [List.cons.injEq] at h
    rcases h3 with rfl | rfl <;> exact absurd h.1 (by decide)
  · rw [h1, h1']

theorem expected_kind [LawfulUcd] {cs : List Ast} (h : ∀ c ∈ cs, GoodItem c) {skip : Bool} {f : HFn} (hf : f ∈ expected skip cs) :
    KindByName f := by
  rcases mem_expected.1 hf with ⟨a, ha, _, rfl⟩ | ⟨⟨p, c⟩, hp, hf⟩
  · exact Or.inl ⟨rfl, _, rfl⟩
  · have hg := (good_mem h c (path_mem ((mem_inScopeAll h p c).1 hp))).1
    rcases mem_condFns.1 hf with ⟨_, rfl⟩ | ⟨_, rfl⟩
    · exact Or.inr ⟨rfl, modName_start hg⟩
    · exact Or.inl ⟨rfl, testName_start hg⟩

theorem prefixFn_kind {part : Str} {f : HFn} (h : KindByName f) : KindByName (prefixFn part f) := by
  obtain ⟨i, ty, sp, m, c⟩ := f
  cases ty with
  | function => exact Or.inl ⟨rfl, _, rfl⟩
  | modifier => exact h

theorem prefixFn_ty (part : Str) (f : HFn) : (prefixFn part f).ty = f.ty ∧ (prefixFn part f).modifiers = f.modifiers ∧
    (prefixFn part f).children = f.children ∧ (prefixFn part f).span = f.span ∧ (f.isModifier = true → prefixFn part f = f) := by
  obtain ⟨i, ty, sp, m, c⟩ := f
  cases ty <;> simp [prefixFn, HFn.isModifier]

theorem declared_prefix {known : List Str} {fs : List HFn} (h : Declared known fs) (part : Str) : Declared known (fs.map (prefixFn part)) := by
  intro A f B he m hm
  obtain ⟨l1, l2, h1, h2, h3⟩ := List.map_eq_append_iff.1 he
  obtain ⟨f', l3, h4, h5, h6⟩ := List.map_eq_cons_iff.1 h3
  subst h4 h5
  rcases h l1 f' l3 h1 m (by rw [(prefixFn_ty part f').2.1] at hm; exact hm) with h7 | ⟨g, hg, h7, h8⟩
  · exact Or.inl h7
  · exact Or.inr ⟨g, by rw [← h2, ← (prefixFn_ty part g).2.2.2.2 h7]; exact List.mem_map_of_mem hg, h7, h8⟩

/-- The parse trees that come out of `parse`. -/
def Accepted (order : HashOrder) (a : Ast) : Prop := ∃ b, parseOne order b = .ok a

theorem accepted_good {order : HashOrder} {a : Ast} (h : Accepted order a) [LawfulUcd] : ∀ c ∈ kids a, GoodItem c := by
  obtain ⟨b, h⟩ := h
  obtain ⟨s, n, cs, rfl, hg⟩ := parseOne_good h
  exact hg

theorem accepted_title {order : HashOrder} {a : Ast} (h : Accepted order a) : titleOf a ≠ [] := by
  obtain ⟨b, h⟩ := h
  obtain ⟨toks, root, hs, ht, rfl, _, _, ⟨s, cs, rfl, _⟩, _⟩ := C08_words_preserved h
  obtain ⟨_, _, _, h, _⟩ := C01_token_slice ht root (by simp)
  exact h

theorem each_right {α β : Type} {R : α → β → Prop} {l : List α} {m : List β} (h : Each R l m) : ∀ b ∈ m, ∃ a ∈ l, R a b := by
  induction h with
  | nil => simp
  | @cons a b l m h1 _ ih =>
    intro x hx
    rcases List.mem_cons.1 hx with rfl | hx
    · exact ⟨a, by simp, h1⟩
    · obtain ⟨y, hy, hr⟩ := ih x hx
      exact ⟨y, by simp [hy], hr⟩

theorem parse_accepted {order : HashOrder} {text : Str} {asts : List Ast} (h : parse order text = .ok asts) :
    ∀ a ∈ asts, Accepted order a := by
  intro a ha
  obtain ⟨b, _, hb⟩ := each_right ((C13_parse_ok order text asts).1 h) a ha
  exact ⟨b, hb⟩

theorem splitTrees_mem {text b : Str} (h : b ∈ splitTrees text) : b <:+: text := by
  by_cases hb : Blank text
  · rw [(C12_split text).1 hb] at h
    rw [List.mem_singleton.1 h]
    exact List.nil_infix
  · obtain ⟨bs, hbs⟩ := blocks_exist text hb
    rw [splitTrees_blocks hbs] at h
    have hm := (List.mem_filter.1 h).1
    clear h hb
    induction hbs with
    | @last p c q => rw [List.mem_singleton.1 hm]; exact ⟨p, q, rfl⟩
    | @cons p c s rest bs _ _ _ _ _ ih =>
      rcases List.mem_cons.1 hm with rfl | hm
      · exact ⟨p, s ++ rest, by simp⟩
      · exact (ih hm).trans ⟨p ++ c ++ s, [], by simp⟩

/-- The input of the combiner. -/
def pieceOf (cfg : Config) (a : Ast) : Str × List HFn := (titleOf a, expected cfg.emitVmSkip (kids a))

theorem collect_translate {order : HashOrder} (cfg : Config) (asts : List Ast) (h : ∀ a ∈ asts, Accepted order a) [LawfulUcd] :
    collectRes (translateOne cfg) asts = .ok (roots (asts.map (pieceOf cfg))) := by
  induction asts with
  | nil => rfl
  | cons a as ih =>
    obtain ⟨b, hb⟩ := h a (by simp)
    rw [collectRes, translateOne_eq hb, Res.bind_ok, ih (fun a ha => h a (by simp [ha])), Res.bind_ok]
    rfl

theorem translate_one [LawfulUcd] {order : HashOrder} {cfg : Config} {text : Str} {ast : Ast} (h : parse order text = .ok [ast]) :
    translate order cfg text = .ok ⟨[⟨titleOf ast, expected cfg.emitVmSkip (kids ast)⟩]⟩ := by
  obtain ⟨b, hb⟩ := parse_accepted h ast (by simp)
  unfold translate
  rw [h]
  simp [Res.mapErr, translateOne_eq hb]

theorem translate_many [LawfulUcd] {order : HashOrder} {cfg : Config} {text : Str} {asts : List Ast} (h : parse order text = .ok asts)
    (hl : asts.length ≠ 1) : translate order cfg text =
      (combine (roots (asts.map (pieceOf cfg)))).mapErr (TranslateError.combiner text) := by
  unfold translate
  rw [h]
  simp only [Res.mapErr, Res.bind_ok]
  split
  · simp at hl
  · rw [collect_translate cfg asts (parse_accepted h)]
    simp

theorem each_splits {n : Str} {asts : List Ast} (h : ∀ a ∈ asts, Names n (titleOf a)) :
    ∃ fs, Each (fun a f => Splits (titleOf a) n f) asts fs := by
  induction asts with
  | nil => exact ⟨[], .nil⟩
  | cons a as ih =>
    obtain ⟨_, f, hf⟩ := h a (by simp)
    obtain ⟨fs, hfs⟩ := ih (fun a ha => h a (by simp [ha]))
    exact ⟨f :: fs, .cons hf hfs⟩

theorem each_pieces {cfg : Config} {n : Str} {asts : List Ast} {fs : List Str} (h : Each (fun a f => Splits (titleOf a) n f) asts fs) :
    Each (fun (p : Str × List HFn) f => Splits p.1 n f) (asts.map (pieceOf cfg)) fs ∧
    ((asts.map (pieceOf cfg)).zip fs).flatMap (fun q => q.1.2.map (prefixFn q.2)) = prefixedFns cfg.emitVmSkip (asts.zip fs) := by
  induction h with
  | nil => exact ⟨.nil, rfl⟩
  | cons h1 _ ih =>
    refine ⟨.cons h1 ih.1, ?_⟩
    rw [List.map_cons, List.zip_cons_cons, List.flatMap_cons, ih.2]
    simp [prefixedFns, pieceOf]

/-- All titles name the contract `n`: the result. -/
theorem translate_good [LawfulUcd] {order : HashOrder} {cfg : Config} {text : Str} {asts : List Ast} (h : parse order text = .ok asts)
    (hl : asts.length ≠ 1) (hne : asts ≠ []) {n : Str} (hn : ¬ Blank n) {fs : List Str} (hs : Each (fun a f => Splits (titleOf a) n f) asts fs) :
    translate order cfg text = .ok ⟨[⟨n, firstOnly (prefixedFns cfg.emitVmSkip (asts.zip fs))⟩]⟩ := by
  rw [translate_many h hl]
  obtain ⟨h1, h2⟩ := each_pieces (cfg := cfg) hs
  unfold combine
  rw [combineRoots_good hn _ fs h1 0 [] [] [] (by simpa using hne) (Or.inl ⟨rfl, rfl⟩), h2]
  simp only [Res.bind_ok, Res.mapErr, List.nil_append]
  rw [List.filter_eq_self.2 (by simp)]

theorem translate_bad [LawfulUcd] {order : HashOrder} {cfg : Config} {text : Str} {A B : List Ast} {a : Ast}
    (h : parse order text = .ok (A ++ a :: B)) (hl : (A ++ a :: B).length ≠ 1) {n : Str} (hA : ∀ x ∈ A, Names n (titleOf x))
    {e : CombineError} (hb : BadTitle n A.length (titleOf a) e) : translate order cfg text = .err (.combiner text e) := by
  rw [translate_many h hl]
  have hA' : ∀ q ∈ A.map (pieceOf cfg), Names n q.1 := by
    intro q hq
    obtain ⟨x, hx, rfl⟩ := List.mem_map.1 hq
    exact hA x hx
  have := combineRoots_bad (p := pieceOf cfg a) (B := B.map (pieceOf cfg)) (e := e) hA' 0 [] [] []
    (by rw [List.length_map, Nat.zero_add]; exact hb) (Or.inl ⟨rfl, rfl, rfl⟩)
  unfold combine
  rw [List.map_append, List.map_cons, this]
  rfl

theorem titles_of_asts {asts : List Ast} {A : List Str} {t : Str} {B : List Str} (h : asts.map titleOf = A ++ t :: B) :
    ∃ A' a B', asts = A' ++ a :: B' ∧ A = A'.map titleOf ∧ t = titleOf a := by
  obtain ⟨l1, l2, h1, h2, h3⟩ := List.map_eq_append_iff.1 h
  obtain ⟨a, l3, h4, h5, _⟩ := List.map_eq_cons_iff.1 h3
  exact ⟨l1, a, l3, by rw [h1, h4], h2.symm, h5.symm⟩

/-- All cases of translating a parsed file. -/
theorem translate_cases [LawfulUcd] {order : HashOrder} {text : Str} {asts : List Ast} (h : parse order text = .ok asts)
    (cfg : Config) :
    (∃ ast, asts = [ast] ∧ translate order cfg text = .ok ⟨[⟨titleOf ast, expected cfg.emitVmSkip (kids ast)⟩]⟩) ∨
    (asts = [] ∧ translate order cfg text = .ok ⟨[⟨[], []⟩]⟩) ∨
    (2 ≤ asts.length ∧ ∃ n fs, ¬ Blank n ∧ Each (fun a f => Splits (titleOf a) n f) asts fs ∧
      translate order cfg text = .ok ⟨[⟨n, firstOnly (prefixedFns cfg.emitVmSkip (asts.zip fs))⟩]⟩) ∨
    (2 ≤ asts.length ∧ ∃ n A a B e, asts = A ++ a :: B ∧ (∀ x ∈ A, Names n (titleOf x)) ∧ BadTitle n A.length (titleOf a) e ∧
      translate order cfg text = .err (.combiner text e)) := by
  by_cases h1 : asts.length = 1
  · obtain ⟨ast, rfl⟩ := List.length_eq_one_iff.1 h1
    exact Or.inl ⟨ast, rfl, translate_one h⟩
  · by_cases h0 : asts = []
    · subst h0
      refine Or.inr (Or.inl ⟨rfl, ?_⟩)
      rw [translate_many h h1]
      rfl
    · have hlen : 2 ≤ asts.length := by
        have := List.length_pos_iff.2 h0; omega
      rcases titles_cases (asts.map titleOf) with ⟨n, hn⟩ | ⟨n, A, t, B, e, he, hA, hb⟩
      · have hn : ∀ a ∈ asts, Names n (titleOf a) := fun a ha => hn _ (List.mem_map_of_mem ha)
        obtain ⟨fs, hfs⟩ := each_splits hn
        obtain ⟨a, ha⟩ := List.exists_mem_of_ne_nil _ h0
        exact Or.inr (Or.inr (Or.inl ⟨hlen, n, fs, (hn a ha).1, hfs, translate_good h h1 h0 (hn a ha).1 hfs⟩))
      · obtain ⟨A', a, B', rfl, rfl, rfl⟩ := titles_of_asts he
        have hA : ∀ x ∈ A', Names n (titleOf x) := fun x hx => hA _ (List.mem_map_of_mem hx)
        rw [List.length_map] at hb
        exact Or.inr (Or.inr (Or.inr ⟨hlen, n, A', a, B', e, rfl, hA, hb, translate_bad h h1 hA hb⟩))

theorem names_bad_absurd {n n' : Str} {k : Nat} {t : Str} {e : CombineError} (h : Names n t) (hb : BadTitle n' k t e)
    (he : 0 < k → n' = n) : False := by
  obtain ⟨hn, f, hs⟩ := h
  cases hb with
  | noSeparator h => exact h ⟨n, f, hs.1.symm⟩
  | noName h1 h2 =>
    obtain ⟨rfl, _⟩ := splits_unique hs h1
    exact hn h2
  | otherName hk h1 _ h3 =>
    obtain ⟨rfl, _⟩ := splits_unique hs h1
    exact h3 (he hk).symm

theorem prefixed_mem {skip : Bool} {trees : List (Ast × Str)} {f : HFn} : f ∈ prefixedFns skip trees ↔
    ∃ p ∈ trees, ∃ g ∈ expected skip (kids p.1), f = prefixFn p.2 g := by
  unfold prefixedFns
  simp only [List.mem_flatMap, List.mem_map]
  constructor
  · rintro ⟨p, hp, g, hg, rfl⟩; exact ⟨p, hp, g, hg, rfl⟩
  · rintro ⟨p, hp, g, hg, rfl⟩; exact ⟨p, hp, g, hg, rfl⟩

theorem zip_mem {α β : Type} {R : α → β → Prop} {l : List α} {m : List β} (h : Each R l m) {p : α × β} (hp : p ∈ l.zip m) :
    p.1 ∈ l ∧ p.2 ∈ m ∧ R p.1 p.2 := by
  induction h with
  | nil => simp at hp
  | cons h1 _ ih =>
    rw [List.zip_cons_cons, List.mem_cons] at hp
    rcases hp with rfl | hp
    · exact ⟨by simp, by simp, h1⟩
    · obtain ⟨h1, h2, h3⟩ := ih hp
      exact ⟨by simp [h1], by simp [h2], h3⟩

theorem prefixed_kind [LawfulUcd] {order : HashOrder} {skip : Bool} {trees : List (Ast × Str)} (h : ∀ p ∈ trees, Accepted order p.1)
    {f : HFn} (hf : f ∈ prefixedFns skip trees) : KindByName f := by
  obtain ⟨p, hp, g, hg, rfl⟩ := prefixed_mem.1 hf
  exact prefixFn_kind (expected_kind (accepted_good (h p hp)) hg)

theorem prefixed_declared [LawfulUcd] {order : HashOrder} {skip : Bool} {trees : List (Ast × Str)} (h : ∀ p ∈ trees, Accepted order p.1) :
    Declared [] (prefixedFns skip trees) := by
  induction trees with
  | nil => exact declared_nil _
  | cons p ps ih =>
    unfold prefixedFns
    rw [List.flatMap_cons]
    apply declared_append
    · exact declared_prefix (declared_expected (accepted_good (h p (by simp))) skip) _
    · exact declared_mono (by simp) (ih (fun q hq => h q (by simp [hq])))

end
end Bulloak
