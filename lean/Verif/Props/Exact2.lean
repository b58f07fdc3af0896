import Verif.Props.Sol
import Verif.Props.Exact
/-!
# Exact conditions for names, order of tests and comments (C17, C27, C29, C31, C35)
-/

namespace Bulloak.Spec
open Bulloak

/-- `a` comes before `b` in the file. -/
def Before (a b : Ast) : Prop := a.span.start.offset < b.span.start.offset

/-- The actions in the order in which they are written to the contract. -/
def emitted (children : List Ast) : List Ast :=
  children.flatMap (fun a => if a.isAction then [a] else (conditionsOf [a]).flatMap actionsOf)

end Bulloak.Spec

namespace Bulloak
open Spec
set_option linter.unusedSectionVars false

section
variable [U : Ucd]

/-- **C17**, exactly: a generated name is a Solidity identifier if and only if it consists of ASCII characters. -/
theorem C17_exact [LawfulUcd] {order : HashOrder} {text : Str} {ast : Ast} (h : parseOne order text = .ok ast)
    (cfg : Config) : ∃ n fns, translateOne cfg ast = .ok ⟨[⟨n, fns⟩]⟩ ∧ ∀ f ∈ fns,
      XidIdent f.identifier ∧ (SolIdent f.identifier ↔ ∀ c ∈ f.identifier, c.toNat < 128) := by
  obtain ⟨n, fns, h1, h2⟩ := C17_names_partial h cfg
  refine ⟨n, fns, h1, fun f hf => ⟨(h2 f hf).1, ?_, ?_⟩⟩
  · rintro ⟨c, r, he, hc, hr⟩ d hd
    rw [he] at hd
    have : IsLetter d ∨ isAsciiAlnum d = true ∨ d = '_' ∨ d = '$' := by
      rcases List.mem_cons.1 hd with rfl | hd
      · rcases hc with hc | hc | hc <;> simp [hc]
      · exact .inr (hr d hd)
    rcases this with h | h | rfl | rfl
    · unfold IsLetter at h; omega
    · simp only [isAsciiAlnum, Bool.or_eq_true, Bool.and_eq_true, decide_eq_true_eq] at h; omega
    · decide
    · decide
  · intro hp
    exact solIdent_of (h2 f hf).1 fun c hc => by simp [isPlain, hp c hc]

/-! ## Order of tests -/

theorem actionsFirst_iff {c : Ast} (h : ∀ k ∈ kids c, GoodItem k) :
    ActionsFirst c ↔ ∀ A B, kids c = A ++ B → ∀ k ∈ A, k.isCondition = true → ∀ a ∈ B, a.isAction = false := by
  constructor
  · rintro ⟨A, B, he, hA, hB⟩ X Y hXY k hk hkc a ha
    cases hx : a.isAction with
    | false => rfl
    | true =>
      exfalso
      obtain ⟨X1, X2, rfl⟩ := List.append_of_mem hk
      obtain ⟨Y1, Y2, rfl⟩ := List.append_of_mem ha
      rw [he] at hXY
      have hsplit := List.append_eq_append_iff.1 hXY
      have hka : k.isAction = false := by cases k <;> first | rfl | cases hkc
      have hac : a.isCondition = false := by cases a <;> first | rfl | cases hx
      rcases hsplit with ⟨Z, h1, h2⟩ | ⟨Z, h1, h2⟩
      · have := hB a (by rw [h2]; simp)
        rw [hac] at this; cases this
      · have := hA k (by rw [h1]; simp)
        rw [hka] at this; cases this
  · unfold ActionsFirst
    generalize kids c = l at h ⊢
    intro hl
    induction l with
    | nil => exact ⟨[], [], rfl, by simp, by simp⟩
    | cons k l ih =>
      cases h k (by simp) with
      | action hd =>
        obtain ⟨A, B, h1, h2, h3⟩ := ih (fun k hk => h k (by simp [hk])) (fun A B he => by
          intro x hx; exact hl (_ :: A) B (by rw [he]; rfl) x (by simp [hx]))
        exact ⟨_ :: A, B, by rw [h1]; rfl, by
          intro a ha
          rcases List.mem_cons.1 ha with rfl | ha
          · rfl
          · exact h2 a ha, h3⟩
      | condition ht hcs =>
        refine ⟨[], _, rfl, by simp, ?_⟩
        intro b hb
        rcases List.mem_cons.1 hb with rfl | hb
        · rfl
        · have := hl [_] l rfl _ (List.mem_singleton_self _) rfl b hb
          cases h b (by simp [hb]) with
          | action => cases this
          | condition => rfl

theorem conditions_flat {cs : List Ast} : (conditionsOf cs).flatMap actionsOf = cs.flatMap (fun k => (conditionsOf [k]).flatMap actionsOf) := by
  induction cs with
  | nil => rfl
  | cons k cs ih => rw [conditionsOf_cons, List.flatMap_append, ih]; rfl

theorem mem_conditionsOf {cs : List Ast} {c : Ast} : c ∈ conditionsOf cs ↔ ∃ k ∈ cs, c ∈ conditionsOf [k] := by
  induction cs with
  | nil => simp [conditionsOf, preAll]
  | cons k cs ih => rw [conditionsOf_cons, List.mem_append, ih]; simp

/-- Pairwise through a `flatMap` of ordered pieces. -/
theorem pairwise_pieces {l : List Ast} {E : Ast → List Ast} (hs : l.Pairwise (fun x y => x.span.stop.offset < y.span.start.offset))
    (hb : ∀ k ∈ l, ∀ x ∈ E k, k.span.start.offset ≤ x.span.start.offset ∧ x.span.start.offset ≤ k.span.stop.offset) :
    (l.flatMap E).Pairwise Before ↔ ∀ k ∈ l, (E k).Pairwise Before := by
  induction l with
  | nil => simp
  | cons k l ih =>
    rw [List.pairwise_cons] at hs
    rw [List.flatMap_cons, List.pairwise_append, ih hs.2 (fun k hk => hb k (by simp [hk]))]
    constructor
    · rintro ⟨h1, h2, _⟩ x hx
      rcases List.mem_cons.1 hx with rfl | hx
      · exact h1
      · exact h2 x hx
    · intro h
      refine ⟨h k (by simp), fun x hx => h x (by simp [hx]), ?_⟩
      intro a ha b hb'
      obtain ⟨y, hy, hby⟩ := List.mem_flatMap.1 hb'
      have h1 := hb k (by simp) a ha
      have h2 := hb y (by simp [hy]) b hby
      have h3 := hs.1 y hy
      unfold Before; omega

theorem emitted_condition {a : Ast} (hg : GoodItem a) : SpansNest a → (∀ c ∈ conditionsOf [a], kids c ≠ []) →
    (∀ x ∈ (conditionsOf [a]).flatMap actionsOf, a.span.start.offset ≤ x.span.start.offset ∧ x.span.start.offset ≤ a.span.stop.offset) ∧
    (a.isCondition = true → (conditionsOf [a]).flatMap actionsOf ≠ []) ∧
    (((conditionsOf [a]).flatMap actionsOf).Pairwise Before ↔ ∀ c ∈ conditionsOf [a], ActionsFirst c) := by
  induction hg with
  | @action s t cs hd =>
    intro _ _
    rw [conditionsOf_action hd]
    simp [Ast.isCondition]
  | @condition s t cs hct hcs ih =>
    intro hn hne
    rw [conditionsOf_condition] at hne ⊢
    obtain ⟨hle, hin, hpw, hsub⟩ := hn
    simp only [kids] at hin hpw hsub
    have hne' : ∀ k ∈ cs, ∀ c ∈ conditionsOf [k], kids c ≠ [] := by
      intro k hk c hc
      refine hne c (List.mem_cons_of_mem _ ?_)
      obtain ⟨A, B, rfl⟩ := List.append_of_mem hk
      rw [conditionsOf_append, conditionsOf_cons]
      simp [hc]
    have hih := fun k hk => ih k hk (hsub k hk) (hne' k hk)
    rw [List.flatMap_cons, conditions_flat]
    have hact : ∀ x ∈ actionsOf (.condition s t cs), x ∈ cs ∧ x.isAction = true := fun x hx => List.mem_filter.1 hx
    have hse : ∀ k ∈ cs, k.span.start.offset ≤ k.span.stop.offset := fun k hk => by
      obtain ⟨h, _⟩ := hsub k hk; exact h
    refine ⟨?_, ?_, ?_⟩
    · intro x hx
      rcases List.mem_append.1 hx with hx | hx
      · have h1 := hin x (hact x hx).1
        have h2 := hse x (hact x hx).1
        exact ⟨h1.1, by omega⟩
      · obtain ⟨k, hk, hxk⟩ := List.mem_flatMap.1 hx
        have h1 := (hih k hk).1 x hxk
        have h2 := hin k hk
        exact ⟨by omega, by omega⟩
    · intro _ he
      rw [List.append_eq_nil_iff] at he
      cases cs with
      | nil => exact hne _ List.mem_cons_self rfl
      | cons k cs =>
        cases hcs k (by simp) with
        | action hd => have := he.1; simp [actionsOf, kids, Ast.isAction] at this
        | condition h1 h2 =>
          have := (hih _ List.mem_cons_self).2.1 rfl
          rw [List.flatMap_cons, List.append_eq_nil_iff] at he
          exact this he.2.1
    · rw [List.pairwise_append, pairwise_pieces hpw (fun k hk => (hih k hk).1)]
      have hlt : ∀ {A B : List Ast}, cs = A ++ B → ∀ x ∈ A, ∀ y ∈ B, x.span.stop.offset < y.span.start.offset := by
        intro A B he x hx y hy
        rw [he, List.pairwise_append] at hpw
        exact hpw.2.2 x hx y hy
      constructor
      · rintro ⟨_, h2, h3⟩ c hc
        rcases List.mem_cons.1 hc with rfl | hc
        · rw [actionsFirst_iff (c := .condition s t cs) hcs]
          intro A B he k hk hkc b hb
          cases hx : b.isAction with
          | false => rfl
          | true =>
            exfalso
            simp only [kids] at he
            have hkcs : k ∈ cs := by rw [he]; simp [hk]
            obtain ⟨y, hy⟩ := List.exists_mem_of_ne_nil _ ((hih k hkcs).2.1 hkc)
            have h4 := h3 b (List.mem_filter.2 ⟨by simp only [kids]; rw [he]; simp [hb], hx⟩) y (List.mem_flatMap.2 ⟨k, hkcs, hy⟩)
            have h5 := (hih k hkcs).1 y hy
            have h6 := hlt he k hk b hb
            unfold Before at h4
            omega
        · obtain ⟨k, hk, hck⟩ : ∃ k ∈ cs, c ∈ conditionsOf [k] := mem_conditionsOf.1 hc
          exact (hih k hk).2.2.1 (h2 k hk) c hck
      · intro h
        refine ⟨?_, ?_, ?_⟩
        · have h1 : cs.Pairwise (fun x y => x.span.start.offset ≤ x.span.stop.offset → Before x y) :=
            hpw.imp fun h h' => by unfold Before; omega
          have h2 := h1.filter Ast.isAction
          refine h2.imp_of_mem ?_
          intro a b ha _ hab
          exact hab (hse a (List.mem_filter.1 ha).1)
        · intro k hk
          refine (hih k hk).2.2.2 fun c hc => h c (List.mem_cons_of_mem _ ?_)
          obtain ⟨A, B, rfl⟩ := List.append_of_mem hk
          rw [conditionsOf_append, conditionsOf_cons]
          simp [hc]
        · intro b hb y hy
          obtain ⟨k, hk, hyk⟩ := List.mem_flatMap.1 hy
          obtain ⟨A, B, he, hA, hB⟩ := h _ (List.mem_cons_self)
          simp only [kids] at he
          have hbc := hact b hb
          have hkc : k.isCondition = true := by
            cases hcs k hk with
            | action hd => rw [conditionsOf_action hd] at hyk; cases hyk
            | condition => rfl
          have hkB : k ∈ B := by
            rw [he] at hk
            rcases List.mem_append.1 hk with hk | hk
            · have := hA k hk
              cases k <;> simp_all [Ast.isAction, Ast.isCondition]
            · exact hk
          have hbA : b ∈ A := by
            have hb1 := hbc.1
            rw [he] at hb1
            rcases List.mem_append.1 hb1 with hb1 | hb1
            · exact hb1
            · have := hB b hb1
              have h2 := hbc.2
              cases b <;> simp_all [Ast.isAction, Ast.isCondition]
          have h1 := hlt he b hbA k hkB
          have h2 := (hih k hk).1 y hyk
          have h3 := hse b hbc.1
          unfold Before; omega

/-- **C27**, exactly: the comments of the contract are those of the actions in the order `emitted`, and these are in the order of the file if
and only if every condition lists its actions before its nested conditions. -/
theorem C27_exact [LawfulUcd] {order : HashOrder} (ho : ∀ l, (order l).Perm l) {text : Str} {ast : Ast} (h : parseOne order text = .ok ast)
    (cfg : Config) : ∃ n fns, translateOne cfg ast = .ok ⟨[⟨n, fns⟩]⟩ ∧ fns.flatMap comments = (emitted (kids ast)).flatMap commentLines ∧
      ((emitted (kids ast)).Pairwise Before ↔ ∀ c ∈ conditionsOf (kids ast), ActionsFirst c) := by
  refine ⟨_, _, translateOne_eq h cfg, ?_⟩
  obtain ⟨toks, ht, hp, han⟩ := parseOne_ok h
  have hd := (C14_accepted_iff ho ht hp).1 h
  have hsn := (C10_spans_nest h).1
  obtain ⟨s, n, cs, rfl, hg⟩ := parseOne_good h
  simp only [kids] at *
  constructor
  · clear hd h hp han hsn
    induction cs with
    | nil => rfl
    | cons a as ih =>
      rw [expected_cons, List.flatMap_append, ih (fun c hc => hg c (by simp [hc]))]
      have e : emitted (a :: as) = emitted [a] ++ emitted as := by simp [emitted]
      rw [e, List.flatMap_append]
      congr 1
      cases hg a (by simp) with
      | action hd => simp [emitted, Ast.isAction, actFn, comments_body]
      | @condition s t cs h1 h2 =>
        simp only [emitted, Ast.isAction, Bool.false_eq_true, if_false, List.flatMap_cons, List.flatMap_nil, List.append_nil]
        rw [← inScope_snd (hg _ (by simp)) []]
        generalize inScope [] (Ast.condition s t cs) = l
        induction l with
        | nil => rfl
        | cons p l ih => rw [List.flatMap_cons, List.flatMap_append, comments_condFns, ih, List.map_cons, List.flatMap_cons, List.flatMap_append]; rfl
  · obtain ⟨hle, hin, hpw, hsub⟩ := hsn
    simp only [kids] at hin hpw hsub
    have hmem : ∀ {c}, c ∈ conditionsOf cs ↔ ∃ k ∈ cs, c ∈ conditionsOf [k] := mem_conditionsOf
    have hsc : ∀ k ∈ cs, SpansNest k ∧ ∀ c ∈ conditionsOf [k], kids c ≠ [] := fun k hk =>
      ⟨hsub k hk, fun c hc => hd.2.1 c (hmem.2 ⟨k, hk, hc⟩)⟩
    have key := fun k hk => emitted_condition (hg k hk) (hsc k hk).1 (hsc k hk).2
    unfold emitted
    rw [pairwise_pieces hpw]
    · constructor
      · intro hall c hc
        obtain ⟨k, hk, hck⟩ := hmem.1 hc
        have := hall k hk
        cases hg k hk with
        | action hd => rw [conditionsOf_action hd] at hck; cases hck
        | condition => exact (key _ hk).2.2.1 this c hck
      · intro hall k hk
        cases hka : k.isAction with
        | true => simp
        | false => simpa using (key k hk).2.2.2 fun c hc => hall c (hmem.2 ⟨k, hk, hc⟩)
    · intro k hk x hx
      cases hka : k.isAction with
      | true =>
        rw [hka] at hx
        simp only [if_true, List.mem_singleton] at hx
        subst hx
        obtain ⟨h1, _⟩ := hsub x hk
        exact ⟨Nat.le_refl _, h1⟩
      | false =>
        rw [hka] at hx
        exact (key k hk).1 x (by simpa using hx)

/-! ## Several trees -/

theorem firstOnly_nodup_iff {fs : List HFn} : firstOnly fs = fs ↔ (fs.map HFn.identifier).Nodup := by
  refine ⟨fun h => ?_, firstOnly_of_nodup⟩
  induction fs with
  | nil => exact .nil
  | cons f fs ih =>
    rw [firstOnly, List.cons.injEq] at h
    have hl : (firstOnly fs).length ≤ fs.length := (firstOnly_sublist fs).length_le
    have hl2 := List.length_filter_le (fun g => decide (g.identifier ≠ f.identifier)) (firstOnly fs)
    have h3 : ((firstOnly fs).filter (fun g => decide (g.identifier ≠ f.identifier))).length = fs.length := by rw [h.2]
    have h4 : firstOnly fs = fs := (firstOnly_sublist fs).eq_of_length (by omega)
    rw [List.map_cons, List.nodup_cons]
    refine ⟨fun hm => ?_, ih h4⟩
    obtain ⟨g, hg, he⟩ := List.mem_map.1 hm
    have h5 := h.2
    rw [h4, List.filter_eq_self] at h5
    simpa [he] using h5 g hg

/-- **C29**, exactly: no test is lost in combining if and only if the prefixed test names are distinct. -/
theorem C29_exact [LawfulUcd] {order : HashOrder} {text : Str} {asts : List Ast} (h : parse order text = .ok asts)
    (hl : 2 ≤ asts.length) (cfg : Config) {r : HRoot} (hr : translate order cfg text = .ok r) :
    ∃ n fs fns, Each (fun a f => Splits (titleOf a) n f) asts fs ∧ r = ⟨[⟨n, fns⟩]⟩ ∧
      (fns.filter HFn.isFunction = (prefixedFns cfg.emitVmSkip (asts.zip fs)).filter HFn.isFunction ↔
        (((prefixedFns cfg.emitVmSkip (asts.zip fs)).filter HFn.isFunction).map HFn.identifier).Nodup) := by
  obtain ⟨n, fs, hs, rfl⟩ := C29_combined h hl cfg hr
  have hacc : ∀ p ∈ asts.zip fs, Accepted order p.1 := fun p hp => parse_accepted h _ (zip_mem hs hp).1
  have hk : ∀ f ∈ prefixedFns cfg.emitVmSkip (asts.zip fs), ∀ g ∈ prefixedFns cfg.emitVmSkip (asts.zip fs),
      f.identifier = g.identifier → f.ty = g.ty := fun f hf g hg => kindByName_ty (prefixed_kind hacc hf) (prefixed_kind hacc hg)
  refine ⟨n, fs, _, hs, rfl, ?_⟩
  rw [firstOnly_filter _ (fun f hf g hg he => by simp [HFn.isFunction, hk f hf g hg he]), firstOnly_nodup_iff]


/-- A tree that is accepted has a test. -/
theorem accepted_test [LawfulUcd] {order : HashOrder} (ho : ∀ l, (order l).Perm l) {a : Ast} (h : Accepted order a) (skip : Bool) :
    ∃ f ∈ expected skip (kids a), f.ty = .function := by
  obtain ⟨b, h⟩ := h
  obtain ⟨toks, ht, hp, han⟩ := parseOne_ok h
  have hd := (C14_accepted_iff ho ht hp).1 h
  have hsn := (C10_spans_nest h).1
  obtain ⟨s, n, cs, rfl, hg⟩ := parseOne_good h
  simp only [kids] at *
  obtain ⟨_, _, _, hsub⟩ := hsn
  simp only [kids] at hsub
  obtain ⟨k, hk⟩ := List.exists_mem_of_ne_nil _ hd.1
  cases hka : k.isAction with
  | true => exact ⟨actFn skip k, mem_expected.2 (.inl ⟨k, hk, hka, rfl⟩), rfl⟩
  | false =>
    have hkc : k.isCondition = true := by
      cases hg k hk with
      | action => cases hka
      | condition => rfl
    have := (emitted_condition (hg k hk) (hsub k hk) (fun c hc => hd.2.1 c (mem_conditionsOf.2 ⟨k, hk, hc⟩))).2.1 hkc
    obtain ⟨x, hx⟩ := List.exists_mem_of_ne_nil _ this
    obtain ⟨c, hc, hxc⟩ := List.mem_flatMap.1 hx
    obtain ⟨p, hp⟩ := mem_path hg (mem_conditionsOf.2 ⟨k, hk, hc⟩)
    exact ⟨condFn skip p c, mem_expected.2 (.inr ⟨(p, c), (mem_inScopeAll hg p c).2 hp, mem_condFns.2 (.inr ⟨List.ne_nil_of_mem hxc, rfl⟩)⟩), rfl⟩

theorem firstOnly_same {fs : List HFn} {f : HFn} (hf : f ∈ fs) : ∃ g ∈ firstOnly fs, g.identifier = f.identifier := by
  induction fs with
  | nil => cases hf
  | cons x fs ih =>
    rw [firstOnly]
    by_cases he : f.identifier = x.identifier
    · exact ⟨x, by simp, he.symm⟩
    · rcases List.mem_cons.1 hf with rfl | hf
      · exact absurd rfl he
      · obtain ⟨g, hg, hge⟩ := ih hf
        exact ⟨g, List.mem_cons_of_mem _ (List.mem_filter.2 ⟨hg, by simpa [hge] using he⟩), hge⟩

/-- **C31**, exactly: in a file with several trees all names are identifiers if and only if the capitalised function parts of the roots consist
of identifier characters. -/
theorem C31_exact [LawfulUcd] {order : HashOrder} (ho : ∀ l, (order l).Perm l) {text : Str} {asts : List Ast} (h : parse order text = .ok asts)
    (hl : 2 ≤ asts.length) (cfg : Config) {r : HRoot} (hr : translate order cfg text = .ok r) :
    ∃ n fs fns, Each (fun a f => Splits (titleOf a) n f) asts fs ∧ r = ⟨[⟨n, fns⟩]⟩ ∧
      ((∀ f ∈ fns, XidIdent f.identifier) ↔ ∀ part ∈ fs, ∀ c ∈ capital part, U.isXid c = true) := by
  obtain ⟨n, fs, hs, rfl⟩ := C29_combined h hl cfg hr
  have hacc : ∀ p ∈ asts.zip fs, Accepted order p.1 := fun p hp => parse_accepted h _ (zip_mem hs hp).1
  have hxid : ∀ {s : Str}, XidIdent s → ∀ c ∈ s, U.isXid c = true := by
    rintro s ⟨x, r, rfl, hlx, hr⟩ c hc
    rcases List.mem_cons.1 hc with rfl | hc
    · rw [LawfulUcd.plain_xid _ (letter_plain hlx)]
      unfold IsLetter at hlx
      simp only [isAsciiAlnum, Bool.or_eq_true, Bool.and_eq_true, decide_eq_true_eq, beq_iff_eq]
      omega
    · exact hr c hc
  refine ⟨n, fs, _, hs, rfl, ?_, ?_⟩
  · intro hall part hpart c hc
    obtain ⟨a, ha, hap⟩ : ∃ a, a ∈ asts ∧ (a, part) ∈ asts.zip fs := by
      clear hall hacc hr h hl
      induction hs with
      | nil => cases hpart
      | cons _ _ ih =>
        rcases List.mem_cons.1 hpart with rfl | hp
        · exact ⟨_, List.mem_cons_self, List.mem_cons_self⟩
        · obtain ⟨a, h1, h2⟩ := ih hp
          exact ⟨a, by simp [h1], by simp [h2]⟩
    obtain ⟨f, hf, hty⟩ := accepted_test ho (parse_accepted h a ha) cfg.emitVmSkip
    obtain ⟨g, hg, hge⟩ := firstOnly_same (prefixed_mem.2 ⟨_, hap, f, hf, rfl⟩)
    have := hxid (hall g hg) c
    rw [hge] at this
    refine this ?_
    simp [prefixFn, hty, hc]
  · intro hp f hf
    have hf := (firstOnly_sublist _).subset hf
    have hstart : ∃ c r, f.identifier = c :: r ∧ IsLetter c := by
      rcases prefixed_kind hacc hf with ⟨_, r, hr⟩ | ⟨_, x, r, hr, hx⟩
      · exact ⟨'t', r, hr, by unfold IsLetter; decide⟩
      · refine ⟨x, r, hr, ?_⟩
        rcases hx with rfl | rfl <;> (unfold IsLetter; decide)
    refine xidIdent_of ?_ hstart
    obtain ⟨p, hpm, g, hg, rfl⟩ := prefixed_mem.1 hf
    have hgx := hxid (expected_names (accepted_good (hacc p hpm)) hg).1
    obtain ⟨i, ty, sp, m, b⟩ := g
    cases ty with
    | modifier => exact hgx
    | function =>
      intro x hx
      simp only [prefixFn, List.mem_append] at hx
      rcases hx with (hx | hx) | hx
      · refine xid_test x ?_
        have : c!"test_Revert" = c!"test_" ++ c!"Revert" := rfl
        rw [this]; exact List.mem_append_left _ hx
      · exact hp p.2 (List.of_mem_zip hpm).2 x hx
      · obtain ⟨a, ha⟩ := dropTests_suffix i
        exact hgx x (by simp only; rw [ha]; simp [hx])

/-! ## Comments -/

/-- The line terminators of the Solidity compiler that bulloak lets through. -/
def Spec.passedTerminators : List Char := ['\x0b', '\x0c', '\u2028', '\u2029']

/-- **C35**, exactly: the text of a tree stays in its comments if and only if no action or description contains a vertical tab, a form feed,
U+2028 or U+2029. -/
theorem C35_exact [LawfulUcd] {order : HashOrder} {text : Str} {ast : Ast} (h : parse order text = .ok [ast]) (cfg : Config) :
    ∃ n fns, translate order cfg text = .ok ⟨[⟨n, fns⟩]⟩ ∧
      ((∀ f ∈ fns, ∀ t, .comment t ∈ f.children.getD [] → ∀ c ∈ t, c ∉ solTerminators) ↔
        ∀ t ∈ leaves (kids ast), ∀ c ∈ t, c ∉ passedTerminators) := by
  have htr := C30_single h cfg
  refine ⟨_, _, htr, ?_⟩
  have hg := accepted_good (parse_accepted h ast (by simp))
  have hperm := comments_expected hg cfg.emitVmSkip
  have hno := C35_no_line_break_partial htr
  have hmem : ∀ {f : HFn} {t : Str}, .comment t ∈ f.children.getD [] ↔ t ∈ comments f := by
    intro f t
    unfold comments
    rw [List.mem_filterMap]
    constructor
    · intro h; exact ⟨_, h, rfl⟩
    · rintro ⟨x, hx, he⟩
      cases x with
      | comment s => simp only [commentText, Option.some.injEq] at he; subst he; exact hx
      | vmSkip => cases he
  constructor
  · intro hall t ht c hc hp
    obtain ⟨f, hf, htf⟩ := List.mem_flatMap.1 (hperm.mem_iff.2 ht)
    refine hall f hf t (hmem.2 htf) c hc ?_
    simp only [passedTerminators, solTerminators, List.mem_cons, List.not_mem_nil, or_false] at hp ⊢
    rcases hp with h | h | h | h <;> simp [h]
  · intro hall f hf t ht c hc hp
    have h1 := hno f hf t ht
    have h2 := hall t (hperm.mem_iff.1 (List.mem_flatMap.2 ⟨f, hf, hmem.1 ht⟩)) c hc
    simp only [passedTerminators, solTerminators, List.mem_cons, List.not_mem_nil, or_false] at hp h2
    rcases hp with rfl | h | h | rfl | h | h
    · exact h1.1 hc
    · exact h2 (by simp [h])
    · exact h2 (by simp [h])
    · exact h1.2.1 hc
    · exact h2 (by simp [h])
    · exact h2 (by simp [h])

end

/-! ## Cases -/
section
attribute [local instance] asciiUcd

private def offsetsOf (text : Str) : Option (List Nat) :=
  match parseOne id text with
  | .ok a => some ((emitted (kids a)).map (fun a => a.span.start.offset))
  | _ => none

set_option maxRecDepth 16000 in
/-- C27: `it z` after the nested condition is written first; with the actions in front the order is that of the file. -/
example : offsetsOf c!"A\n└── when x\n    ├── when y\n    │   └── it y\n    └── it z" = some [69, 50] ∧
    offsetsOf c!"A\n└── when x\n    ├── it z\n    └── when y\n        └── it y" = some [23, 67] := by
  refine ⟨?_, ?_⟩ <;> cbv

private def namesOf (text : Str) : Option (List Str) :=
  match translate id .default text with
  | .ok ⟨[c]⟩ => some (c.children.map HFn.identifier)
  | _ => none

set_option maxRecDepth 16000 in
/-- C31: a part with a hyphen, and one without; C29: the two trees give distinct names. -/
example : namesOf c!"A::b-c\n└── it x\n\nA::d\n└── it x" = some [c!"test_B-cX", c!"test_DX"] := by cbv

set_option maxRecDepth 16000 in
/-- C29: equal prefixed names, one test is lost. -/
example : namesOf c!"A::b\n└── it x\n\nA::b\n└── it x" = some [c!"test_BX"] := by cbv

end
end Bulloak
