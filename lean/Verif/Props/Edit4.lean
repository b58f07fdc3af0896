import Verif.Props.Edit2
import Verif.Props.Edit3
/-!
# A second tree: C109
-/

namespace Bulloak
open Spec
set_option linter.unusedSectionVars false

section
variable [U : Ucd]

theorem mod_filter (l : List HFn) : (l.filter HFn.isModifier).map nameOf = (l.map nameOf).filter (fun p => p.1 = .modifier) := by
  rw [List.filter_map]; rfl

theorem prefix_mods (part : Str) (l : List HFn) : (l.map (prefixFn part)).filter HFn.isModifier = l.filter HFn.isModifier := by
  induction l with
  | nil => rfl
  | cons f l ih =>
    obtain ⟨i, t, s, m, c⟩ := f
    cases t with
    | function => simpa [List.filter_cons, prefixFn, HFn.isModifier] using ih
    | modifier => simpa [List.filter_cons, prefixFn, HFn.isModifier] using ih

/-- Keeping the first function of each name keeps modifiers of different names. -/
theorem firstOnly_mods {l : List HFn} (hk : ∀ f ∈ l, ∀ g ∈ l, f.identifier = g.identifier → f.ty = g.ty)
    (hn : ((l.filter HFn.isModifier).map HFn.identifier).Nodup) : (firstOnly l).filter HFn.isModifier = l.filter HFn.isModifier := by
  induction l with
  | nil => rfl
  | cons f l ih =>
    have hk' : ∀ g ∈ l, ∀ g' ∈ l, g.identifier = g'.identifier → g.ty = g'.ty :=
      fun g hg g' hg' => hk g (List.mem_cons_of_mem _ hg) g' (List.mem_cons_of_mem _ hg')
    have key : ∀ hn : ((l.filter HFn.isModifier).map HFn.identifier).Nodup, (∀ g ∈ l, g.isModifier = true → g.identifier ≠ f.identifier) →
        ((firstOnly l).filter (fun g => g.identifier ≠ f.identifier)).filter HFn.isModifier = l.filter HFn.isModifier := by
      intro hn hg
      rw [List.filter_filter]
      rw [List.filter_congr (q := HFn.isModifier) (fun g hg' => ?_), ih hk' hn]
      have hgl := (firstOnly_sublist l).subset hg'
      cases hm : g.isModifier with
      | false => simp
      | true => simpa using hg g hgl hm
    rw [firstOnly, List.filter_cons, List.filter_cons]
    cases hm : f.isModifier with
    | true =>
      rw [List.filter_cons, hm, if_pos rfl, List.map_cons, List.nodup_cons] at hn
      rw [if_pos rfl, if_pos rfl, key hn.2]
      intro g hg hgm e
      exact hn.1 (e ▸ List.mem_map_of_mem (List.mem_filter.2 ⟨hg, hgm⟩))
    | false =>
      rw [List.filter_cons, hm, if_neg (by simp)] at hn
      rw [if_neg (by simp), if_neg (by simp), key hn]
      intro g hg hgm e
      have := hk g (List.mem_cons_of_mem _ hg) f (List.mem_cons_self ..) e
      unfold HFn.isModifier at hgm hm
      simp_all

theorem single_mods [LawfulUcd] {order : HashOrder} (ho : ∀ l, (order l).Perm l) {ast : Ast} (h : Accepted order ast) (cfg : Config) :
    (((expected cfg.emitVmSkip (kids ast)).filter HFn.isModifier).map HFn.identifier).Nodup := by
  obtain ⟨b, h⟩ := h
  obtain ⟨n, fns, h1, h2, _⟩ := C21_declared_before_use ho h cfg
  rw [translateOne_eq h cfg] at h1
  simp only [Res.ok.injEq, HRoot.mk.injEq, List.cons.injEq, HContract.mk.injEq, and_true] at h1
  rw [h1.2]; exact h2

/-- **C109.** Adding trees behind the only tree of a file: the contract is no longer called by the whole title of the tree, but by what precedes the first `::`; the modifiers
stay, and the names of all tests of the tree are prefixed by what follows the `::`. -/
theorem C109_functions [LawfulUcd] {order order' : HashOrder} {text text' : Str} {ast ast' : Ast} {more : List Ast} (h : parse order text = .ok [ast])
    (h' : parse order' text' = .ok (ast' :: more)) (hm : more ≠ []) (hn : titleOf ast' = titleOf ast) (hk : Resited (kids ast) (kids ast')) (cfg : Config)
    {r r' : HRoot} (ht : translate order cfg text = .ok r) (ht' : translate order' cfg text' = .ok r') :
    ∃ n part fns fns1 new, Splits (titleOf ast) n part ∧ r = ⟨[⟨titleOf ast, fns⟩]⟩ ∧ r' = ⟨[⟨n, fns1 ++ new⟩]⟩ ∧
      fns1.map nameOf = (firstOnly (fns.map (prefixFn part))).map nameOf ∧ ((fns1 ++ new).map HFn.identifier).Nodup := by
  rw [translate_single h] at ht
  have hlen : 2 ≤ (ast' :: more).length := by
    cases more with
    | nil => exact absurd rfl hm
    | cons => simp
  obtain ⟨n, fs, hs, rfl⟩ := C29_combined h' hlen cfg ht'
  cases hs with
  | @cons _ part _ fs hs1 hs2 =>
    refine ⟨n, part, _, firstOnly ((expected cfg.emitVmSkip (kids ast')).map (prefixFn part)),
      (firstOnly (prefixedFns cfg.emitVmSkip (more.zip fs))).filter (fun g => g.identifier ∉ ((expected cfg.emitVmSkip (kids ast')).map (prefixFn part)).map HFn.identifier),
      by rw [← hn]; exact hs1, (Res.ok.inj ht).symm, ?_, ?_, ?_⟩
    · simp only [prefixedFns, List.zip_cons_cons, List.flatMap_cons, firstOnly_append]
    · have e := (expected_resited (skip := cfg.emitVmSkip) (t := []) (t' := []) hk).2
      have e2 : ((expected cfg.emitVmSkip (kids ast')).map (prefixFn part)).map nameOf = ((expected cfg.emitVmSkip (kids ast)).map (prefixFn part)).map nameOf := by
        generalize expected cfg.emitVmSkip (kids ast') = l at e
        generalize expected cfg.emitVmSkip (kids ast) = l2 at e
        induction l generalizing l2 with
        | nil => rw [List.map_nil, eq_comm, List.map_eq_nil_iff] at e; subst e; rfl
        | cons a l ih =>
          cases l2 with
          | nil => cases e
          | cons b l2 =>
            simp only [List.map_cons, List.cons.injEq] at e ⊢
            exact ⟨prefix_name e.1, ih l2 e.2⟩
      generalize (expected cfg.emitVmSkip (kids ast')).map (prefixFn part) = l at e2
      generalize (expected cfg.emitVmSkip (kids ast)).map (prefixFn part) = l2 at e2
      induction l generalizing l2 with
      | nil => rw [List.map_nil, eq_comm, List.map_eq_nil_iff] at e2; subst e2; rfl
      | cons a l ih =>
        cases l2 with
        | nil => cases e2
        | cons b l2 =>
          simp only [List.map_cons, List.cons.injEq] at e2
          have hid : a.identifier = b.identifier := congrArg Prod.snd e2.1
          rw [firstOnly, firstOnly, List.map_cons, List.map_cons, filter_names, filter_names, e2.1, ih l2 e2.2, hid]
    · simp only [prefixedFns, List.zip_cons_cons, List.flatMap_cons, ← firstOnly_append]
      exact firstOnly_nodup _

/-- The modifiers of the tree stay, in order. -/
theorem second_mods [LawfulUcd] {order order' : HashOrder} (ho : ∀ l, (order l).Perm l) {text text' : Str} {ast ast' : Ast} {more : List Ast} (h : parse order text = .ok [ast])
    (h' : parse order' text' = .ok (ast' :: more)) (hm : more ≠ []) (hn : titleOf ast' = titleOf ast) (hk : Resited (kids ast) (kids ast')) (cfg : Config)
    {n : Str} {fns fns' : List HFn} (ht : translate order cfg text = .ok ⟨[⟨titleOf ast, fns⟩]⟩) (ht' : translate order' cfg text' = .ok ⟨[⟨n, fns'⟩]⟩) :
    ((fns.filter HFn.isModifier).map nameOf).Sublist (fns'.map nameOf) ∧ Distinct fns' := by
  obtain ⟨n', part, l, fns1, new, _, e1, e2, e3, e4⟩ := C109_functions h h' hm hn hk cfg ht ht'
  simp only [HRoot.mk.injEq, List.cons.injEq, HContract.mk.injEq, and_true, true_and] at e1 e2
  subst e1
  obtain ⟨rfl, rfl⟩ := e2
  refine ⟨?_, distinct_ids e4⟩
  rw [List.map_append]
  refine .trans ?_ (List.sublist_append_left _ _)
  have ha := parse_accepted h ast (List.mem_singleton_self _)
  have e := translate_single h cfg
  rw [ht] at e
  simp only [Res.ok.injEq, HRoot.mk.injEq, List.cons.injEq, HContract.mk.injEq, and_true, true_and] at e
  have hnd := single_mods ho ha cfg
  rw [← e] at hnd
  have hkind : ∀ f ∈ fns.map (prefixFn part), KindByName f := by
    intro f hf
    obtain ⟨g, hg, rfl⟩ := List.mem_map.1 hf
    rw [e] at hg
    exact prefixFn_kind (expected_kind (accepted_good ha) hg)
  have := firstOnly_mods (l := fns.map (prefixFn part)) (fun f hf g hg => kindByName_ty (hkind f hf) (hkind g hg)) (by rw [prefix_mods]; exact hnd)
  rw [prefix_mods] at this
  rw [← this, mod_filter, e3]
  exact List.filter_sublist

/-- **C109, checking.** A Solidity file that conformed to the tree as the only one, and has nothing but the modifiers of the trees now in the file, is reported to have the wrong name (unless the names
agree after removing characters), and to miss all tests, also those of the first tree, and the modifiers of the other trees. -/
theorem C109_check [LawfulUcd] {order order' : HashOrder} (ho : ∀ l, (order l).Perm l) {text text' : Str} {ast ast' : Ast} {more : List Ast} (h : parse order text = .ok [ast])
    (h' : parse order' text' = .ok (ast' :: more)) (hm : more ≠ []) (hn : titleOf ast' = titleOf ast) (hk : Resited (kids ast) (kids ast')) (cfg : Config)
    {n : Str} {fns fns' : List HFn} {ctx : Context} (hh : ctx.hir = ⟨[⟨titleOf ast, fns⟩]⟩) (ht : translate order cfg text = .ok ctx.hir)
    (ht' : translate order' cfg text' = .ok ⟨[⟨n, fns'⟩]⟩) (hc : checkCtx ctx = .ok []) {s : SolContract} (hs : FirstContract ctx.pt s)
    (hnew : ∀ f ∈ fns', Present s.parts f → f.ty = .modifier ∧ nameOf f ∈ fns.map nameOf)
    {vs : List Violation} (hv : checkCtx { ctx with hir := ⟨[⟨n, fns'⟩]⟩ } = .ok vs) :
    ∀ v, v ∈ vs ↔
      (∃ m line, s.name = some m ∧ m = sanitize (titleOf ast) ∧ m ≠ sanitize n ∧ offsetToLine ctx.src s.start = .ok line ∧
        v = ⟨.contractNameNotMatches (sanitize n) m, .code ctx.sol line⟩) ∨
      ∃ f i, fns'[i]? = some f ∧ (f.ty = .modifier → nameOf f ∉ fns.map nameOf) ∧ ¬ (ctx.skipModifiers = true ∧ f.ty = .modifier) ∧
        v = ⟨.matchingFunctionMissing f i, .code ctx.tree f.span.start.line⟩ := by
  obtain ⟨hsub, hd⟩ := second_mods ho h h' hm hn hk cfg (ht.trans (by rw [hh])) ht'
  obtain ⟨s', h1, h2, h3, h4⟩ := (C37_silent_iff hh).1 hc
  obtain rfl : s = s' := Option.some.inj (((findContract_iff _ _).2 hs).symm.trans ((findContract_iff _ _).2 h1))
  have hord : InOrder fns' s.parts := by
    refine inOrder_more hsub hd (inOrder_names (List.filter_sublist.map _) h4) ?_
    intro f hf hnm hp
    obtain ⟨g1, g2⟩ := hnew f hf hp
    apply hnm
    rw [mod_filter]
    exact List.mem_filter.2 ⟨g2, decide_eq_true g1⟩
  obtain ⟨v1, v3, g1, rfl, g3⟩ := check_report (ctx := { ctx with hir := ⟨[⟨n, fns'⟩]⟩ }) rfl hs hv
  have hu : unsortedPairs (presentAndMissing { ctx with hir := ⟨[⟨n, fns'⟩]⟩ } s 0 fns').1 = [] := by
    apply List.eq_nil_iff_forall_not_mem.2
    rintro ⟨i, a⟩ hp
    obtain ⟨f, hf, ha, j, g, b, hij, hg, hb, hlt⟩ := (mem_inversions _ s fns' i a).1 hp
    unfold InOrder at hord
    rw [List.pairwise_iff_getElem] at hord
    obtain ⟨hi, rfl⟩ := List.getElem?_eq_some_iff.1 hf
    obtain ⟨hj, rfl⟩ := List.getElem?_eq_some_iff.1 hg
    have := hord i j hi hj hij a b ha hb
    omega
  rw [hu] at g3
  cases g3
  obtain ⟨m1, m2, _⟩ := presentAndMissing_missing { ctx with hir := ⟨[⟨n, fns'⟩]⟩ } s fns' 0
  intro v
  rw [List.append_nil, List.mem_append]
  constructor
  · rintro (hm | hm)
    · left
      rcases names_report g1 with ⟨rfl, _⟩ | ⟨m, line, k1, k2, k3, rfl⟩
      · cases hm
      · exact ⟨m, line, k1, h2 m k1, k2, k3, List.mem_singleton.1 hm⟩
    · right
      obtain ⟨f, i, _, hi, e, h5, h6⟩ := m1 v hm
      refine ⟨f, i, by simpa using hi, ?_, h6, e⟩
      intro hty hmm
      obtain ⟨f0, hf0, e0⟩ := List.mem_map.1 hmm
      rcases h3 f0 hf0 with k | ⟨k, _⟩
      · exact h5 ((present_name e0 _).1 k)
      · exact h6 ⟨k, hty⟩
  · rintro (⟨m, line, k1, k2, k3, k4, rfl⟩ | ⟨f, i, hi, h5, h6, rfl⟩)
    · left
      rcases names_report g1 with ⟨_, k5⟩ | ⟨m', line', k5, k6, k7, rfl⟩
      · exact absurd (k5 m k1) k3
      · rw [k1] at k5
        obtain rfl := Option.some.inj k5
        simp only [k4, Res.ok.injEq] at k7
        subst k7
        exact List.mem_singleton_self _
    · right
      refine m2 f i (Nat.zero_le _) (by simpa using hi) ?_ h6
      intro hp
      obtain ⟨k1, k2⟩ := hnew f (List.mem_of_getElem? hi) hp
      exact h5 k1 k2

/-- **C109, fixing.** On a valid file, `check --fix` renames the contract and adds all these functions; the tests of the first tree stay under their old names, too. -/
theorem C109_fix [LawfulUcd] {P : SolParser} {G : SolGrammar} (hG : G.HasGenerated) (hP : Reader P G)
    {order order' : HashOrder} (ho : ∀ l, (order l).Perm l) {text text' : Str} {ast ast' : Ast} {more : List Ast} (h : parse order text = .ok [ast])
    (h' : parse order' text' = .ok (ast' :: more)) (hm : more ≠ []) (hn : titleOf ast' = titleOf ast) (hk : Resited (kids ast) (kids ast')) (cfg : Config)
    {n : Str} {fns fns' : List HFn} {ctx : Context} (hh : ctx.hir = ⟨[⟨titleOf ast, fns⟩]⟩) (ht : translate order cfg text = .ok ctx.hir)
    (ht' : translate order' cfg text' = .ok ⟨[⟨n, fns'⟩]⟩) (hc : checkCtx ctx = .ok []) (hf : ∀ f ∈ fns', ReadableFn f)
    {L L1 : Layout} (hL : L.Fits G) (hL1 : L1.Fits G) (hsrc : ctx.src = L.text) (hpt : P ctx.src = some ctx.pt) (hr : Renamed (sanitize n) L L1) (hb : '{' ∉ L1.header)
    (hnew : ∀ f ∈ fns', Present L.parts f → f.ty = .modifier ∧ nameOf f ∈ fns.map nameOf) (hbm : ¬ (ctx.skipModifiers = true ∧ BehindMissing fns' L))
    {vs : List Violation} (hv : checkCtx { ctx with hir := ⟨[⟨n, fns'⟩]⟩ } = .ok vs) :
    ∃ (L' : Layout) (u : SolUnit), fixContext P { ctx with hir := ⟨[⟨n, fns'⟩]⟩ } = .ok ({ ctx with hir := ⟨[⟨n, fns'⟩]⟩, src := L'.text, pt := u }, vs.length) ∧ L'.Fits G ∧
      (L.segs.map Prod.fst).Sublist (L'.segs.map Prod.fst) ∧ (∀ m, L'.name = some m → m = sanitize n) ∧
      (L'.segs.map Prod.fst).Perm (L.segs.map Prod.fst ++
        (fns'.filter (fun f => (f.ty = .modifier → nameOf f ∉ fns.map nameOf) ∧ ¬ (ctx.skipModifiers = true ∧ f.ty = .modifier))).map newSeg) ∧
      checkCtx { ctx with hir := ⟨[⟨n, fns'⟩]⟩, src := L'.text, pt := u } = .ok [] := by
  obtain ⟨hsub, hd⟩ := second_mods ho h h' hm hn hk cfg (ht.trans (by rw [hh])) ht'
  have hfc : FirstContract ctx.pt L.contract := reader_first hP hL (by rw [← hsrc]; exact hpt)
  obtain ⟨s', h1, h2, h3, h4⟩ := (C37_silent_iff hh).1 hc
  obtain rfl : s' = L.contract := Option.some.inj (((findContract_iff _ _).2 h1).symm.trans ((findContract_iff _ _).2 hfc))
  have hord : InOrder fns' L.parts := by
    refine inOrder_more hsub hd (inOrder_names (List.filter_sublist.map _) h4) ?_
    intro f hf hnm hp
    obtain ⟨g1, g2⟩ := hnew f hf hp
    apply hnm
    rw [mod_filter]
    exact List.mem_filter.2 ⟨g2, decide_eq_true g1⟩
  obtain ⟨L', u, g1, g2, g3, g4, g5⟩ := C91_fix_missing hG hP (ctx := { ctx with hir := ⟨[⟨n, fns'⟩]⟩ }) rfl hf hL hL1 hsrc hpt hr hb (by
    intro i f g hf hg hs hty hnp hrep
    refine hbm ⟨hs, i, f, g, hf, hg, hty, ?_, hnp, hrep.1⟩
    cases hgt : g.ty with
    | function => rfl
    | modifier => exact absurd ⟨hs, hgt⟩ hrep.2) hd hord hv
  have hsegs := renamed_segs hr
  refine ⟨L', u, g1, g2, by rw [← hsegs]; exact g4.kept, ?_, ?_, g5⟩
  · intro m hm'
    rw [g4.same.2.1] at hm'
    exact renamed_name hr m hm'
  · have := g4.only
    rw [hsegs] at this
    rw [List.filter_congr (q := fun f => decide ((f.ty = .modifier → nameOf f ∉ fns.map nameOf) ∧
      ¬ (ctx.skipModifiers = true ∧ f.ty = .modifier))) (fun f hf => decide_eq_decide.2 ?_)] at this
    · exact this
    · simp only [Reported, renamed_present hr]
      refine and_congr_left fun hns => ?_
      constructor
      · intro hnp hty hmm
        obtain ⟨f0, hf0, e0⟩ := List.mem_map.1 hmm
        rcases h3 f0 hf0 with k | ⟨k, _⟩
        · exact hnp ((present_name e0 _).1 k)
        · exact hns ⟨k, hty⟩
      · intro hi hp
        obtain ⟨k1, k2⟩ := hnew f hf hp
        exact hi k1 k2

end
end Bulloak
