import Verif.Props.Edit
import Verif.Props.Combine
import Verif.Lemmas.Layout3
/-!
# Editing a file with several trees: C97, C98
-/

namespace Bulloak
open Spec
set_option linter.unusedSectionVars false

section
variable [U : Ucd]

theorem prefix_name {part : Str} {f f' : HFn} (h : nameOf f' = nameOf f) : nameOf (prefixFn part f') = nameOf (prefixFn part f) := by
  obtain ⟨i, t, _, _, _⟩ := f
  obtain ⟨i', t', _, _, _⟩ := f'
  simp only [nameOf, Prod.mk.injEq] at h
  obtain ⟨rfl, rfl⟩ := h
  cases t' <;> rfl

theorem within_weaken {α β : Type} {R : α → α → Prop} {S : β → β → Prop} {g : α → β} (hf : ∀ a b, R a b → S (g a) (g b)) {l l' : List α}
    (h : Within R l l') : Within S (l.map g) (l'.map g) := by
  induction h with
  | done => exact .done
  | add _ ih => exact .add ih
  | keep r _ ih => exact .keep (hf _ _ r) ih

/-- The functions of several trees with branches added. -/
theorem prefixed_within {skip : Bool} {asts asts' : List Ast} (h : Each (fun a a' => Extended (kids a) (kids a')) asts asts') (fs : List Str) :
    Within (fun f f' => nameOf f' = nameOf f) (prefixedFns skip (asts.zip fs)) (prefixedFns skip (asts'.zip fs)) := by
  unfold prefixedFns
  induction h generalizing fs with
  | nil => exact .done
  | cons h1 _ ih =>
    cases fs with
    | nil => exact .done
    | cons f fs =>
      rw [List.zip_cons_cons, List.zip_cons_cons, List.flatMap_cons, List.flatMap_cons]
      exact within_append (within_weaken (g := prefixFn f) (fun _ _ r => prefix_name r.name) (expected_richer h1)) (ih fs)

theorem filter_names (l : List HFn) (x : Str) :
    ((l.filter (fun g => g.identifier ≠ x)).map nameOf) = (l.map nameOf).filter (fun p => p.2 ≠ x) := by
  rw [List.filter_map]
  rfl

/-- Keeping the first function of each name, if no added function has the name of an old one. -/
theorem firstOnly_within {l l' : List HFn} (h : Within (fun f f' => nameOf f' = nameOf f) l l') :
    (∀ f ∈ l, (l'.map HFn.identifier).count f.identifier = (l.map HFn.identifier).count f.identifier) →
    ((firstOnly l).map nameOf).Sublist ((firstOnly l').map nameOf) := by
  induction h with
  | done => intro _; exact .slnil
  | @add b as bs hw ih =>
    intro hc
    have hs : (as.map HFn.identifier).Sublist (bs.map HFn.identifier) := within_map (fun _ _ r => congrArg Prod.snd r) hw
    have hb : ∀ f ∈ as, (bs.map HFn.identifier).count f.identifier = (as.map HFn.identifier).count f.identifier ∧ b.identifier ≠ f.identifier := by
      intro f hf
      have h1 := hc f hf
      have h2 := hs.count_le f.identifier
      rw [List.map_cons, List.count_cons] at h1
      split at h1
      · omega
      · rename_i hne
        exact ⟨by omega, by simpa using hne⟩
    rw [firstOnly, List.map_cons, filter_names]
    refine .cons _ ?_
    have := (ih (fun f hf => (hb f hf).1)).filter (fun p => p.2 ≠ b.identifier)
    rw [← filter_names, List.filter_eq_self.2] at this
    · exact this
    · intro f hf
      simpa using fun e : f.identifier = b.identifier => (hb f ((firstOnly_sublist _).subset hf)).2 e.symm
  | @keep a b as bs r hw ih =>
    intro hc
    have hid : b.identifier = a.identifier := congrArg Prod.snd r
    rw [firstOnly, firstOnly, List.map_cons, List.map_cons, r, filter_names, filter_names, hid]
    refine .cons_cons _ (List.Sublist.filter _ (ih (fun f hf => ?_)))
    have := hc f (List.mem_cons_of_mem _ hf)
    rw [List.map_cons, List.map_cons, List.count_cons, List.count_cons, hid] at this
    omega

theorem splits_same {n n' : Str} {as : List Ast} {fs fs' : List Str} (h : Each (fun a f => Splits (titleOf a) n f) as fs)
    (h' : Each (fun a f => Splits (titleOf a) n' f) as fs') : fs = fs' ∧ (as ≠ [] → n = n') := by
  induction h generalizing fs' with
  | nil => cases h'; exact ⟨rfl, fun h => absurd rfl h⟩
  | cons h1 _ ih =>
    cases h' with
    | cons h1' h2' =>
      obtain ⟨rfl, rfl⟩ := splits_unique h1 h1'
      exact ⟨by rw [(ih h2').1], fun _ => rfl⟩

theorem splits_split {n : Str} {as bs : List Ast} {fs : List Str} (h : Each (fun a f => Splits (titleOf a) n f) (as ++ bs) fs) :
    ∃ f1 f2, fs = f1 ++ f2 ∧ Each (fun a f => Splits (titleOf a) n f) as f1 ∧ Each (fun a f => Splits (titleOf a) n f) bs f2 := by
  induction as generalizing fs with
  | nil => exact ⟨[], fs, rfl, .nil, h⟩
  | cons a as ih =>
    cases h with
    | @cons _ f _ fs h1 h2 =>
      obtain ⟨f1, f2, rfl, h3, h4⟩ := ih h2
      exact ⟨f :: f1, f2, rfl, .cons h1 h3, h4⟩

/-- Appending trees. -/
theorem combined_append [LawfulUcd] {order order' : HashOrder} {text text' : Str} {asts more : List Ast} (h : parse order text = .ok asts)
    (h' : parse order' text' = .ok (asts ++ more)) (hl : 2 ≤ asts.length) (cfg : Config) {r r' : HRoot}
    (ht : translate order cfg text = .ok r) (ht' : translate order' cfg text' = .ok r') :
    ∃ n fns new, r = ⟨[⟨n, fns⟩]⟩ ∧ r' = ⟨[⟨n, fns ++ new⟩]⟩ ∧ ((fns ++ new).map HFn.identifier).Nodup := by
  obtain ⟨n, fs, hs, rfl⟩ := C29_combined h hl cfg ht
  obtain ⟨n', fs', hs', rfl⟩ := C29_combined h' (by rw [List.length_append]; omega) cfg ht'
  obtain ⟨f1, f2, rfl, h1, h2⟩ := splits_split hs'
  obtain ⟨rfl, hn⟩ := splits_same hs h1
  obtain rfl := hn (by rintro rfl; simp at hl)
  have e : prefixedFns cfg.emitVmSkip ((asts ++ more).zip (fs ++ f2)) =
      prefixedFns cfg.emitVmSkip (asts.zip fs) ++ prefixedFns cfg.emitVmSkip (more.zip f2) := by
    rw [List.zip_append (each_len hs)]
    unfold prefixedFns
    rw [List.flatMap_append]
  refine ⟨n, _, _, rfl, by rw [e, firstOnly_append], ?_⟩
  rw [← firstOnly_append]
  exact firstOnly_nodup _

theorem distinct_ids {fns : List HFn} (h : (fns.map HFn.identifier).Nodup) : Distinct fns := by
  rw [List.Nodup, List.pairwise_map] at h
  exact h.imp fun hn e => hn e.1

/-- **C98.** Appending trees to a file that has several trees keeps all functions, unchanged and in front of the new ones; against a file that
conformed, `check` reports exactly the new functions as missing; and a file that conforms to the longer file of trees conforms to the shorter. -/
theorem C98_append [LawfulUcd] {order order' : HashOrder} {text text' : Str} {asts more : List Ast} (h : parse order text = .ok asts)
    (h' : parse order' text' = .ok (asts ++ more)) (hl : 2 ≤ asts.length) (cfg : Config) {r r' : HRoot}
    (ht : translate order cfg text = .ok r) (ht' : translate order' cfg text' = .ok r') :
    ∃ n fns new, r = ⟨[⟨n, fns⟩]⟩ ∧ r' = ⟨[⟨n, fns ++ new⟩]⟩ ∧
      (∀ ctx : Context, ctx.hir = r → checkCtx ctx = .ok [] → (∀ s, FirstContract ctx.pt s → ∀ f ∈ new, ¬ Present s.parts f) →
        ∃ vs, checkCtx { ctx with hir := r' } = .ok vs ∧ Increasing (vs.filterMap missingIdx) ∧
          ∀ v, v ∈ vs ↔ ∃ f i, new[i]? = some f ∧ ¬ (ctx.skipModifiers = true ∧ f.ty = .modifier) ∧
            v = ⟨.matchingFunctionMissing f (fns.length + i), .code ctx.tree f.span.start.line⟩) ∧
      ∀ ctx : Context, ctx.hir = r' → checkCtx ctx = .ok [] → checkCtx { ctx with hir := r } = .ok [] := by
  obtain ⟨n, fns, new, rfl, rfl, hnd⟩ := combined_append h h' hl cfg ht ht'
  have hsub : (fns.map nameOf).Sublist ((fns ++ new).map nameOf) := by
    rw [List.map_append]; exact List.sublist_append_left _ _
  have hd := distinct_ids hnd
  have hnn := distinct_nodup hd
  rw [List.map_append, List.nodup_append] at hnn
  have hin : ∀ f ∈ new, nameOf f ∉ fns.map nameOf := fun f hf hm => hnn.2.2 _ hm _ (List.mem_map_of_mem hf) rfl
  have hout : ∀ f ∈ fns ++ new, nameOf f ∉ fns.map nameOf → f ∈ new := by
    intro f hf hm
    rcases List.mem_append.1 hf with h | h
    · exact absurd (List.mem_map_of_mem h) hm
    · exact h
  refine ⟨n, fns, new, rfl, rfl, ?_, fun ctx hh hc => check_less hh hc hsub⟩
  intro ctx hh hc hnew
  obtain ⟨vs, h1, h2, h3⟩ := check_more hh hc hsub hd (fun s hs f hf hm => hnew s hs f (hout f hf hm))
  refine ⟨vs, h1, h2, fun v => (h3 v).trans ⟨?_, ?_⟩⟩
  · rintro ⟨f, i, hi, hm, hk, rfl⟩
    rcases Nat.lt_or_ge i fns.length with hlt | hge
    · rw [List.getElem?_append_left hlt] at hi
      exact absurd (List.mem_map_of_mem (List.mem_of_getElem? hi)) hm
    · rw [List.getElem?_append_right hge] at hi
      exact ⟨f, i - fns.length, hi, hk, by rw [Nat.add_sub_cancel' hge]⟩
  · rintro ⟨f, i, hi, hk, rfl⟩
    refine ⟨f, fns.length + i, ?_, hin f (List.mem_of_getElem? hi), hk, rfl⟩
    rw [List.getElem?_append_right (Nat.le_add_right _ _), Nat.add_sub_cancel_left]; exact hi

/-- **C97**, partial: adding branches to the trees of a file with several trees keeps all functions, in order, *if no added function has the name
of an old one*: then `check` against a file that conformed reports exactly the new functions, and a file that conforms to the extended trees
conforms to the old ones.  Missing: additions that repeat a condition another tree already has (`C97_false`). -/
theorem C97_several_partial [LawfulUcd] {order order' : HashOrder} {text text' : Str} {asts asts' : List Ast} (h : parse order text = .ok asts)
    (h' : parse order' text' = .ok asts') (hl : 2 ≤ asts.length) (hn : asts.map titleOf = asts'.map titleOf)
    (he : Each (fun a a' => Extended (kids a) (kids a')) asts asts') (cfg : Config) {r r' : HRoot}
    (ht : translate order cfg text = .ok r) (ht' : translate order' cfg text' = .ok r')
    (hfresh : ∀ n fs, Each (fun a f => Splits (titleOf a) n f) asts fs → ∀ f ∈ prefixedFns cfg.emitVmSkip (asts.zip fs),
      ((prefixedFns cfg.emitVmSkip (asts'.zip fs)).map HFn.identifier).count f.identifier =
      ((prefixedFns cfg.emitVmSkip (asts.zip fs)).map HFn.identifier).count f.identifier) :
    ∃ n fns fns', r = ⟨[⟨n, fns⟩]⟩ ∧ r' = ⟨[⟨n, fns'⟩]⟩ ∧ (fns.map nameOf).Sublist (fns'.map nameOf) ∧
      (∀ ctx : Context, ctx.hir = r → checkCtx ctx = .ok [] →
        (∀ s, FirstContract ctx.pt s → ∀ f ∈ fns', nameOf f ∉ fns.map nameOf → ¬ Present s.parts f) →
        ∃ vs, checkCtx { ctx with hir := r' } = .ok vs ∧ Increasing (vs.filterMap missingIdx) ∧
          ∀ v, v ∈ vs ↔ ∃ f i, fns'[i]? = some f ∧ nameOf f ∉ fns.map nameOf ∧ ¬ (ctx.skipModifiers = true ∧ f.ty = .modifier) ∧
            v = ⟨.matchingFunctionMissing f i, .code ctx.tree f.span.start.line⟩) ∧
      ∀ ctx : Context, ctx.hir = r' → checkCtx ctx = .ok [] → checkCtx { ctx with hir := r } = .ok [] := by
  obtain ⟨n, fs, hs, rfl⟩ := C29_combined h hl cfg ht
  obtain ⟨n', fs', hs', rfl⟩ := C29_combined h' (by rw [← each_len he]; exact hl) cfg ht'
  obtain ⟨rfl, hn'⟩ := splits_same (splits_titles hs hn) hs'
  obtain rfl := hn' (by rintro rfl; have := each_len he; rw [List.length_nil] at this; omega)
  have hsub := firstOnly_within (prefixed_within (skip := cfg.emitVmSkip) he fs) (hfresh n fs hs)
  exact ⟨n, _, _, rfl, rfl, hsub, fun ctx hh hc hnew => check_more hh hc hsub (distinct_ids (firstOnly_nodup _)) hnew,
    fun ctx hh hc => check_less hh hc hsub⟩

end
end Bulloak
