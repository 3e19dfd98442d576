import Verif.Proofs.DefEq
import Verif.Props.ModuleCalls
/-
Properties C23-C28: ModuleDef equality and canonicity, Pure, apply.
-/
namespace Nnx
variable {α : Type} [DecidableEq α]

/-! ### C24 -/

omit [DecidableEq α] in
theorem SameGraph.trans {h h' h'' : Heap α} {r r' r'' : Loc} (a : SameGraph h r h' r') (b : SameGraph h' r' h'' r'') :
    SameGraph h r h'' r'' :=
  ⟨fun p => (b.1 p).trans (a.1 p), fun p q => (b.2 p q).trans (a.2 p q)⟩

omit [DecidableEq α] in
theorem SameGraph.symm {h h' : Heap α} {r r' : Loc} (a : SameGraph h r h' r') : SameGraph h' r' h r :=
  ⟨fun p => (a.1 p).symm, fun p q => (a.2 p q).symm⟩

omit [DecidableEq α] in
theorem access_snoc' {h : Heap α} {a b : Loc} {p : List Str} {n : Str} (w : Walk h a p b) :
    access h (.ref a) (p ++ [n]) = attrAt h b n := access_snoc w n

omit [DecidableEq α] in
theorem observe_walk {h : Heap α} (wf : WFHeap h) {a b : Loc} {p : List Str} (ha : a < h.length) (w : Walk h a p b) :
    observe h a p = (h[b]?).map (fun o => .module o.cls o.isInit) := by
  unfold observe
  rw [(access_ref wf ha).2 w]
  rfl

omit [DecidableEq α] in
theorem SameGraph.walk {h h' : Heap α} (wf : WFHeap h) (wf' : WFHeap h') {r r' : Loc} (hr : r < h.length)
    (hr' : r' < h'.length) (g : SameGraph h r h' r') {p : List Str} {a : Loc} (w : Walk h r p a) :
    ∃ b, Walk h' r' p b := by
  obtain ⟨b, hb, _⟩ := (g.2 p p).2 ⟨a, (access_ref wf hr).2 w, (access_ref wf hr).2 w⟩
  exact ⟨b, (access_ref wf' hr').1 hb⟩

omit [DecidableEq α] in
/-- Observationally equal graphs are traversed in lockstep. -/
theorem SameGraph.sim {h h' : Heap α} (wf : WFHeap h) (wf' : WFHeap h') {r r' : Loc} (hr : r < h.length)
    (hr' : r' < h'.length) (g : SameGraph h r h' r') :
    Sim h h' (fun a b => ∃ p, Walk h r p a ∧ Walk h' r' p b) := by
  constructor
  · rintro a b ⟨p, wa, wb⟩
    have ea := List.getElem?_eq_getElem wa.lt
    have eb := List.getElem?_eq_getElem wb.lt
    have hobs := g.1 p
    rw [observe_walk wf hr wa, observe_walk wf' hr' wb, ea, eb] at hobs
    simp only [Option.map_some, Option.some.injEq, Shown.module.injEq] at hobs
    refine ⟨_, _, ea, eb, hobs.1.symm, hobs.2.symm, ?_⟩
    have na := wf.nodup _ _ ea
    have nb := wf'.nodup _ _ eb
    refine forall₂_of_sorted (sortItems_strict na) (sortItems_strict nb) ?_
    intro n
    rw [dget_sortItems na, dget_sortItems nb]
    have ha : attrAt h a n = dget (h[a]'wa.lt).attrs n := by simp [attrAt, ea]
    have hb : attrAt h' b n = dget (h'[b]'wb.lt).attrs n := by simp [attrAt, eb]
    rw [← ha, ← hb]
    have hobs := g.1 (p ++ [n])
    simp only [observe, access_snoc' wa, access_snoc' wb] at hobs
    cases hA : attrAt h a n with
    | none =>
      rw [hA] at hobs
      cases hB : attrAt h' b n with
      | none => trivial
      | some y =>
        rw [hB] at hobs
        cases y with
        | val v => simp [shown] at hobs
        | ref c =>
          have := List.getElem?_eq_getElem (wf'.refs _ _ _ hB)
          simp [shown, this] at hobs
    | some x =>
      rw [hA] at hobs
      cases x with
      | val v =>
        cases hB : attrAt h' b n with
        | none => rw [hB] at hobs; simp [shown] at hobs
        | some y =>
          rw [hB] at hobs
          cases y with
          | val u =>
            simp only [shown, Option.bind_some, Option.some.injEq, Shown.value.injEq] at hobs
            subst hobs
            exact .val
          | ref c =>
            have := List.getElem?_eq_getElem (wf'.refs _ _ _ hB)
            simp [shown, this] at hobs
      | ref c =>
        have hc := wf.refs _ _ _ hA
        have := List.getElem?_eq_getElem hc
        cases hB : attrAt h' b n with
        | none => rw [hB] at hobs; simp [shown, this] at hobs
        | some y =>
          rw [hB] at hobs
          cases y with
          | val u => simp [shown, this] at hobs
          | ref c' => exact .ref ⟨p ++ [n], wa.snoc hA hc, wb.snoc hB (wf'.refs _ _ _ hB)⟩
  · rintro a b c d ⟨p, wa, wb⟩ ⟨q, wc, wd⟩
    have key := g.2 p q
    unfold SameModule at key
    simp only [access_ref wf hr, access_ref wf' hr'] at key
    have u1 : uidAt h a = uidAt h c ↔ a = c := by
      constructor
      · intro e
        rw [uidAt_of (List.getElem?_eq_getElem wa.lt), uidAt_of (List.getElem?_eq_getElem wc.lt)] at e
        exact wf.uids _ _ _ _ (List.getElem?_eq_getElem wa.lt) (List.getElem?_eq_getElem wc.lt) e
      · rintro rfl; rfl
    have u2 : uidAt h' b = uidAt h' d ↔ b = d := by
      constructor
      · intro e
        rw [uidAt_of (List.getElem?_eq_getElem wb.lt), uidAt_of (List.getElem?_eq_getElem wd.lt)] at e
        exact wf'.uids _ _ _ _ (List.getElem?_eq_getElem wb.lt) (List.getElem?_eq_getElem wd.lt) e
      · rintro rfl; rfl
    rw [u1, u2]
    constructor
    · rintro rfl
      obtain ⟨l, h1, h2⟩ := key.2 ⟨a, wa, wc⟩
      exact (wb.functional h1).trans (h2.functional wd)
    · rintro rfl
      obtain ⟨l, h1, h2⟩ := key.1 ⟨b, wb, wd⟩
      exact (wa.functional h1).trans (h2.functional wc)

omit [DecidableEq α] in
/-- **C24.** Modules in any two worlds that are observationally equal — every access path shows the same
class, flag or value and the same pairs of paths lead to one object — have identical ModuleDefs and identical
States: attribute insertion order, addresses and ids do not matter. -/
theorem C24_partition_canonical {h h' : Heap α} (wf : WFHeap h) (wf' : WFHeap h') {r r' : Loc} (hr : r < h.length)
    (hr' : r' < h'.length) (g : SameGraph h r h' r') {f f' : Nat} (hf : h.length < f) (hf' : h'.length < f') :
    ∃ s d, partitionModule f h r [] = .ok ([s], d) ∧ partitionModule f' h' r' [] = .ok ([s], d) := by
  have sim := g.sim wf wf' hr hr'
  have hroot : (fun a b => ∃ p, Walk h r p a ∧ Walk h' r' p b) r r' := ⟨[], .here hr, .here hr'⟩
  obtain ⟨d, hd⟩ := getModuleDef_exists wf hr hf
  obtain ⟨s, hs⟩ := getState_exists wf hr hf
  obtain ⟨d', hd'⟩ := getModuleDef_exists wf' hr' hf'
  obtain ⟨s', hs'⟩ := getState_exists wf' hr' hf'
  have e1 : d = d' := by
    unfold getModuleDef at hd hd'
    split at hd
    swap
    · cases hd
    next h1 =>
    split at hd'
    swap
    · cases hd'
    next h2 =>
    cases hd; cases hd'
    have := (sim.makeDef _ _ _ _ _ _ _ _ _ _ hroot .nil h1 h2).1
    exact Sum.inr.inj this
  have e2 : s = s' := by
    unfold getState at hs hs'
    split at hs
    · cases hs
    next h1 =>
    split at hs'
    · cases hs'
    next h2 =>
    cases hs; cases hs'
    rw [(sim.iterState _ _ _ _ _ _ _ _ _ _ _ hroot .nil h1 h2).1]
  subst e1; subst e2
  exact ⟨s, d, by simp [partitionModule, hd, hs], by simp [partitionModule, hd', hs']⟩

/-- **C24, the converse.** Two modules whose `partition()` gives the same ModuleDef and State are
observationally equal: the pair loses nothing. -/
theorem C24_partition_complete {h h' : Heap α} (wf : WFHeap h) (wf' : WFHeap h') {r r' : Loc} (hr : r < h.length)
    (hr' : r' < h'.length) {f f' : Nat} {ss : List (State (PyVal α))} {d : ModuleDef α}
    (e : partitionModule f h r [] = .ok (ss, d)) (e' : partitionModule f' h' r' [] = .ok (ss, d)) :
    SameGraph h r h' r' := by
  have wf0 : WFWorld (World.initial α) := (C71_reachable_worlds_well_formed .done).1
  obtain ⟨w1, l1, m1, g1, _⟩ := C11_partition_merge wf hr e wf0
  obtain ⟨w2, l2, m2, g2, _⟩ := C11_partition_merge wf' hr' e' wf0
  rw [m1] at m2
  simp only [Prod.mk.injEq, Except.ok.injEq] at m2
  obtain ⟨rfl, rfl⟩ := m2
  exact g1.trans g2.symm

/-- **C24, clones.** Partitioning a clone gives the ModuleDef and State of the original. -/
theorem C24_clone_same_def {w : World α} (wf : WFWorld w) {m : Loc} (hm : m < w.heap.length) {fuel fuel' : Nat}
    (hf : w.heap.length < fuel) : ∃ w' c, cloneModule fuel m w = (w', .ok c) ∧
      (w'.heap.length < fuel' → ∃ s d, partitionModule fuel w.heap m [] = .ok ([s], d) ∧
        partitionModule fuel' w'.heap c [] = .ok ([s], d)) := by
  obtain ⟨w', c, hc, wf', g, _⟩ := C12_clone_fresh wf hm hf
  refine ⟨w', c, hc, ?_⟩
  intro hf'
  exact C24_partition_canonical wf.heap wf'.heap hm (clone_apart wf hm hc).2.2.1 g hf hf'

/-- A second graph built in another order, with other addresses and ids, and the same ModuleDef and State. -/
example : ∃ s d, partitionModule 3 exHeap 0 [] = .ok ([s], d) ∧
    partitionModule 3 [⟨exCls (py! "Block"), [(py! "up", .ref 1), (py! "s", .val (exStat 6)), (py! "w", .val (exParam 5)),
        (py! "k", .val (.data cTuple 3))], 40, true, ⟨0, 0⟩⟩,
      ⟨exCls (py! "Net"), [(py! "b", .ref 0), (py! "w", .val (exParam 1)), (py! "a", .ref 0), (py! "name", .val (.str (py! "net"))),
        (py! "me", .ref 1)], 3, false, ⟨0, 0⟩⟩] 1 []
      = .ok ([s], d) := ⟨_, _, rfl, by decide⟩

/-! ### C23 -/

/-- **C23, equal definitions build equal modules.** If two ModuleDefs obtained from modules compare equal,
then merging the same States into either in the same world gives the same result (the same exception or a module
at the same place), and worlds that differ in `is_initializing` flags only. -/
theorem C23_equal_defs_merge_equal {h h' : Heap α} {f f' : Nat} {l l' : Loc} {d e : ModuleDef α}
    (hd : getModuleDef f h l = some d) (he : getModuleDef f' h' l' = some e) (heq : d.eqv e = true)
    (ss : List (State (PyVal α))) (w : World α) :
    (mergeDef d ss w).2 = (mergeDef e ss w).2 ∧ (mergeDef d ss w).1.noFlags = (mergeDef e ss w).1.noFlags := by
  have h1 := noFlags_mergeDef d ss w
  have h2 := noFlags_mergeDef e ss w
  rw [ModuleDef.noFlags_eq hd he heq, ← h2] at h1
  simp only [Prod.mk.injEq] at h1
  exact ⟨h1.2, h1.1⟩

/-- **C23, hashes.** Definitions that compare equal have equal hashes (or are both unhashable). -/
theorem C23_equal_defs_hash_equal (H : Hashing α) {d e : ModuleDef α} (heq : d.eqv e = true) : d.hash H = e.hash H := by
  simp only [ModuleDef.eqv, Bool.and_eq_true, decide_eq_true_eq] at heq
  obtain ⟨⟨h1, h2⟩, h3⟩ := heq
  simp only [ModuleDef.hash, H.subs_eqv h2, h1, h3]

/-- **C23, equality is an equivalence relation.** -/
theorem C23_eq_equivalence : Equivalence (fun d e : ModuleDef α => d.eqv e = true) := by
  refine ⟨?_, ?_, ?_⟩
  · intro d; simp [ModuleDef.eqv, Subs.eqv_refl]
  · intro d e h
    simp only [ModuleDef.eqv, Bool.and_eq_true, decide_eq_true_eq] at h ⊢
    exact ⟨⟨h.1.1.symm, Subs.eqv_symm h.1.2⟩, h.2.symm⟩
  · intro d e f h k
    simp only [ModuleDef.eqv, Bool.and_eq_true, decide_eq_true_eq] at h k ⊢
    exact ⟨⟨h.1.1.trans k.1.1, Subs.eqv_trans h.1.2 k.1.2⟩, h.2.trans k.2⟩

omit [DecidableEq α] in
/-- Observational equality does not need the flags. -/
theorem SameGraph.noFlags {w1 w2 : World α} {a b : Loc} (g : SameGraph w1.heap a w2.heap b) :
    SameGraph w1.noFlags.heap a w2.noFlags.heap b := by
  have hat : ∀ (w : World α) l n, attrAt w.noFlags.heap l n = attrAt w.heap l n := by
    intro w l n; simp only [attrAt, noFlags_get]; cases w.heap[l]? <;> rfl
  have acc : ∀ (w : World α) (p : List Str) (x : Attr α), access w.noFlags.heap x p = access w.heap x p := by
    intro w p
    induction p with
    | nil => intro x; cases x <;> rfl
    | cons n p ih =>
      intro x
      cases x with
      | val v => rfl
      | ref l =>
        simp only [access, hat]
        cases attrAt w.heap l n with
        | none => rfl
        | some y => exact ih y
  have obs : ∀ (w : World α) (p : List Str) (x : Loc), observe w.noFlags.heap x p =
      (observe w.heap x p).map (fun
        | .module c _ => .module c false
        | .value v => .value v) := by
    intro w p x
    unfold observe
    rw [acc w]
    cases access w.heap (.ref x) p with
    | none => rfl
    | some y =>
      cases y with
      | val v => rfl
      | ref l =>
        simp only [Option.bind_some, shown, noFlags_get]
        cases w.heap[l]? <;> rfl
  refine ⟨fun p => by rw [obs w1, obs w2, g.1], fun p q => ?_⟩
  unfold SameModule
  rw [acc w1, acc w1, acc w2, acc w2]
  exact g.2 p q

/-- **C23 with C24, definitions distinguish modules.** If two modules have definitions that compare equal and equal
States, then they are observationally equal up to `is_initializing` flags. -/
theorem C23_equal_defs_same_structure {w w' : World α} (wf : WFWorld w) (wf' : WFWorld w') {r r' : Loc}
    (hr : r < w.heap.length) (hr' : r' < w'.heap.length) {f f' : Nat} {s : State (PyVal α)} {d e : ModuleDef α}
    (hd : partitionModule f w.heap r [] = .ok ([s], d)) (he : partitionModule f' w'.heap r' [] = .ok ([s], e))
    (heq : d.eqv e = true) : SameGraph w.noFlags.heap r w'.noFlags.heap r' := by
  have wf0 : WFWorld (World.initial α) := (C71_reachable_worlds_well_formed .done).1
  obtain ⟨w1, l1, m1, g1, v1, _⟩ := C11_partition_merge wf.heap hr hd wf0
  obtain ⟨w2, l2, m2, g2, v2, _⟩ := C11_partition_merge wf'.heap hr' he wf0
  have hdd : getModuleDef f w.heap r = some d := by
    unfold partitionModule at hd
    split at hd
    · next h1 _ => cases hd; exact h1
    · cases hd
  have hee : getModuleDef f' w'.heap r' = some e := by
    unfold partitionModule at he
    split at he
    · next h1 _ => cases he; exact h1
    · cases he
  have hm := C23_equal_defs_merge_equal hdd hee heq [s] (World.initial α)
  rw [m1, m2] at hm
  simp only [Except.ok.injEq] at hm
  obtain ⟨rfl, hw⟩ := hm
  have a := g1.noFlags
  have b := g2.noFlags
  rw [hw] at a
  exact a.trans b.symm

/-- **C23, beyond definitions obtained from modules.** Equality ignores the numbering of definitions, so two
hand-made ModuleDefs can compare equal although one cannot be merged at all. -/
theorem C23_index_ignored : ∃ d e : ModuleDef Nat, d.eqv e = true ∧
    (mergeDef d [⟨[]⟩] (World.initial Nat)).2 = .ok 0 ∧ (mergeDef e [⟨[]⟩] (World.initial Nat)).2 = .error .keyError :=
  ⟨⟨exCls (py! "A"), 0, .ref (py! "me") 0 .nil, [], false⟩, ⟨exCls (py! "A"), 1, .ref (py! "me") 0 .nil, [], false⟩,
    by decide, by decide, by decide⟩

/-- The definitions of the example module and of a copy marked as initializing compare equal and differ. -/
example : ∃ d e, getModuleDef 3 exHeap 0 = some d ∧
    getModuleDef 3 (exHeap.map (fun o => { o with isInit := true })) 0 = some e ∧ d.eqv e = true ∧ d ≠ e :=
  ⟨_, _, rfl, rfl, by decide, by decide⟩

end Nnx
