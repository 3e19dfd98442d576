import Verif.Spec.Contained
import Verif.Props.ModuleDef
import Verif.Proofs.Programs
/-
C124: Modules inside of lists and other objects are not submodules.
-/
namespace Nnx
variable {α : Type}

theorem SameGraph.value {h h' : Heap α} {r r' : Loc} (g : SameGraph h r h' r') {p : List Str} {v : PyVal α}
    (e : access h (.ref r) p = some (.val v)) : access h' (.ref r') p = some (.val v) := by
  have ho := g.1 p
  simp only [observe, e, Option.bind_some, shown] at ho
  cases ha : access h' (.ref r') p with
  | none => rw [ha] at ho; cases ho
  | some a =>
    rw [ha] at ho
    cases a with
    | val v' => simp only [Option.bind_some, shown, Option.some.injEq, Shown.value.injEq] at ho; rw [ho]
    | ref l =>
      simp only [Option.bind_some, shown] at ho
      cases hl : h'[l]? with
      | none => rw [hl] at ho; cases ho
      | some o => rw [hl] at ho; cases ho

theorem SameGraph.back {h h' : Heap α} {r r' : Loc} (g : SameGraph h r h' r') : SameGraph h' r' h r :=
  ⟨fun p => (g.1 p).symm, fun p q => (g.2 p q).symm⟩

theorem SameGraph.contained {h h' : Heap α} {r r' : Loc} (g : SameGraph h r h' r') (held : α → List Loc) (k : Loc) :
    Contained held h' r' k ↔ Contained held h r k :=
  ⟨fun ⟨p, v, a, e, hh⟩ => ⟨p, v, a, g.back.value e, hh⟩, fun ⟨p, v, a, e, hh⟩ => ⟨p, v, a, g.value e, hh⟩⟩

variable [DecidableEq α]

/-- **C124, clones share them.** The Modules inside of lists and other objects of a clone are those of the original, not copies. -/
theorem C124_clone_shares {w : World α} (wf : WFWorld w) {m : Loc} (hm : m < w.heap.length) {fuel : Nat} (hf : w.heap.length < fuel)
    (held : α → List Loc) : ∃ w' c, cloneModule fuel m w = (w', .ok c) ∧ c ≠ m ∧ ∀ k, Contained held w'.heap c k ↔ Contained held w.heap m k := by
  obtain ⟨w', c, hc, wf', g, hold, hnew⟩ := C12_clone_fresh wf hm hf
  have hlt := (clone_apart wf hm hc).2.2.1
  refine ⟨w', c, hc, ?_, g.contained held⟩
  rintro rfl
  exact absurd hm (Nat.not_lt.2 (hnew c _ ⟨[], .here hlt⟩ (List.getElem?_eq_getElem hlt)).1)

/-- **C124, so do merged Modules.** -/
theorem C124_merge_shares {h : Heap α} (wf : WFHeap h) {m : Loc} (hm : m < h.length) {fuel : Nat} {ss : List (State (PyVal α))} {d : ModuleDef α}
    (hp : partitionModule fuel h m [] = .ok (ss, d)) {w : World α} (wf2 : WFWorld w) (held : α → List Loc) :
    ∃ w' c, mergeDef d ss w = (w', .ok c) ∧ ∀ k, Contained held w'.heap c k ↔ Contained held h m k := by
  obtain ⟨w', c, hmerge, g, _⟩ := C11_partition_merge wf hm hp wf2
  exact ⟨w', c, hmerge, g.contained held⟩

/-- **C124, the operations of Modules pass them by.** No sequence of calls on `m` and its submodules (update_state, pop_state, init, sow, ...) changes a Module
that is not reached through attributes, wherever else it is. -/
theorem C124_calls_miss {w w' : World α} (wf : WFWorld w) {m k : Loc} (hm : m < w.heap.length) (hk : k < w.heap.length) (hno : ¬ Reaches w.heap m k)
    {K : List Loc} (hs : Steps [m] w K w') : w'.heap[k]? = w.heap[k]? := by
  have hreg : Region w [m] m := ⟨m, List.mem_cons_self, [], .here hm⟩
  have c := hs.confined (Region w [m]) wf (fun a ha => by rw [List.mem_singleton.1 ha]; exact hm) (region_closed wf [m])
    (fun a ha => by rw [List.mem_singleton.1 ha]; exact hreg)
  refine c.same k hk ?_
  rintro ⟨a, ha, hr⟩
  rw [List.mem_singleton.1 ha] at hr
  exact hno hr

/-- **C124, and what is done to them is not seen.** Let `k` have no Module in common with `m`. After any calls on `k` the state and the definition of `m` are
what they were, even if `k` is in a list of `m`. -/
theorem C124_changes_unseen {w w' : World α} (wf : WFWorld w) {m k : Loc} (hm : m < w.heap.length) (hk : k < w.heap.length) (hap : Apart w [k] [m])
    {K : List Loc} (hs : Steps [k] w K w') {fuel fuel' : Nat} (hf : w.heap.length < fuel) (hf' : w'.heap.length < fuel') :
    SameGraph w.heap m w'.heap m ∧ getState fuel' w'.heap m = getState fuel w.heap m ∧ getModuleDef fuel' w'.heap m = getModuleDef fuel w.heap m := by
  have hkl : ∀ a ∈ [k], a < w.heap.length := fun a ha => by rw [List.mem_singleton.1 ha]; exact hk
  have hml : ∀ a ∈ [m], a < w.heap.length := fun a ha => by rw [List.mem_singleton.1 ha]; exact hm
  have g : SameGraph w.heap m w'.heap m := sameGraph_of_unchanged wf.heap hm (hs.other wf hkl hml hap m List.mem_cons_self)
  have c := hs.confined (Region w [k]) wf hkl (region_closed wf [k]) fun a ha => ⟨a, ha, [], .here (hkl a ha)⟩
  have hm' := Nat.lt_of_lt_of_le hm c.len
  obtain ⟨s, d, h1, h2⟩ := C24_partition_canonical wf.heap c.wf.heap hm hm' g hf hf'
  obtain ⟨d1, e1⟩ := getModuleDef_exists wf.heap hm hf
  obtain ⟨s1, f1⟩ := getState_exists wf.heap hm hf
  obtain ⟨d2, e2⟩ := getModuleDef_exists c.wf.heap hm' hf'
  obtain ⟨s2, f2⟩ := getState_exists c.wf.heap hm' hf'
  simp only [partitionModule, e1, f1, e2, f2, Except.ok.injEq, Prod.mk.injEq, List.cons.injEq, and_true] at h1 h2
  rw [f1, f2, e1, e2, h1.1, h1.2, h2.1, h2.2]
  exact ⟨g, rfl, rfl⟩

/-! ### Example -/

/-- A Module with a list of one layer. -/
def exListed : World Nat :=
  ⟨[⟨exCls (py! "Net"), [(py! "layers", .val (.data cTuple 70))], 1, false, ⟨0, 0⟩⟩,
    ⟨exCls (py! "Layer"), [(py! "w", .val (exParam 1))], 2, false, ⟨0, 0⟩⟩], 2, 0, []⟩

/-- The object 70 is the list. -/
def exHeld : Nat → List Loc := fun a => if a = 70 then [1] else []

theorem exListed_wf : WFWorld exListed := by
  refine ⟨wfHeap_of_forall (by decide) ?_, ?_⟩
  · intro o ho
    simp only [exListed, List.mem_cons, List.not_mem_nil, or_false] at ho
    rcases ho with rfl | rfl <;> refine ⟨by decide, ?_⟩ <;> intro na hna <;> simp only [List.mem_cons, List.not_mem_nil, or_false] at hna
    · subst hna
      refine ⟨by unfold NoSlash; decide, by decide, ?_, ?_⟩ <;> intros <;> rename_i h <;> cases h
    · subst hna
      refine ⟨by unfold NoSlash; decide, by decide, ?_, ?_⟩ <;> intros <;> rename_i h <;> cases h
      all_goals exact exParam_wf _
  · rintro (_ | _ | l) o ho
    · cases ho; decide
    · cases ho; decide
    · cases ho

/-- **C124, the clone of a Module with a list of layers has the same layers**: the parameter of the layer is not in the State, and assigning it changes the
layer of the original and of the clone. This is why C12 speaks of Modules reached through attributes. -/
theorem C124_not_independent : ∃ (w1 w2 : World Nat) (c : Loc), cloneModule 3 0 exListed = (w1, .ok c) ∧ getState 3 exListed.heap 0 = some ⟨[]⟩ ∧
    Contained exHeld w1.heap 0 1 ∧ Contained exHeld w1.heap c 1 ∧ setAttr w1 1 (py! "w") (.val (.data cArray 9)) = .ok w2 ∧
    Contained exHeld w2.heap 0 1 ∧ Contained exHeld w2.heap c 1 ∧ w2.heap[1]? ≠ w1.heap[1]? := by
  have hc : ∀ (h : Heap Nat) (m : Loc), access h (.ref m) [py! "layers"] = some (.val (.data cTuple 70)) → Contained exHeld h m 1 :=
    fun h m e => ⟨_, _, 70, e, .data, by decide⟩
  exact ⟨_, _, _, rfl, by decide, hc _ _ (by decide), hc _ _ (by decide), rfl, hc _ _ (by decide), hc _ _ (by decide), by decide⟩

/-- The hypotheses of `C124_calls_miss` and `C124_changes_unseen` are met. -/
example : WFWorld exListed ∧ Contained exHeld exListed.heap 0 1 ∧ ¬ Reaches exListed.heap 0 1 ∧ Apart exListed [1] [0] := by
  have stay : ∀ {a b : Loc}, Reaches exListed.heap a b → b = a := by
    rintro a b ⟨p, hw⟩
    cases hw with
    | here _ => rfl
    | step hn _ =>
      exfalso
      have hlt := attrAt_some_lt hn
      match a, hlt with
      | 0, _ =>
        simp only [attrAt, exListed, List.getElem?_cons_zero, dget] at hn
        split at hn <;> cases hn
      | 1, _ =>
        simp only [attrAt, exListed, List.getElem?_cons_succ, List.getElem?_cons_zero, dget] at hn
        split at hn <;> cases hn
  refine ⟨exListed_wf, ⟨[py! "layers"], .data cTuple 70, 70, by decide, .data, by decide⟩, fun h => ?_, ?_⟩
  · cases stay h
  · intro a ha b hb l h1 h2
    rw [List.mem_singleton.1 ha] at h1
    rw [List.mem_singleton.1 hb] at h2
    rw [stay h1] at h2
    cases stay h2

end Nnx
