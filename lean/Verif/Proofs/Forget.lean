import Verif.Props.ModuleDef
/-
The ModuleDef of a module, and the paths of its state, do not depend on the values of its nodes.
-/
namespace Nnx
variable {α : Type}

/-- Forget the value of a node. -/
def forgetVal (v : PyVal α) : PyVal α := if v.isNode then .tree cPytree [] else v

def forgetAttr : Attr α → Attr α
  | .ref l => .ref l
  | .val v => .val (forgetVal v)

theorem forgetAttr_ref (l : Loc) : forgetAttr (.ref l : Attr α) = .ref l := rfl
theorem forgetAttr_val (v : PyVal α) : forgetAttr (.val v) = .val (forgetVal v) := rfl

def forgetObj (o : ModObj α) : ModObj α := { o with attrs := o.attrs.map fun kv => (kv.1, forgetAttr kv.2) }

/-- The heap with all node values forgotten. -/
def forget (h : Heap α) : Heap α := h.map forgetObj

theorem forgetVal_isNode (v : PyVal α) : (forgetVal v).isNode = v.isNode := by
  unfold forgetVal
  split
  · next h => rw [h]; rfl
  · rfl

theorem sortItems_map {V W : Type} (f : V → W) (l : List (Str × V)) :
    sortItems (l.map fun kv => (kv.1, f kv.2)) = (sortItems l).map fun kv => (kv.1, f kv.2) := by
  have ins : ∀ (x : Str × V) (l : List (Str × V)),
      insertItem (x.1, f x.2) (l.map fun kv => (kv.1, f kv.2)) = (insertItem x l).map fun kv => (kv.1, f kv.2) := by
    intro x l
    induction l with
    | nil => rfl
    | cons y l ih =>
      simp only [List.map_cons, insertItem]
      split
      · rfl
      · rw [List.map_cons, ih]
  induction l with
  | nil => rfl
  | cons x l ih => rw [List.map_cons, sortItems, ih, ins, sortItems]

theorem forget_getElem (h : Heap α) (l : Loc) : (forget h)[l]? = (h[l]?).map forgetObj := by
  simp [forget]

theorem forget_length (h : Heap α) : (forget h).length = h.length := by simp [forget]

theorem attrAt_forget (h : Heap α) (l : Loc) (n : Str) : attrAt (forget h) l n = (attrAt h l n).map forgetAttr := by
  simp only [attrAt, forget_getElem]
  cases h[l]? with
  | none => rfl
  | some o => exact dget_map_val (fun _ => forgetAttr) o.attrs n

theorem makeDefAttrs_forget {rec rec' : Loc → List Nat → Option ((Nat ⊕ ModuleDef α) × List Nat)}
    (hr : ∀ l idx, rec' l idx = rec l idx) (as : List (Str × Attr α)) : ∀ idx,
    makeDefAttrs rec' (as.map fun kv => (kv.1, forgetAttr kv.2)) idx = makeDefAttrs rec as idx := by
  induction as with
  | nil => intro idx; rfl
  | cons x as ih =>
    intro idx
    obtain ⟨n, a⟩ := x
    cases a with
    | ref l =>
      simp only [List.map_cons, forgetAttr_ref, makeDefAttrs, hr, ih]
    | val v =>
      simp only [List.map_cons, forgetAttr_val, makeDefAttrs, ih, forgetVal_isNode]
      cases hv : v.isNode with
      | true => simp
      | false =>
        have : forgetVal v = v := by simp [forgetVal, hv]
        simp only [this]

theorem makeDefRec_forget (h : Heap α) : ∀ (fuel : Nat) l idx,
    makeDefRec (forget h) fuel l idx = makeDefRec h fuel l idx := by
  intro fuel
  induction fuel with
  | zero => intro l idx; rfl
  | succ fuel ih =>
    intro l idx
    simp only [makeDefRec, forget_getElem]
    cases h[l]? with
    | none => rfl
    | some o =>
      simp only [Option.map_some, forgetObj, sortItems_map, makeDefAttrs_forget ih]

theorem getModuleDef_forget (fuel : Nat) (h : Heap α) (l : Loc) :
    getModuleDef fuel (forget h) l = getModuleDef fuel h l := by
  rw [getModuleDef, makeDefRec_forget, getModuleDef]

/-- Entries with the values forgotten. -/
def forgetItems (items : List (Str × PyVal α)) : List (Str × PyVal α) := items.map fun kv => (kv.1, forgetVal kv.2)

theorem iterStateAttrs_forget {rec rec' : Loc → List Nat → List Str → Option (List (Str × PyVal α) × List Nat)}
    (hr : ∀ l idx p, rec' l idx p = (rec l idx p).map fun r => (forgetItems r.1, r.2)) (as : List (Str × Attr α)) :
    ∀ idx p, iterStateAttrs rec' (as.map fun kv => (kv.1, forgetAttr kv.2)) idx p =
      (iterStateAttrs rec as idx p).map fun r => (forgetItems r.1, r.2) := by
  induction as with
  | nil => intro idx p; rfl
  | cons x as ih =>
    intro idx p
    obtain ⟨n, a⟩ := x
    cases a with
    | ref l =>
      simp only [List.map_cons, forgetAttr_ref, iterStateAttrs, hr]
      cases rec l idx (p ++ [n]) with
      | none => rfl
      | some r =>
        simp only [Option.map_some, ih]
        cases iterStateAttrs rec as r.2 p with
        | none => rfl
        | some r' => simp [forgetItems]
    | val v =>
      simp only [List.map_cons, forgetAttr_val, iterStateAttrs, ih, forgetVal_isNode]
      cases iterStateAttrs rec as idx p with
      | none => rfl
      | some r =>
        simp only [Option.map_some]
        split <;> rfl

theorem iterStateRec_forget (h : Heap α) : ∀ (fuel : Nat) l idx p,
    iterStateRec (forget h) fuel l idx p = (iterStateRec h fuel l idx p).map fun r => (forgetItems r.1, r.2) := by
  intro fuel
  induction fuel with
  | zero => intro l idx p; rfl
  | succ fuel ih =>
    intro l idx p
    simp only [iterStateRec, forget_getElem]
    cases h[l]? with
    | none => rfl
    | some o =>
      simp only [Option.map_some, forgetObj, sortItems_map, iterStateAttrs_forget ih]
      split <;> rfl

theorem lastOf_map {V W : Type} (f : V → W) (l : List (Str × V)) (k : Str) :
    lastOf (l.map fun kv => (kv.1, f kv.2)) k = (lastOf l k).map f := by
  induction l with
  | nil => rfl
  | cons x l ih =>
    obtain ⟨k', v⟩ := x
    simp only [List.map_cons, lastOf, ih]
    cases lastOf l k with
    | some w => rfl
    | none => simp only [Option.map_none]; split <;> rfl

theorem getState_forget (fuel : Nat) (h : Heap α) (l : Loc) (k : Str) :
    ((getState fuel (forget h) l).map fun s => s.get k) = (getState fuel h l).map fun s => (s.get k).map forgetVal := by
  simp only [getState, iterStateRec_forget]
  cases iterStateRec h fuel l [] [] with
  | none => rfl
  | some r => simp only [Option.map_some, State.new_get, forgetItems, lastOf_map]

theorem forget_wf {h : Heap α} (wf : WFHeap h) : WFHeap (forget h) := by
  refine ⟨?_, ?_, ?_, ?_, ?_, ?_⟩
  · intro l o ho
    rw [forget_getElem] at ho
    cases e : h[l]? with
    | none => rw [e] at ho; cases ho
    | some o' =>
      rw [e] at ho; cases ho
      have := wf.nodup l o' e
      simpa [forgetObj, DNodup, dkeys, List.map_map, Function.comp_def] using this
  · intro l n l' e
    rw [attrAt_forget] at e
    rw [forget_length]
    cases ha : attrAt h l n with
    | none => rw [ha] at e; cases e
    | some a =>
      rw [ha] at e
      cases a with
      | ref b => cases e; exact wf.refs _ _ _ ha
      | val v => cases e
  · intro l l' o o' ho ho' e
    rw [forget_getElem] at ho ho'
    cases e1 : h[l]? with
    | none => rw [e1] at ho; cases ho
    | some o1 =>
      cases e2 : h[l']? with
      | none => rw [e2] at ho'; cases ho'
      | some o2 =>
        rw [e1] at ho; rw [e2] at ho'; cases ho; cases ho'
        exact wf.uids _ _ _ _ e1 e2 e
  · intro l n c v m e
    rw [attrAt_forget] at e
    cases ha : attrAt h l n with
    | none => rw [ha] at e; cases e
    | some a =>
      rw [ha] at e
      cases a with
      | ref b => cases e
      | val u =>
        simp only [Option.map_some, forgetAttr, forgetVal, Option.some.injEq, Attr.val.injEq] at e
        split at e
        · cases e
        · subst e; exact wf.conts _ _ _ _ _ ha
  · intro l n a e
    rw [attrAt_forget] at e
    cases ha : attrAt h l n with
    | none => rw [ha] at e; cases e
    | some a => exact wf.slash _ _ _ ha
  · intro l n a e
    rw [attrAt_forget] at e
    cases ha : attrAt h l n with
    | none => rw [ha] at e; cases e
    | some a => exact wf.reserved _ _ _ ha

/-- Two heaps that differ in the values of nodes only: a module has the same ModuleDef in both, and its states have the
same paths. -/
theorem forget_same {w w' : World α} (wf : WFWorld w) (wf' : WFWorld w') (so : SameObjects w w')
    (hat : ∀ a n, (attrAt w'.heap a n).map forgetAttr = (attrAt w.heap a n).map forgetAttr) {l : Loc} (hl : l < w.heap.length)
    {f f' : Nat} (hf : w.heap.length < f) (hf' : w.heap.length < f') :
    ∃ d s s', getModuleDef f w.heap l = some d ∧ getModuleDef f' w'.heap l = some d ∧
      getState f w.heap l = some s ∧ getState f' w'.heap l = some s' ∧ ∀ k, (s'.get k).isSome = (s.get k).isSome := by
  have hl' : l < w'.heap.length := by rw [so.len]; exact hl
  have iso : GraphIso (forget w.heap) l (forget w'.heap) l id := by
    refine ⟨rfl, fun _ _ _ _ h => h, ?_, ?_⟩
    · intro a o hr ho
      rw [forget_getElem] at ho
      cases e1 : w.heap[a]? with
      | none => rw [e1] at ho; cases ho
      | some o1 =>
        rw [e1] at ho; cases ho
        have ha : a < w'.heap.length := by rw [so.len]; exact (List.getElem?_eq_some_iff.1 e1).1
        have e2 : w'.heap[a]? = some w'.heap[a] := List.getElem?_eq_getElem ha
        obtain ⟨h1, h2, h3, h4⟩ := so.obj a _ _ e1 e2
        exact ⟨forgetObj w'.heap[a], by rw [id, forget_getElem, e2]; rfl, h1, h3⟩
    · intro a hr n
      rw [attrAt_forget, attrAt_forget, id, hat]
      cases attrAt w.heap a n with
      | none => rfl
      | some x => cases x <;> rfl
  have sg := iso.sameGraph (forget_wf wf.heap) (by rw [forget_length]; exact hl)
  obtain ⟨s0, d0, h1, h2⟩ := C24_partition_canonical (forget_wf wf.heap) (forget_wf wf'.heap)
    (by rw [forget_length]; exact hl) (by rw [forget_length]; exact hl') sg (by rw [forget_length]; exact hf)
    (by rw [forget_length, so.len]; exact hf')
  obtain ⟨s, hs⟩ := getState_exists wf.heap hl hf
  obtain ⟨s', hs'⟩ := getState_exists wf'.heap hl' (by rw [so.len]; exact hf')
  simp only [partitionModule] at h1 h2
  split at h1
  swap
  · cases h1
  next d1 s1 hd1 hs1 =>
  split at h2
  swap
  · cases h2
  next d2 s2 hd2 hs2 =>
  simp only [Except.ok.injEq, Prod.mk.injEq, List.cons.injEq, and_true] at h1 h2
  obtain ⟨rfl, rfl⟩ := h1
  obtain ⟨rfl, rfl⟩ := h2
  rw [getModuleDef_forget] at hd1 hd2
  refine ⟨_, s, s', hd1, hd2, hs, hs', ?_⟩
  intro k
  have g1 := getState_forget f w.heap l k
  have g2 := getState_forget f' w'.heap l k
  rw [hs1, hs] at g1
  rw [hs2, hs'] at g2
  simp only [Option.map_some, Option.some.injEq] at g1 g2
  rw [g1] at g2
  have := congrArg Option.isSome g2
  simp only [Option.isSome_map] at this
  exact this.symm

end Nnx
