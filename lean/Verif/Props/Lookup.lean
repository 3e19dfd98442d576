import Verif.Spec.Lookup
import Verif.Proofs.ModelDict
import Verif.Props.ModuleGraph
import Verif.Props.Helpers
/-
C134: which names attributes of Modules may have.
-/
namespace Nnx
variable {α : Type}

theorem lookup_eq {N : ClassNames} {w : World α} {l : Loc} {o : ModObj α} (hl : w.heap[l]? = some o) (n : Str) :
    lookup N w l n = if n ∈ N.props o.cls then .ok (.property n) else if n = py! "_module__state" then .ok (.state o.uid) else
      match attrAt w.heap l n with
      | some a => .ok (.attr (seen a))
      | none => if n ∈ N.members o.cls then .ok (.member n) else .error .attributeError := by
  have hu : ∀ a : Attr α, a.unbox = seen a := by
    intro a
    cases a with
    | ref l => rfl
    | val v => cases v <;> rfl
  simp only [lookup, attrAt, hl]
  cases dget o.attrs n with
  | none => rfl
  | some a => simp only [hu]

variable [DecidableEq α]

/-- What an assignment makes of a Module. -/
theorem assign_object {w w' : World α} {l : Loc} {n : Str} {x : Attr α} (e : setAttr w l n x = .ok w') (k : Loc) {o : ModObj α} (hk : w.heap[k]? = some o) :
    ∃ o', w'.heap[k]? = some o' ∧ o'.cls = o.cls ∧ o'.uid = o.uid := by
  obtain ⟨o0, a, ho, _, _, _, rfl⟩ := setAttr_ok_iff.1 e
  simp only [World.setAttrs]
  by_cases h : k = l
  · subst h
    rw [ho] at hk
    cases hk
    exact ⟨_, List.getElem?_set_self (List.getElem?_eq_some_iff.1 ho).1, rfl, rfl⟩
  · exact ⟨o, by rw [List.getElem?_set_ne (Ne.symm h)]; exact hk, rfl, rfl⟩

/-- What an assignment stores is seen as what was assigned. -/
theorem stored_seen {w : World α} (wf : WFWorld w) {l : Loc} {n : Str} {x a : Attr α} (hx : GoodAttr x) (e : storedAttr (attrAt w.heap l n) x = .ok a) :
    seen a = assigned x := by
  cases x with
  | ref b => rw [storedAttr_ref e]; rfl
  | val v =>
    have hv : WFVal v := hx
    by_cases hc : Compatible (attrAt w.heap l n) v
    · rw [storedAttr_ok (wfOld wf l n) hv hc] at e
      cases e
      have : ∀ v : PyVal α, seen (.val v) = .val v.valueOf := by
        intro v; cases v <;> rfl
      rw [this, assigned]
      congr 1
      unfold newValue
      split
      · rfl
      · rfl
    · rw [storedAttr_error (wfOld wf l n) hv hc] at e
      cases e

/-- **C134, what holds.** After `m.n = x`, `m.n` is `x`, or the content of the container `x`, if `n` is not the name of a property of the class. -/
theorem C134_read_partial (N : ClassNames) {w w' : World α} (wf : WFWorld w) {l : Loc} {o : ModObj α} (hl : w.heap[l]? = some o) {n : Str} {x : Attr α}
    (hx : GoodAttr x) (hn : n ∉ N.props o.cls) (e : setAttr w l n x = .ok w') : lookup N w' l n = .ok (.attr (assigned x)) := by
  obtain ⟨o', hl', hc, _⟩ := assign_object e l hl
  obtain ⟨o0, a, ho, _, hne, ha, rfl⟩ := setAttr_ok_iff.1 e
  rw [lookup_eq hl', hc, if_neg hn, if_neg hne, attrAt_setAttrs ho, if_pos ⟨rfl, rfl⟩]
  simp only [stored_seen wf hx ha]

/-- **C134, other names.** An assignment changes no other name of the Module, and no name of another Module: attributes, properties and methods are found as before. -/
theorem C134_frame (N : ClassNames) {w w' : World α} {l k : Loc} {n n' : Str} {x : Attr α} (hk : k < w.heap.length) (e : setAttr w l n x = .ok w')
    (hne : k ≠ l ∨ n' ≠ n) : lookup N w' k n' = lookup N w k n' := by
  have hk := List.getElem?_eq_getElem hk
  obtain ⟨o', hk', hc, hu⟩ := assign_object e k hk
  obtain ⟨o0, a, ho, _, _, _, rfl⟩ := setAttr_ok_iff.1 e
  have hat : attrAt (w.setAttrs l o0 (dset o0.attrs n a)).heap k n' = attrAt w.heap k n' := by
    rw [attrAt_setAttrs ho, if_neg]
    rintro ⟨rfl, rfl⟩
    rcases hne with h | h <;> exact h rfl
  rw [lookup_eq hk', lookup_eq hk, hc, hu, hat]

/-- **C134 is false of the code for names of properties**, such as `init`, `is_initializing` and `apply`: the assignment returns and the value is part of the state,
but reading the attribute still gives the property. -/
theorem C134_property_hides {N : ClassNames} (hN : ModuleNames N) {w : World α} (wf : WFWorld w) {l : Loc} {o : ModObj α} (hl : w.heap[l]? = some o) {n : Str}
    (hn : n = py! "init" ∨ n = py! "is_initializing" ∨ n = py! "apply") (hnew : ¬ Owns w l n) {v : PyVal α} (hv : WFVal v) (hnode : v.isNode = true)
    (ht : w.traceValid o.trace = true) {fuel : Nat} (hf : w.heap.length < fuel) :
    ∃ w' s, setAttr w l n (.val v) = .ok w' ∧ lookup N w l n = .ok (.property n) ∧ lookup N w' l n = .ok (.property n) ∧
      getState fuel w'.heap l = some s ∧ s.get n = some v := by
  have hp : n ∈ N.props o.cls := by
    have := hN.props o.cls
    rcases hn with rfl | rfl | rfl
    · exact this.1
    · exact this.2.1
    · exact this.2.2
  have hg : GoodName n := by
    rcases hn with rfl | rfl | rfl <;> exact ⟨by unfold NoSlash; decide, by decide⟩
  have hat : attrAt w.heap l n = none := by
    cases h : attrAt w.heap l n with
    | none => rfl
    | some a => exact absurd ⟨a, h⟩ hnew
  have hst : storedAttr (attrAt w.heap l n) (.val v) = .ok (.val v) := by
    rw [hat]; exact storedAttr_new (a := .val v) hv
  have he : setAttr w l n (.val v) = .ok (w.setAttrs l o (dset o.attrs n (.val v))) :=
    setAttr_ok_iff.2 ⟨o, _, hl, ht, by rcases hn with rfl | rfl | rfl <;> decide, hst, rfl⟩
  have hcf := confined_setAttr_val wf (A := fun _ => True) (fun _ _ _ _ _ => trivial) trivial hg hv he
  obtain ⟨o', hl', hc, _⟩ := assign_object he l hl
  have hlt' : l < (w.setAttrs l o (dset o.attrs n (.val v))).heap.length := (List.getElem?_eq_some_iff.1 hl').1
  obtain ⟨s, hs⟩ := getState_exists hcf.1.wf.heap hlt' (by rw [hcf.2]; exact hf)
  refine ⟨_, s, he, ?_, ?_, hs, ?_⟩
  · rw [lookup_eq hl, if_pos hp]
  · rw [lookup_eq hl', hc, if_pos hp]
  · rw [root_listed hcf.1.wf hlt' hs hg.1, attrAt_setAttrs hl, if_pos ⟨rfl, rfl⟩, nodeAt, if_pos hnode]

omit [DecidableEq α] in
/-- **C134, methods.** A method of Module can be called exactly as long as the Module has no attribute of that name. -/
theorem C134_method {N : ClassNames} (hN : ModuleNames N) (callable : Attr α → Bool) {w : World α} {l : Loc} (hl : l < w.heap.length) {n : Str}
    (hn : n ∈ [py! "clone", py! "partition", py! "get_state", py! "get_module_def", py! "filter", py! "pop_state", py! "update_state",
      py! "mutable_state_dict", py! "sow", py! "for_each"]) : findMethod N callable w l n = .ok () ↔ ¬ Owns w l n := by
  have hl := List.getElem?_eq_getElem hl
  obtain ⟨hm, hp⟩ := hN.methods (w.heap[l]).cls n hn
  have hs : n ≠ py! "_module__state" := by
    rintro rfl; revert hn; decide
  unfold findMethod
  rw [lookup_eq hl, if_neg hp, if_neg hs]
  cases h : attrAt w.heap l n with
  | none => simp [hm, Owns, h]
  | some a =>
    have : Owns w l n := ⟨a, h⟩
    simp only [this, not_true_eq_false, iff_false]
    split <;> simp

/-- **C134, clone, what holds.** If the Module has no attributes `clone` and `partition`, then `clone()` is the copy of C12, whatever other names it uses. -/
theorem C134_clone_partial {N : ClassNames} (hN : ModuleNames N) (callable : Attr α → Bool) {w : World α} {l : Loc} (hl : l < w.heap.length)
    (hc : ¬ Owns w l (py! "clone")) (hp : ¬ Owns w l (py! "partition")) (fuel : Nat) : cloneByName N callable fuel l w = cloneModule fuel l w := by
  simp only [cloneByName, (C134_method hN callable hl (n := py! "clone") (by decide)).2 hc, (C134_method hN callable hl (n := py! "partition") (by decide)).2 hp]

/-- **C134, apply, what holds.** Under the same condition `apply` calls the method on the copy of C12. -/
theorem C134_apply_partial {β : Type} {N : ClassNames} (hN : ModuleNames N) (callable : Attr α → Bool) {w : World α} (wf : WFWorld w) {l : Loc}
    (hl : l < w.heap.length) (hc : ¬ Owns w l (py! "clone")) (hp : ¬ Owns w l (py! "partition")) {fuel : Nat} (hf : w.heap.length < fuel)
    (body : Loc → World α → World α × Except Err β) :
    ∃ w1 c, cloneModule fuel l w = (w1, .ok c) ∧ SameGraph w.heap l w1.heap c ∧ (applyByName N callable fuel l body w).1 = (body c w1).1 ∧
      (applyByName N callable fuel l body w).2 = (body c w1).2.map (fun out => (out, c)) := by
  obtain ⟨w1, c, h1, _, h2, _⟩ := C12_clone_fresh wf hl hf
  refine ⟨w1, c, h1, h2, ?_⟩
  have ha : lookup N w l (py! "apply") = .ok (.property (py! "apply")) := by
    rw [lookup_eq (List.getElem?_eq_getElem hl), if_pos (hN.props _).2.2]
  simp only [applyByName, ha, C134_clone_partial hN callable hl hc hp, h1]
  rcases body c w1 with ⟨w2, r | out⟩
  · exact ⟨rfl, rfl⟩
  · exact ⟨rfl, rfl⟩

/-- **C134 is false of the code for names of methods.** After `m.partition = x`, for any `x` that cannot be called, `m.clone()` and `m.apply` raise TypeError. -/
theorem C134_method_lost {β : Type} {N : ClassNames} (hN : ModuleNames N) (callable : Attr α → Bool) {w w' : World α} (wf : WFWorld w) {l : Loc}
    (hl : l < w.heap.length) {x : Attr α} (hx : GoodAttr x) (hno : callable (assigned x) = false) (hc : ¬ Owns w l (py! "clone"))
    (e : setAttr w l (py! "partition") x = .ok w') (fuel : Nat) (body : Loc → World α → World α × Except Err β) :
    cloneByName N callable fuel l w' = (w', .error .typeError) ∧ applyByName N callable fuel l body w' = (w', .error .typeError) := by
  have ho := List.getElem?_eq_getElem hl
  have hp := C134_read_partial N wf ho hx (hN.methods _ (py! "partition") (by decide)).2 e
  have hcl : findMethod N callable w' l (py! "clone") = .ok () := by
    have := (C134_method hN callable hl (n := py! "clone") (by decide)).2 hc
    rw [findMethod, C134_frame N hl e (.inr (by decide))]
    exact this
  have h1 : cloneByName N callable fuel l w' = (w', .error .typeError) := by
    have hq : findMethod N callable w' l (py! "partition") = .error .typeError := by
      simp only [findMethod, hp, hno]
      rfl
    simp only [cloneByName, hcl, hq]
  have ha : lookup N w' l (py! "apply") = .ok (.property (py! "apply")) := by
    obtain ⟨o', hl', _⟩ := assign_object e l ho
    rw [lookup_eq hl', if_pos (hN.props _).2.2]
  exact ⟨h1, by simp only [applyByName, ha, h1]⟩

/-- C67 (Dict): a `Dict` claims to have a key for each method and each property of Module, and never says that a key is missing: `key in d` is True for the keys it
was given, the methods and the properties, and an AttributeError otherwise. -/
theorem C67_dict_contains (N : ClassNames) {items : Dict Str (Attr α)} (hn : DNodup items) (hx : ∀ s ∈ items, s.1 ≠ py! "_module__state" ∧ GoodAttr s.2)
    (w : World α) : ∃ w' l, dictNew items w = (w', .ok l) ∧ ∀ key, containsByName N w' l key =
      if key ∈ items.map (·.1) ∨ key ∈ N.props cDictModule ∨ key ∈ N.members cDictModule ∨ key = py! "_module__state" then .ok true
      else .error .attributeError := by
  refine ⟨_, _, dictNew_eq hn hx w, fun key => ?_⟩
  have hl : ({ (newModule cDictModule w).1 with heap := w.heap ++ [⟨cDictModule, items, w.nextId + 1, false, w.curTrace⟩] } : World α).heap[w.heap.length]? =
      some ⟨cDictModule, items, w.nextId + 1, false, w.curTrace⟩ := by simp
  have hat : attrAt ({ (newModule cDictModule w).1 with heap := w.heap ++ [⟨cDictModule, items, w.nextId + 1, false, w.curTrace⟩] } : World α).heap
      w.heap.length key = dget items key := by rw [attrAt, hl]
  rw [containsByName, lookup_eq hl, hat]
  by_cases h1 : key ∈ N.props cDictModule
  · simp [h1]
  by_cases h2 : key = py! "_module__state"
  · rw [if_neg h1, if_pos h2, if_pos (.inr (.inr (.inr h2)))]
  rw [if_neg h1, if_neg h2]
  cases hd : dget items key with
  | some a =>
    have : key ∈ items.map (·.1) := List.mem_map.2 ⟨_, dget_mem hd, rfl⟩
    simp only [this, true_or, if_true]
  | none =>
    have : key ∉ items.map (·.1) := dget_eq_none.1 hd
    by_cases h3 : key ∈ N.members cDictModule
    · simp only [h3, if_true, true_or, or_true]
    · simp only [h3, this, h1, h2, if_false, or_self]

/-! ### Examples -/

def exNames : ClassNames where
  props _ := [py! "init", py! "is_initializing", py! "apply"]
  members _ := [py! "clone", py! "partition", py! "get_state", py! "get_module_def", py! "filter", py! "pop_state", py! "update_state",
    py! "mutable_state_dict", py! "sow", py! "for_each", py! "__call__"]

theorem exNames_module : ModuleNames exNames := by
  refine ⟨fun c => ?_, fun c => ?_⟩
  · simp only [exNames]; decide
  · simp only [exNames]; decide

/-- `net.init = nnx.Param(4)` returns, the parameter is in the state, and `net.init` is still the property. -/
example : ∃ w' s, setAttr exWorld 0 (py! "init") (.val (exParam 4)) = .ok w' ∧ lookup exNames exWorld 0 (py! "init") = .ok (.property (py! "init")) ∧
    lookup exNames w' 0 (py! "init") = .ok (.property (py! "init")) ∧ getState 3 w'.heap 0 = some s ∧ s.get (py! "init") = some (exParam 4) :=
  C134_property_hides (o := exHeap[0]) exNames_module exWorld_wf rfl (.inl rfl) (by rintro ⟨a, h⟩; cases h) (.inr (exParam_wf 4)) (by decide) (by decide)
    (by decide)

/-- `net.filter = nnx.Param(4)` is read back; `net.filter` is no longer the method. -/
example : ∃ w', setAttr exWorld 0 (py! "filter") (.val (exParam 4)) = .ok w' ∧ lookup exNames w' 0 (py! "filter") = .ok (.attr (.val (exParam 4).valueOf)) ∧
    findMethod exNames (fun _ => false) w' 0 (py! "filter") = .error .typeError ∧ lookup exNames w' 0 (py! "clone") = .ok (.member (py! "clone")) :=
  ⟨_, rfl, by decide, by decide, by decide⟩

example : ∃ w', setAttr exWorld 0 (py! "partition") (.val (exParam 4)) = .ok w' ∧ (cloneByName exNames (fun _ => false) 3 0 w').2 = .error .typeError :=
  ⟨_, rfl, by decide⟩

/-- `"clone" in Dict(a=...)` -/
example : ∃ w' l, dictNew [(py! "a", .ref 0)] exWorld = (w', .ok l) ∧ containsByName exNames w' l (py! "a") = .ok true ∧
    containsByName exNames w' l (py! "clone") = .ok true ∧ containsByName exNames w' l (py! "b") = .error .attributeError :=
  ⟨_, _, rfl, by decide, by decide, by decide⟩

example : ¬ Owns exWorld 0 (py! "clone") ∧ ¬ Owns exWorld 0 (py! "partition") :=
  ⟨(by rintro ⟨a, h⟩; cases h), (by rintro ⟨a, h⟩; cases h)⟩

end Nnx
