import Verif.Proofs.Pytree
/-
C40: Pytree objects are lossless JAX pytrees with order-independent structure.
-/
namespace Nnx
variable {α : Type}

theorem sortedFields_wf {vars : Md α} (h : WFPytree vars) : sortedFields vars = some ((sortItems vars).map (·.1)) := by
  rw [sortedFields, h.sorted]
  simp only
  generalize sortItems vars = l
  induction l with
  | nil => rfl
  | cons kv l ih => simp only [List.map_cons, List.mapM_cons, ih]; rfl

theorem flattenFields_of_items {vars : Md α} {items : List (Str × PyVal α)}
    (h : ∀ kv ∈ items, dget vars kv.1 = some kv.2) :
    flattenFields vars (items.map (·.1)) =
      .ok (items.filter (fun kv => kv.2.isNode), items.filter (fun kv => !kv.2.isNode)) := by
  induction items with
  | nil => rfl
  | cons kv items ih =>
    have h1 := h kv (by simp)
    have h2 := ih (fun x hx => h x (by simp [hx]))
    simp only [List.map_cons, flattenFields, h1, h2]
    cases hn : kv.2.isNode <;> simp [hn]

theorem sortItems_dget {vars : Md α} (hn : DNodup vars) : ∀ kv ∈ sortItems vars, dget vars kv.1 = some kv.2 :=
  fun _ hkv => mem_dget hn ((sortItems_perm vars).mem_iff.1 hkv)

theorem pytreeFlattenKeys_wf {c : Cls} {vars : Md α} (h : WFPytree vars) :
    pytreeFlattenKeys (.tree c vars) = .ok ((sortItems vars).filter (fun kv => kv.2.isNode),
      (((sortItems vars).filter (fun kv => kv.2.isNode)).map (·.1), (sortItems vars).filter (fun kv => !kv.2.isNode))) := by
  simp only [pytreeFlattenKeys, sortedFields_wf h, flattenFields_of_items (sortItems_dget h.nodup)]

theorem pytreeFlatten_wf {c : Cls} {vars : Md α} (h : WFPytree vars) :
    pytreeFlatten (.tree c vars) = .ok (((sortItems vars).filter (fun kv => kv.2.isNode)).map (·.2),
      (((sortItems vars).filter (fun kv => kv.2.isNode)).map (·.1), (sortItems vars).filter (fun kv => !kv.2.isNode))) := by
  rw [pytreeFlatten, pytreeFlattenKeys_wf h]

theorem pytreeFlatten_keys {c : Cls} {vars : Md α} {vals : List (PyVal α)} {aux : List Str × Md α} (h : WFPytree vars)
    (hf : pytreeFlatten (.tree c vars) = .ok (vals, aux)) :
    vals = ((sortItems vars).filter (fun kv => kv.2.isNode)).map (·.2) ∧
    aux.1 = ((sortItems vars).filter (fun kv => kv.2.isNode)).map (·.1) ∧
    aux.2 = (sortItems vars).filter (fun kv => !kv.2.isNode) := by
  rw [pytreeFlatten_wf h] at hf
  cases hf
  exact ⟨rfl, rfl, rfl⟩

theorem dget_zip {ks : List Str} (hn : ks.Nodup) {vs : List (PyVal α)} {i : Nat} {k : Str} {v : PyVal α}
    (hk : ks[i]? = some k) (hv : vs[i]? = some v) : dget (ks.zip vs) k = some v := by
  have hnd : DNodup (ks.zip vs) := by
    unfold DNodup dkeys
    exact List.Nodup.sublist (by
      clear hk hv hn
      induction ks generalizing vs with
      | nil => simp
      | cons a ks ih => cases vs with
        | nil => simp
        | cons b vs => simpa using ih) hn
  apply mem_dget hnd
  have : (ks.zip vs)[i]? = some (k, v) := by rw [List.getElem?_zip_eq_some]; exact ⟨hk, hv⟩
  exact List.mem_of_getElem? this

theorem dnodup_zip {ks : List Str} (hn : ks.Nodup) (vs : List (PyVal α)) : DNodup (ks.zip vs) := by
  unfold DNodup dkeys
  refine List.Nodup.sublist ?_ hn
  clear hn
  induction ks generalizing vs with
  | nil => simp
  | cons a ks ih => cases vs with
    | nil => simp
    | cons b vs => simpa using ih vs

theorem mem_dkeys_zip {ks : List Str} {vs : List (PyVal α)} (hl : vs.length = ks.length) (k : Str) :
    k ∈ dkeys (ks.zip vs) ↔ k ∈ ks := by
  have : dkeys (ks.zip vs) = ks := by
    unfold dkeys
    exact List.map_fst_zip (by omega)
  rw [this]

/-- The fields of an unflattened object. -/
theorem dget_unflatten {ks : List Str} {static : Md α} {vs : List (PyVal α)} (hk : ks.Nodup) (hs : DNodup static)
    (k : Str) : dget (dupdate (dupdate [] (ks.zip vs)) static) k =
      (dget static k).orElse (fun _ => dget (ks.zip vs) k) := by
  rw [dget_dupdate, lastOf_eq_dget hs, dget_dupdate, lastOf_eq_dget (dnodup_zip hk vs)]
  cases dget static k <;> cases dget (ks.zip vs) k <;> rfl

variable [DecidableEq α]

/-- **C40**, constructed objects: whatever `__init__` assigns (no bare `ContainerMetadata`), a successful constructor
leaves an object that the theorems below speak about: its fields are the assigned names. -/
theorem C40_constructed {i : PInfo α} {steps : List (Str × PyVal α)} {vars : Md α}
    (hs : ∀ s ∈ steps, GoodField s.2) (h : callVars i steps = .ok vars) :
    WFPytree vars ∧
    ∀ k, k ∈ dkeys vars ↔ k = kSorted ∨ (k ∈ steps.map (·.1) ∧ k ≠ kInit ∧ k ≠ kMutable) :=
  ⟨callVars_wf hs h, (callVars_keys h).2.1⟩

/-- Values that are not containers can be assigned in any `__init__`. -/
theorem runInit_plain {i : PInfo α} : ∀ (steps : List (Str × PyVal α)) (vars : Md α), kInit ∈ dkeys vars →
    (∀ s ∈ steps, ∀ c v m, s.2 ≠ .cont c v m) → (∀ k c v m, dget vars k ≠ some (.cont c v m)) →
    ∃ vars', runInit i steps vars = .ok vars'
  | [], vars, _, _, _ => ⟨vars, rfl⟩
  | (n, x) :: steps, vars, hi, hs, hv => by
    have hx := hs (n, x) List.mem_cons_self
    have e : i.initSetattr vars n x = .ok (dset vars n x) := by
      unfold PInfo.initSetattr
      split
      · rfl
      · unfold setattrVars
        simp only [dhas_iff.2 hi, Bool.not_true, Bool.false_and, Bool.false_eq_true, if_false]
        split
        · next c v m _ h => exact absurd h (hv _ _ _ _)
        · next c v m _ => exact absurd rfl (hx c v m)
        · rfl
    simp only [runInit, e]
    refine runInit_plain steps _ ?_ (fun s h => hs s (List.mem_cons_of_mem _ h)) ?_
    · rw [mem_dkeys_dset]
      exact .inr hi
    · intro k c v m
      rw [dget_dset]
      split
      · intro h; exact hx c v m (Option.some.inj h)
      · exact hv k c v m

/-- **C40**, unset fields: if `__init__` leaves out a field that was declared with `node_field`, `static_field`, `var_field` or
`param_field`, the constructor does not return an object; it raises KeyError (when the assignments and the fields before it
give no reason to fail). -/
theorem C40_unset_field {i : PInfo α} {steps : List (Str × PyVal α)} {pre post : List (PField α)} {f : PField α} {fr : Bool}
    (hi : i.dataclass = some (pre ++ f :: post, fr)) (hk : f.kind ≠ .plain) (hset : f.name ∉ steps.map (·.1)) (hn : f.name ≠ kSorted) :
    (∀ vars, callVars i steps ≠ .ok vars) ∧
    ((∀ s ∈ steps, ∀ c v m, s.2 ≠ .cont c v m) → (∀ g ∈ pre, g.kind = .plain) → callVars i steps = .error .keyError) := by
  have key : ∀ (pre : List (PField α)) (vars : Md α), dget vars f.name = none →
      (∀ vars', wrapFields (pre ++ f :: post) vars ≠ .ok vars') ∧
      ((∀ g ∈ pre, g.kind = .plain) → wrapFields (pre ++ f :: post) vars = .error .keyError) := by
    intro pre
    induction pre with
    | nil =>
      intro vars hv
      have : wrapFields (f :: post) vars = .error .keyError := by
        rw [wrapFields]
        cases hf : f.kind with
        | plain => exact absurd hf hk
        | _ => simp only [FieldKind.containerFn, hv]
      exact ⟨fun v h => (by rw [List.nil_append, this] at h; cases h), fun _ => this⟩
    | cons g pre ih =>
      intro vars hv
      rw [List.cons_append, wrapFields]
      constructor
      · intro v h
        split at h
        · exact (ih _ hv).1 _ h
        · next fn _ =>
          split at h
          · cases h
          · next value hg =>
            split at h
            · cases h
            · refine (ih _ ?_).1 _ h
              rw [dget_dset]
              split
              · next e => rw [e] at hg; rw [hg] at hv; cases hv
              · exact hv
      · intro hp
        rw [hp g List.mem_cons_self]
        exact (ih _ hv).2 fun g' hg' => hp g' (List.mem_cons_of_mem _ hg')
  have hmiss : ∀ v1, runInit i steps (dset (dset [(kSorted, .tup [.str kSorted])] kMutable .none) kInit .none) = .ok v1 →
      dget (ddel (ddel v1 kInit) kMutable) f.name = none := by
    intro v1 h1
    obtain ⟨h0n, h0k, _⟩ := init0_facts (α := α)
    obtain ⟨hn1, hk1⟩ := runInit_keys h0n h1
    rw [dget_eq_none, mem_dkeys_ddel (dnodup_ddel hn1 kInit), mem_dkeys_ddel hn1, hk1, h0k, ReservedPy]
    rintro ⟨a, b, (c | c | c) | c⟩
    · exact hn c
    · exact a c
    · exact b c
    · exact hset c
  constructor
  · intro vars h
    unfold callVars at h
    split at h
    · cases h
    · next v1 h1 =>
      rw [hi] at h
      split at h
      · cases h
      · next h2 => exact (key pre _ (hmiss _ h1)).1 _ h2
  · intro hs hp
    obtain ⟨v1, h1⟩ := runInit_plain (i := i) steps (dset (dset [(kSorted, .tup [.str kSorted])] kMutable .none) kInit .none)
      (((init0_facts (α := α)).2.1 _).2 (by simp [ReservedPy])) hs (by
        intro k c v m
        rw [dget_dset, dget_dset]
        split
        · simp
        · split
          · simp
          · simp only [dget]; split <;> simp)
    unfold callVars
    rw [h1]
    simp only [hi, Option.elim_some, (key pre _ (hmiss _ h1)).2 hp]

example : callVars (α := Nat) ⟨false, some ([⟨py! "a", .plain, none⟩, ⟨py! "b", .static, none⟩], false)⟩ [(py! "a", .data cArray 1)] =
    .error .keyError :=
  (C40_unset_field (pre := [⟨py! "a", .plain, none⟩]) (post := []) rfl (by simp) (by decide) (by decide)).2
    (by simp) (by simp)

omit [DecidableEq α] in
/-- **C40**, children: flattening succeeds; the children with their keys are exactly the node fields, in strictly increasing order
of field names; flattening without key paths gives the same children. -/
theorem C40_children {c : Cls} {vars : Md α} (h : WFPytree vars) :
    ∃ kids aux, pytreeFlattenKeys (.tree c vars) = .ok (kids, aux) ∧ StrictSorted kids ∧
      (∀ k v, (k, v) ∈ kids ↔ dget vars k = some v ∧ v.isNode = true) ∧
      pytreeFlatten (.tree c vars) = .ok (kids.map (·.2), aux) ∧ aux.1 = kids.map (·.1) := by
  refine ⟨_, _, pytreeFlattenKeys_wf h, (sortItems_strict h.nodup).filter _, fun k v => ?_, pytreeFlatten_wf h, rfl⟩
  rw [List.mem_filter, (sortItems_perm vars).mem_iff, ← dget_iff_mem h.nodup]

omit [DecidableEq α] in
/-- **C40**, `tree_map` and `tree_unflatten` with new children `vals'`: the new object is of the same class, has the same field names,
every field that is not a node is unchanged, and the i-th node field holds the i-th new child. -/
theorem C40_replace_children {c : Cls} {vars : Md α} {vals vals' : List (PyVal α)} {aux : List Str × Md α} (h : WFPytree vars)
    (hf : pytreeFlatten (.tree c vars) = .ok (vals, aux)) (hl : vals'.length = vals.length) :
    ∃ vars', pytreeUnflatten c aux vals' = .tree c vars' ∧ DNodup vars' ∧
      (∀ k, k ∈ dkeys vars' ↔ k ∈ dkeys vars) ∧
      (∀ k v, dget vars k = some v → v.isNode = false → dget vars' k = some v) ∧
      (∀ (i : Nat) k v, aux.1[i]? = some k → vals'[i]? = some v → dget vars' k = some v) := by
  obtain ⟨h1, h2, h3⟩ := pytreeFlatten_keys h hf
  obtain ⟨ks, static⟩ := aux
  simp only at h2 h3
  have hnd := sortItems_strict h.nodup
  have hks : ks.Nodup := by rw [h2]; exact (hnd.filter _).nodup
  have hst : DNodup static := by rw [h3]; exact (hnd.filter _).nodup
  have hlen : vals'.length = ks.length := by rw [hl, h1, h2]; simp
  have hmem : ∀ k v, (k, v) ∈ sortItems vars ↔ dget vars k = some v := by
    intro k v; rw [(sortItems_perm vars).mem_iff, ← dget_iff_mem h.nodup]
  have hstat : ∀ k v, dget static k = some v ↔ dget vars k = some v ∧ v.isNode = false := by
    intro k v
    rw [dget_iff_mem hst, h3, List.mem_filter, hmem]
    simp
  have hkeys : ∀ k, k ∈ ks ↔ ∃ v, dget vars k = some v ∧ v.isNode = true := by
    intro k
    rw [h2, List.mem_map]
    constructor
    · rintro ⟨⟨k', v⟩, hm, rfl⟩
      rw [List.mem_filter, hmem] at hm
      exact ⟨v, hm⟩
    · rintro ⟨v, hv, hn⟩
      exact ⟨(k, v), by rw [List.mem_filter, hmem]; exact ⟨hv, hn⟩, rfl⟩
  refine ⟨_, rfl, dnodup_dupdate (dnodup_dupdate (by simp [DNodup]) _) _, fun k => ?_, fun k v hk hn => ?_, fun i k v hk hv => ?_⟩
  · rw [← dget_isSome, dget_unflatten hks hst]
    cases hs : dget static k with
    | some v => simp [← dget_isSome, ((hstat k v).1 hs).1]
    | none =>
      simp only [Option.orElse_none]
      rw [dget_isSome, mem_dkeys_zip hlen, hkeys]
      constructor
      · rintro ⟨v, hv, _⟩; rw [← dget_isSome, hv]; rfl
      · intro hk
        obtain ⟨v, hv⟩ := Option.isSome_iff_exists.1 (dget_isSome.2 hk)
        cases hn : v.isNode with
        | true => exact ⟨v, hv, hn⟩
        | false => rw [(hstat k v).2 ⟨hv, hn⟩] at hs; cases hs
  · rw [dget_unflatten hks hst, (hstat k v).2 ⟨hk, hn⟩]; rfl
  · rw [dget_unflatten hks hst]
    have hin : k ∈ ks := List.mem_of_getElem? hk
    obtain ⟨w, hw, hwn⟩ := (hkeys k).1 hin
    have : dget static k = none := by
      cases hs : dget static k with
      | none => rfl
      | some v' =>
        obtain ⟨e1, e2⟩ := (hstat k v').1 hs
        rw [hw] at e1; cases e1
        rw [hwn] at e2; cases e2
    rw [this]
    simpa using dget_zip hks hk hv

omit [DecidableEq α] in
/-- **C40**, round trip: unflattening the children gives an object of the same class with the same fields, again a proper
Pytree object. -/
theorem C40_round_trip {c : Cls} {vars : Md α} {vals : List (PyVal α)} {aux : List Str × Md α} (h : WFPytree vars)
    (hf : pytreeFlatten (.tree c vars) = .ok (vals, aux)) :
    ∃ vars', pytreeUnflatten c aux vals = .tree c vars' ∧ (∀ k, dget vars' k = dget vars k) ∧ WFPytree vars' := by
  obtain ⟨vars', h1, hnd, h2, h3, h4⟩ := C40_replace_children h hf rfl
  have hg : ∀ k, dget vars' k = dget vars k := by
    intro k
    cases hk : dget vars k with
    | none =>
      rw [dget_eq_none, h2, ← dget_eq_none]; exact hk
    | some v =>
      cases hn : v.isNode with
      | false => exact h3 k v hk hn
      | true =>
        obtain ⟨e1, e2, _⟩ := pytreeFlatten_keys h hf
        have hm : (k, v) ∈ (sortItems vars).filter (fun kv => kv.2.isNode) := by
          rw [List.mem_filter, (sortItems_perm vars).mem_iff, ← dget_iff_mem h.nodup]
          exact ⟨hk, hn⟩
        obtain ⟨i, hi⟩ := List.getElem?_of_mem hm
        exact h4 i k v (by rw [e2, List.getElem?_map, hi]; rfl) (by rw [e1, List.getElem?_map, hi]; rfl)
  refine ⟨vars', h1, hg, ?_⟩
  have hs : sortedNames vars' = sortedNames vars := sortedNames_ext hnd h.nodup h2
  exact { nodup := hnd, noInit := fun hk => h.noInit ((h2 _).1 hk), noMut := fun hk => h.noMut ((h2 _).1 hk),
          sorted := by rw [hg, h.sorted]; rw [sortedNames, sortedNames] at hs; rw [hs]
          good := fun k v hk => h.good k v (by rw [← hg]; exact hk) }

omit [DecidableEq α] in
/-- **C40**, the structure is a function of the fields: two objects of one class with the same fields, stored in any order,
flatten to the same keys, children and auxiliary data. -/
theorem C40_structure {c : Cls} {vars vars' : Md α} (h : WFPytree vars) (h' : WFPytree vars')
    (hf : ∀ k, dget vars k = dget vars' k) :
    pytreeFlattenKeys (.tree c vars) = pytreeFlattenKeys (.tree c vars') := by
  have : sortItems vars = sortItems vars' :=
    StrictSorted.ext (sortItems_strict h.nodup) (sortItems_strict h'.nodup)
      (fun k => by rw [dget_sortItems h.nodup, dget_sortItems h'.nodup, hf])
  rw [pytreeFlattenKeys_wf h, pytreeFlattenKeys_wf h', this]

/-! Assignment order -/

theorem runInit_fresh {i : PInfo α} {steps : List (Str × PyVal α)} {vars : Md α} (hi : kInit ∈ dkeys vars)
    (hn : (steps.map (·.1)).Nodup) (hd : ∀ k ∈ steps.map (·.1), k ∉ dkeys vars) (hs : ∀ s ∈ steps, GoodField s.2) :
    runInit i steps vars = .ok (vars ++ steps) := by
  induction steps generalizing vars with
  | nil => simp [runInit]
  | cons s rest ih =>
    obtain ⟨name, v⟩ := s
    have hnew : name ∉ dkeys vars := hd name (by simp)
    have hset : i.initSetattr vars name v = .ok (vars ++ [(name, v)]) := by
      unfold PInfo.initSetattr
      split
      · rw [dset_of_not_mem hnew]
      · rcases setattrVars_allowed (b := i.mutable) (hs (name, v) (by simp)) (name := name) (vars := vars)
          (by rw [dget_eq_none.2 hnew]; simp) (Or.inl hi) with ⟨x, hst, _, he⟩ | ⟨hr, _⟩
        · rw [dget_eq_none.2 hnew] at hst
          cases hst
          rw [he, dset_of_not_mem hnew]
        · obtain ⟨c, w, m, d, u, n, hr, _⟩ := hr
          rw [dget_eq_none.2 hnew] at hr; cases hr
    rw [runInit, hset]
    simp only [List.map_cons, List.nodup_cons] at hn
    have hi' : kInit ∈ dkeys (vars ++ [(name, v)]) := by
      simp only [dkeys, List.map_append, List.mem_append]; exact Or.inl hi
    simp only
    rw [ih hi' hn.2 ?_ (fun s hs' => hs s (by simp [hs']))]
    · simp
    · intro k hk
      have h1 := hd k (by simp only [List.map_cons, List.mem_cons]; exact Or.inr hk)
      simp only [dkeys, List.map_append, List.map_cons, List.map_nil, List.mem_append, List.mem_singleton, not_or] at h1 ⊢
      exact ⟨h1, fun e => hn.1 (e ▸ hk)⟩

theorem wrapFields_congr {fs : List (PField α)} {m n m' n' : Md α} (h : ∀ k, dget m k = dget n k)
    (hm : wrapFields fs m = .ok m') (hn : wrapFields fs n = .ok n') : ∀ k, dget m' k = dget n' k := by
  induction fs generalizing m n with
  | nil => cases hm; cases hn; exact h
  | cons f fs ih =>
    rw [wrapFields] at hm hn
    cases hf : f.kind.containerFn with
    | none => rw [hf] at hm hn; exact ih h hm hn
    | some fn =>
      rw [hf] at hm hn
      simp only at hm hn
      rw [h] at hm
      cases hd : dget n f.name with
      | none => rw [hd] at hm; cases hm
      | some v =>
        rw [hd] at hm hn
        simp only at hm hn
        cases hc : fn v with
        | error e => rw [hc] at hm; cases hm
        | ok x =>
          rw [hc] at hm hn
          refine ih (fun k => ?_) hm hn
          rw [dget_dset, dget_dset, h]

/-- **C40**, assignment order: two runs of `__init__` that assign the same values to the same distinct names in different orders
construct objects with the same fields and the same JAX structure, keys and children. -/
theorem C40_assignment_order {c : Cls} {i : PInfo α} {s1 s2 : List (Str × PyVal α)} {v1 v2 : Md α}
    (hp : s1.Perm s2) (hn : (s1.map (·.1)).Nodup) (hr : ∀ k ∈ s1.map (·.1), ¬ ReservedPy k)
    (hg : ∀ s ∈ s1, GoodField s.2) (h1 : callVars i s1 = .ok v1) (h2 : callVars i s2 = .ok v2) :
    (∀ k, dget v1 k = dget v2 k) ∧ pytreeFlattenKeys (.tree c v1) = pytreeFlattenKeys (.tree c v2) := by
  have hp' : ∀ s, s ∈ s2 ↔ s ∈ s1 := fun s => hp.symm.mem_iff
  have hn2 : (s2.map (·.1)).Nodup := (hp.map _).nodup_iff.1 hn
  have hr2 : ∀ k ∈ s2.map (·.1), ¬ ReservedPy k := fun k hk => hr k ((hp.map _).mem_iff.2 hk)
  have hg2 : ∀ s ∈ s2, GoodField s.2 := fun s hs => hg s ((hp' s).1 hs)
  have hw1 := callVars_wf hg h1
  have hw2 := callVars_wf hg2 h2
  have key : ∀ k, dget v1 k = dget v2 k := by
    have hk1 := (callVars_keys h1).2.2
    have hk2 := (callVars_keys h2).2.2
    have d1 := (callVars_keys h1).2.1
    have d2 := (callVars_keys h2).2.1
    unfold callVars at h1 h2
    obtain ⟨h0n, h0k, _⟩ := init0_facts (α := α)
    generalize (dset (dset [(kSorted, .tup [.str kSorted])] kMutable .none) kInit .none : Md α) = v0 at h1 h2 h0n h0k
    have hin : kInit ∈ dkeys v0 := (h0k _).2 (Or.inr (Or.inr rfl))
    rw [runInit_fresh hin hn (fun k hk hk' => hr k hk ((h0k k).1 hk')) hg] at h1
    rw [runInit_fresh hin hn2 (fun k hk hk' => hr2 k hk ((h0k k).1 hk')) hg2] at h2
    simp only at h1 h2
    have hperm : (v0 ++ s1).Perm (v0 ++ s2) := hp.append_left v0
    have hnd1 : DNodup (v0 ++ s1) := by
      unfold DNodup dkeys
      rw [List.map_append, List.nodup_append]
      refine ⟨h0n, hn, ?_⟩
      intro a ha b hb e
      subst e
      exact hr a hb ((h0k a).1 ha)
    have hnd2 := dnodup_perm hperm hnd1
    have e0 : ∀ k, dget (ddel (ddel (v0 ++ s1) kInit) kMutable) k = dget (ddel (ddel (v0 ++ s2) kInit) kMutable) k := by
      intro k
      rw [dget_ddel (dnodup_ddel hnd1 _), dget_ddel (dnodup_ddel hnd2 _), dget_ddel hnd1, dget_ddel hnd2, dget_perm hperm hnd1]
    cases w1 : wrapFields (i.dataclass.elim [] (·.1)) (ddel (ddel (v0 ++ s1) kInit) kMutable) with
    | error e => rw [w1] at h1; cases h1
    | ok u1 =>
      cases w2 : wrapFields (i.dataclass.elim [] (·.1)) (ddel (ddel (v0 ++ s2) kInit) kMutable) with
      | error e => rw [w2] at h2; cases h2
      | ok u2 =>
        rw [w1] at h1; rw [w2] at h2
        have e1 := wrapFields_congr e0 w1 w2
        intro k
        by_cases hks : kSorted = k
        · subst hks
          rw [hk1, hk2, sortedNames_ext hw1.nodup hw2.nodup]
          intro k
          rw [d1, d2, (hp.map (·.1)).mem_iff]
        · cases h1; cases h2
          rw [dget_dset_ne _ _ hks, dget_dset_ne _ _ hks, e1]
  exact ⟨key, C40_structure hw1 hw2 key⟩

/-- A case: a `Node`, a static value and a dataclass-free class; flattening gives the one node child. -/
example :
    let i : PInfo Nat := { mutable := false, dataclass := none }
    let steps : List (Str × PyVal Nat) := [(py! "y", .cont cNode (.data cArray 3) []), (py! "x", .data cNdarray 2), (py! "w", .none)]
    ∃ vars, callVars i steps = .ok vars ∧
      pytreeFlattenKeys (.tree cPytree vars) =
        .ok ([(py! "x", .data cNdarray 2), (py! "y", .cont cNode (.data cArray 3) [])],
          ([py! "x", py! "y"], [(kSorted, .tup [.str kSorted, .str (py! "w"), .str (py! "x"), .str (py! "y")]), (py! "w", .none)])) := by
  refine ⟨[(kSorted, .tup [.str kSorted, .str (py! "w"), .str (py! "x"), .str (py! "y")]),
    (py! "y", .cont cNode (.data cArray 3) []), (py! "x", .data cNdarray 2), (py! "w", .none)], by decide, by rfl⟩

/-- The hypotheses of `C40_constructed` and `C40_assignment_order` for that case. -/
example : let steps : List (Str × PyVal Nat) := [(py! "y", .cont cNode (.data cArray 3) []), (py! "x", .data cNdarray 2), (py! "w", .none)]
    (steps.map (·.1)).Nodup ∧ (∀ k ∈ steps.map (·.1), ¬ ReservedPy k) ∧ (∀ s ∈ steps, GoodField s.2) := by
  refine ⟨by decide, ?_, ?_⟩
  · unfold ReservedPy; decide
  · intro s hs
    simp only [List.mem_cons, List.not_mem_nil, or_false] at hs
    rcases hs with rfl | rfl | rfl
    · exact Or.inr (.mk trivial (by simp [DNodup]) (by simp) (fun _ => rfl) (fun _ h => absurd h (by decide)))
    · exact Or.inl trivial
    · exact Or.inl trivial

end Nnx
