import Verif.Spec.NodeTypes
import Verif.Proofs.NodeTypes
import Verif.Props.Load
import Verif.Props.ModuleUpdate
/-
C126: types registered with nnx.register_node_type.
-/
namespace Nnx
variable {α : Type}

theorem registered_eq (user : List Cls) : registered user = libraryTypes ++ user := by
  unfold registered
  generalize libraryTypes = ts
  induction user generalizing ts with
  | nil => simp
  | cons c user ih => rw [List.foldl_cons, ih]; simp [registerNodeType]

theorem extends_registered (user : List Cls) : Extends (registered user) := by
  intro c hc
  rw [registered_eq]
  exact List.mem_append_left _ hc

theorem noMeta_registered {user : List Cls} (h : MetadataUnregistered user) : NoMetaNode (registered user) := by
  unfold NoMetaNode
  rw [registered_eq, List.any_append, Bool.or_eq_false_iff]
  refine ⟨by decide, List.any_eq_false.2 ?_⟩
  intro c hc
  simp [Cls.isSub, cContainerMetadata, h c hc]

/-- **C126, nodes.** `nnx.is_node(v)` holds exactly of the instances of the types of the library and of the types registered so
far, whatever was registered and in which order; so registering never turns a node into a static value. -/
theorem C126_is_node (user : List Cls) (v : PyVal α) :
    (isNodeIn (registered user) v = true ↔ NodeFor user v) ∧
    (∀ c, isNodeIn (registered (user ++ [c])) v = true ↔ NodeFor user v ∨ IsA v c.name) ∧
    (∀ user' : List Cls, (∀ c, c ∈ user ↔ c ∈ user') → isNodeIn (registered user') v = isNodeIn (registered user) v) := by
  have key : ∀ user, isNodeIn (registered user) v = true ↔ NodeFor user v := by
    intro user
    have e : isNodeIn (registered user) v = (v.isNode || user.any (fun c => v.isInstance c)) := by
      unfold isNodeIn
      rw [registered_eq, List.any_append]
      rfl
    rw [e, Bool.or_eq_true, C10_node_types.1 v, NodeFor]
    refine or_congr Iff.rfl ?_
    rw [List.any_eq_true]
    refine exists_congr fun c => and_congr Iff.rfl ?_
    simp only [PyVal.isInstance, Cls.isSub, IsA, Bool.or_eq_true]
    exact or_congr decide_eq_true_iff decide_eq_true_iff
  refine ⟨key user, ?_, ?_⟩
  · intro c
    rw [key, NodeFor, NodeFor, or_assoc]
    refine or_congr Iff.rfl ?_
    constructor
    · rintro ⟨d, hd, h⟩
      rcases List.mem_append.1 hd with hd | hd
      · exact .inl ⟨d, hd, h⟩
      · simp at hd; subst hd; exact .inr h
    · rintro (⟨d, hd, h⟩ | h)
      · exact ⟨d, List.mem_append_left _ hd, h⟩
      · exact ⟨c, by simp, h⟩
  · intro user' h
    rw [Bool.eq_iff_iff, key, key]
    exact or_congr Iff.rfl (exists_congr fun c => and_congr (h c).symm Iff.rfl)

/-- **C126, no registration.** Without registered types, `get_state`, `get_module_def`, `partition`, `clone` and `update_state`
are the functions of all other properties. -/
theorem C126_unregistered [DecidableEq α] :
    (getStateIn (registered []) = getState (α := α)) ∧ (getModuleDefIn (registered []) = getModuleDef (α := α)) ∧
    (partitionIn (registered []) = partitionModule (α := α)) ∧ (cloneIn (registered []) = cloneModule (α := α)) ∧
    (updateStateIn (registered []) = updateState (α := α)) := by
  have hn : ∀ v : PyVal α, isNodeIn (registered []) v = v.isNode := fun v => rfl
  have i1 : ∀ (rec : Loc → List Nat → List Str → Option (List (Str × PyVal α) × List Nat)) as S p,
      iterStateAttrsIn (registered []) rec as S p = iterStateAttrs rec as S p := by
    intro rec as
    induction as with
    | nil => intro S p; rfl
    | cons x as ih =>
      intro S p
      obtain ⟨n, a⟩ := x
      cases a <;> simp only [iterStateAttrsIn, iterStateAttrs, ih, hn] <;> rfl
  have i2 : ∀ (h : Heap α) f l S p, iterStateRecIn (registered []) h f l S p = iterStateRec h f l S p := by
    intro h f
    induction f with
    | zero => intro l S p; rfl
    | succ f ih =>
      intro l S p
      have : iterStateRecIn (registered []) h f = iterStateRec h f := by funext l S p; exact ih l S p
      simp only [iterStateRecIn, iterStateRec, this, i1]
      rfl
  have e1 : getStateIn (registered []) = getState (α := α) := by
    funext f h l; simp only [getStateIn, getState, i2]
    rfl
  have d1 : ∀ (rec : Loc → List Nat → Option ((Nat ⊕ ModuleDef α) × List Nat)) as S,
      makeDefAttrsIn (registered []) rec as S = makeDefAttrs rec as S := by
    intro rec as
    induction as with
    | nil => intro S; rfl
    | cons x as ih =>
      intro S
      obtain ⟨n, a⟩ := x
      cases a <;> simp only [makeDefAttrsIn, makeDefAttrs, ih, hn] <;> rfl
  have d2 : ∀ (h : Heap α) f l S, makeDefRecIn (registered []) h f l S = makeDefRec h f l S := by
    intro h f
    induction f with
    | zero => intro l S; rfl
    | succ f ih =>
      intro l S
      have : makeDefRecIn (registered []) h f = makeDefRec h f := by funext l S; exact ih l S
      simp only [makeDefRecIn, makeDefRec, this, d1]
      rfl
  have e2 : getModuleDefIn (registered []) = getModuleDef (α := α) := by
    funext f h l; simp only [getModuleDefIn, getModuleDef, d2]
    rfl
  have e3 : partitionIn (registered []) = partitionModule (α := α) := by
    funext f h l fs; simp only [partitionIn, partitionModule, e1, e2]
    rfl
  refine ⟨e1, e2, e3, ?_, ?_⟩
  · funext f l w; simp only [cloneIn, cloneModule, e3]
    rfl
  · funext f r us w; simp only [updateStateIn, updateState, e1]
    rfl

/-- **C126, State.** Whatever types were registered, the State of a Module has, for every attribute of every reachable Module that
holds a node, exactly one entry, with its value, at a path that leads to it; and it has no other entries. -/
theorem C126_get_state (user : List Cls) {h : Heap α} (wf : WFHeap h) {root : Loc} (hroot : root < h.length) {fuel : Nat}
    (hf : h.length < fuel) :
    ∃ s, getStateIn (registered user) fuel h root = some s ∧
    (∀ k v, s.get k = some v → ∃ l n, LeadsTo h root k l n ∧ attrAt h l n = some (.val v) ∧ NodeFor user v) ∧
    (∀ l n v, Reaches h root l → attrAt h l n = some (.val v) → NodeFor user v →
      ∃ k, s.get k = some v ∧ LeadsTo h root k l n ∧
        ∀ k', (s.get k').isSome → LeadsTo h root k' l n → k' = k) := by
  have hx := extends_registered user
  have hroot' : root < (relHeap (registered user) h).length := by rw [relHeap_length]; exact hroot
  obtain ⟨s', hs'⟩ := getState_exists (rel_wf (types := registered user) wf) hroot' (by rw [relHeap_length]; exact hf)
  have hs0 := hs'
  rw [getState_rel hx] at hs0
  cases hs : getStateIn (registered user) fuel h root with
  | none => rw [hs] at hs0; cases hs0
  | some s =>
    rw [hs] at hs0
    cases hs0
    obtain ⟨c1, c2⟩ := C10_get_state_entries (rel_wf wf) hroot' hs'
    have hnode : ∀ v : PyVal α, IsNode (relabel (registered user) v) ↔ NodeFor user v := by
      intro v
      rw [← C10_node_types.1, relabel_isNode hx, (C126_is_node user v).1]
    have hlead : ∀ k l n, LeadsTo (relHeap (registered user) h) root k l n ↔ LeadsTo h root k l n := fun k l n =>
      exists_congr fun p => and_congr walk_rel Iff.rfl
    refine ⟨s, rfl, ?_, ?_⟩
    · intro k v hk
      obtain ⟨l, n, h1, h2, h3⟩ := c1 k (relabel _ v) (by rw [relState_get, hk]; rfl)
      refine ⟨l, n, (hlead _ _ _).1 h1, ?_, (hnode v).1 h3⟩
      rw [attrAt_rel] at h2
      cases h4 : attrAt h l n with
      | none => rw [h4] at h2; cases h2
      | some a =>
        rw [h4] at h2
        simp only [Option.map_some, Option.some.injEq] at h2
        rw [relAttr_inj (b := .val v) h2]
    · intro l n v hr ha hv
      obtain ⟨k, h1, h2, h3⟩ := c2 l n (relabel _ v) (reaches_rel.2 hr) (by rw [attrAt_rel, ha]; rfl) ((hnode v).2 hv)
      refine ⟨k, ?_, (hlead _ _ _).1 h2, ?_⟩
      · rw [relState_get] at h1
        cases h4 : s.get k with
        | none => rw [h4] at h1; cases h1
        | some u =>
          rw [h4] at h1
          simp only [Option.map_some, Option.some.injEq] at h1
          rw [relabel_inj h1]
      · intro k' hk' hl
        exact h3 k' (by rw [relState_get, Option.isSome_map]; exact hk') ((hlead _ _ _).2 hl)

/-- **C126, static fields.** The ModuleDef of a Module lists as static fields exactly the attributes that hold neither a Module
nor a node. -/
theorem C126_static_fields (user : List Cls) {h : Heap α} (wf : WFHeap h) {root : Loc} {fuel : Nat} {d : ModuleDef α}
    (hd : getModuleDefIn (registered user) fuel h root = some d) (n : Str) (v : PyVal α) :
    (n, v) ∈ d.statics ↔ attrAt h root n = some (.val v) ∧ ¬ NodeFor user v := by
  rw [getModuleDefIn_statics wf hd, ← (C126_is_node user v).1]
  simp

/-- **C126, registering more.** Registering one more type adds entries for the values of this type and changes no other entry:
the State from before is the part of the State from after that holds the nodes of before. -/
theorem C126_register_more (user : List Cls) (c : Cls) {h : Heap α} (wf : WFHeap h) {root : Loc} (hroot : root < h.length)
    {fuel : Nat} {s s' : State (PyVal α)} (hs : getStateIn (registered user) fuel h root = some s)
    (hs' : getStateIn (registered (user ++ [c])) fuel h root = some s') :
    (∀ k v, s.get k = some v ↔ s'.get k = some v ∧ NodeFor user v) ∧
    (∀ k v, s'.get k = some v → s.get k = some v ∨ IsA v c.name) := by
  have key := getStateIn_filter (extends_registered (user ++ [c]))
    (fun v hv => ((C126_is_node user v).2.1 c).2 (.inl ((C126_is_node user v).1.1 hv))) wf hroot hs hs'
  have key2 : ∀ k v, s.get k = some v ↔ s'.get k = some v ∧ NodeFor user v := by
    intro k v
    rw [key, (C126_is_node user v).1]
  refine ⟨key2, fun k v hk => ?_⟩
  obtain ⟨vs, S', _, hg⟩ := getStateIn_get (extends_registered (user ++ [c])) wf hroot hs'
  obtain ⟨x, _, n, _, hv, _⟩ := (hg k v).1 hk
  rcases ((C126_is_node user v).2.1 c).1 hv with h1 | h1
  · exact .inl ((key2 k v).2 ⟨hk, h1⟩)
  · exact .inr h1

variable [DecidableEq α]

/-- **C126, round trip.** Whatever types were registered, partitioning a Module with any filters and merging the parts, in any
order and in any world, gives a Module that is observationally equal to the original one, with the values of the registered types
in it, and changes no existing Module. -/
theorem C126_round_trip {user : List Cls} (hu : MetadataUnregistered user) {h : Heap α} (wf : WFHeap h) {root : Loc}
    (hroot : root < h.length) {fuel : Nat} {filters : List (Filter α)} {ss : List (State (PyVal α))} {d : ModuleDef α}
    (hp : partitionIn (registered user) fuel h root filters = .ok (ss, d)) {ss' : List (State (PyVal α))} (hperm : ss'.Perm ss)
    {w : World α} (wfw : WFWorld w) :
    ∃ w' r', mergeDef d ss' w = (w', .ok r') ∧ SameGraph h root w'.heap r' ∧ WFWorld w' ∧
      (∀ l : Loc, l < w.heap.length → w'.heap[l]? = w.heap[l]?) ∧
      (∀ (l : Loc) (o : ModObj α), Reaches w'.heap r' l → w'.heap[l]? = some o →
        w.heap.length ≤ l ∧ w.nextId < o.uid ∧ o.trace = w.curTrace) := by
  unfold partitionIn at hp
  split at hp
  swap
  · cases hp
  next d' s hd hs =>
  have hob : Obtainable s := by
    unfold getStateIn at hs
    split at hs
    · cases hs
    · simp only [Option.some.injEq] at hs; subst hs; exact .new _
  have hpd : Pieces s ss ∧ d' = d := by
    split at hp
    · cases hp; exact ⟨pieces_self hob.canonical, rfl⟩
    · split at hp
      · cases hp
      · next hpart => cases hp; exact ⟨partition_pieces hob hpart, rfl⟩
  obtain ⟨hpc, rfl⟩ := hpd
  obtain ⟨w', f, hm, sp⟩ := mergeIn_spec (extends_registered user) (noMeta_registered hu) wf hroot hd hs (hpc.perm hperm)
    (w := w) wfw.heap.conts
  refine ⟨w', _, hm, sp.iso.sameGraph wf hroot, ⟨sp.wf wf wfw.heap wfw.ids, ?_⟩, sp.old, ?_⟩
  · intro l o ho
    by_cases hl : l < w.heap.length
    · rw [sp.old _ hl] at ho; exact Nat.le_trans (wfw.ids _ _ ho) sp.ids
    · exact (sp.fresh _ _ (Nat.le_of_not_lt hl) ho).2.1
  · rintro l o ⟨p, hp⟩ ho
    rw [← sp.iso.root] at hp
    obtain ⟨b, rfl, _⟩ := sp.iso.walk_back wf ⟨[], .here hroot⟩ hp
    exact ⟨sp.ge b, (sp.fresh _ _ (sp.ge b) ho).1, (sp.fresh _ _ (sp.ge b) ho).2.2⟩

/-- **C126, clone.** Whatever types were registered, `clone` returns a Module that is observationally equal. -/
theorem C126_clone {user : List Cls} (hu : MetadataUnregistered user) {w : World α} (wf : WFWorld w) {root : Loc}
    (hroot : root < w.heap.length) {fuel : Nat} (hf : w.heap.length < fuel) :
    ∃ w' r', cloneIn (registered user) fuel root w = (w', .ok r') ∧ SameGraph w.heap root w'.heap r' ∧
      (∀ l : Loc, l < w.heap.length → w'.heap[l]? = w.heap[l]?) := by
  obtain ⟨s, hs, _⟩ := C126_get_state user wf.heap hroot hf
  have hx := extends_registered user
  obtain ⟨d', hd'⟩ := getModuleDef_exists (rel_wf (types := registered user) wf.heap) (by rw [relHeap_length]; exact hroot)
    (by rw [relHeap_length]; exact hf)
  rw [getModuleDef_rel hx] at hd'
  cases hd : getModuleDefIn (registered user) fuel w.heap root with
  | none => rw [hd] at hd'; cases hd'
  | some d =>
    have hp : partitionIn (registered user) fuel w.heap root [] = .ok ([s], d) := by simp [partitionIn, hd, hs]
    obtain ⟨w', r', h1, h2, _, h3, _⟩ := C126_round_trip hu wf.heap hroot hp (List.Perm.refl _) wf
    exact ⟨w', r', by simp only [cloneIn, hp, h1], h2, h3⟩

/-! ### update_state -/

omit [DecidableEq α] in
theorem relState_canonical {types : List Cls} {s : State (PyVal α)} (h : s.Canonical) : (relState types s).Canonical := by
  unfold State.Canonical at *
  unfold StrictSorted at *
  unfold relState relItems
  exact List.pairwise_map.2 h

omit [DecidableEq α] in
theorem given_rel {types : List Cls} (us : List (State (PyVal α))) (k : Str) :
    given (us.map (relState types)) k = (given us k).map (relabel types) := by
  unfold given
  rw [← List.map_reverse]
  induction us.reverse with
  | nil => rfl
  | cons t ts ih =>
    simp only [List.map_cons, List.findSome?_cons, relState_get]
    cases t.get k with
    | none => exact ih
    | some v => rfl

omit [DecidableEq α] in
theorem addresses_rel {types : List Cls} {h : Heap α} {root : Loc} {k : Str} {l : Loc} {n : Str} :
    Addresses (relHeap types h) root k l n ↔ Addresses h root k l n :=
  exists_congr fun _ => and_congr Iff.rfl walk_rel

omit [DecidableEq α] in
theorem foldl_rel {types : List Cls} (ss : List (State (PyVal α))) : ∀ d : Dict Str (PyVal α),
    (ss.map (relState types)).foldl (fun d t => dupdate d t.items) (relItems types d) =
      relItems types (ss.foldl (fun d t => dupdate d t.items) d) := by
  induction ss with
  | nil => intro d; rfl
  | cons t ts ih =>
    intro d
    simp only [List.map_cons, List.foldl_cons]
    rw [show dupdate (relItems types d) (relState types t).items = relItems types (dupdate d t.items) from
      dupdate_map_val (relabel types) t.items d]
    exact ih _

omit [DecidableEq α] in
theorem relWorld_wf {types : List Cls} {w : World α} (wf : WFWorld w) : WFWorld (relWorld types w) := by
  refine ⟨rel_wf wf.heap, ?_⟩
  intro l o ho
  rw [show (relWorld types w).heap[l]? = _ from relHeap_get w.heap l] at ho
  cases e : w.heap[l]? with
  | none => rw [e] at ho; cases ho
  | some o' => rw [e] at ho; cases ho; exact wf.ids l o' e

theorem updateStateIn_rel {user : List Cls} (hu : MetadataUnregistered user) {w : World α} (wf : WFWorld w) {root : Loc}
    (hroot : root < w.heap.length) (fuel : Nat) {us : List (State (PyVal α))} (hg : ∀ t ∈ us, ∀ kv ∈ t.items, WFVal kv.2) :
    updateState fuel root (us.map (relState (registered user))) (relWorld (registered user) w) =
      (relWorld (registered user) (updateStateIn (registered user) fuel root us w).1,
        (updateStateIn (registered user) fuel root us w).2) := by
  have hx := extends_registered user
  unfold updateState updateStateIn
  rw [show getState fuel (relWorld (registered user) w).heap root = _ from getState_rel hx fuel w.heap root]
  cases hs : getStateIn (registered user) fuel w.heap root with
  | none => rfl
  | some s =>
    simp only [Option.map_some, updateModule]
    have := foldl_rel (types := registered user) (s :: us) []
    rw [List.map_cons] at this
    rw [show (relState (registered user) s :: us.map (relState (registered user))).foldl (fun d t => dupdate d t.items) [] = _ from this]
    refine assignAll_rel root _ w wf.heap.conts ?_
    have hsv : ∀ kv ∈ s.items, WFVal kv.2 := by
      rintro ⟨k, v⟩ hkv
      have hcan : s.Canonical := by
        unfold getStateIn at hs
        split at hs
        · cases hs
        · simp only [Option.some.injEq] at hs; subst hs; exact State.new_strict _
      obtain ⟨vs, S', _, hgt⟩ := getStateIn_get hx wf.heap hroot hs
      obtain ⟨y, _, n, h1, h2, _⟩ := (hgt k v).1 (mem_dget hcan.nodup hkv)
      cases v with
      | cont c x m => exact .inr (wf.heap.conts _ _ _ _ _ h1)
      | cmeta x m =>
        rw [show isNodeIn (registered user) (PyVal.cmeta x m) = _ from noMeta_registered hu] at h2
        cases h2
      | _ => exact .inl trivial
    have key : ∀ (ts : List (State (PyVal α))) (d : Dict Str (PyVal α)), (∀ t ∈ ts, ∀ kv ∈ t.items, WFVal kv.2) →
        (∀ kv ∈ d, WFVal kv.2) → ∀ kv ∈ ts.foldl (fun d t => dupdate d t.items) d, WFVal kv.2 := by
      intro ts
      induction ts with
      | nil => intro d _ hd; exact hd
      | cons t ts ih =>
        intro d ht hd
        refine ih _ (fun t' h' => ht t' (List.mem_cons_of_mem _ h')) ?_
        intro kv hkv
        rcases mem_dupdate_cases hkv with h | h
        · exact hd kv h
        · exact ht t List.mem_cons_self kv h
    refine key (s :: us) [] ?_ (by simp)
    intro t ht
    rcases List.mem_cons.1 ht with rfl | ht
    · exact hsv
    · exact hg t ht

omit [DecidableEq α] in
theorem update_hyps_rel (types : List Cls) {w : World α} {root : Loc} (hroot : root < w.heap.length)
    {us : List (State (PyVal α))} (hc : ∀ t ∈ us, t.Canonical) (hg : GoodUpdates us)
    (hleaf : LeafPaths w.heap root us) (hnc : NoConflict w.heap root us) :
    root < (relWorld types w).heap.length ∧ (∀ t ∈ us.map (relState types), t.Canonical) ∧ GoodUpdates (us.map (relState types)) ∧
    (∀ k v', given (us.map (relState types)) k = some v' → ∃ v, given us k = some v ∧ v' = relabel types v) ∧
    (∀ (v : World α) l n, attrAt (relWorld types v).heap l n = (attrAt v.heap l n).map (relAttr types)) ∧
    LeafPaths (relWorld types w).heap root (us.map (relState types)) ∧
    NoConflict (relWorld types w).heap root (us.map (relState types)) := by
  have hroot' : root < (relWorld types w).heap.length := by
    rw [show (relWorld types w).heap.length = _ from relHeap_length w.heap]; exact hroot
  have hc' : ∀ t ∈ us.map (relState types), t.Canonical := by
    intro t ht
    obtain ⟨t0, h0, rfl⟩ := List.mem_map.1 ht
    exact relState_canonical (hc t0 h0)
  have hg' : GoodUpdates (us.map (relState types)) := by
    intro t ht k v hkv
    obtain ⟨t0, h0, rfl⟩ := List.mem_map.1 ht
    obtain ⟨kv0, h1, h2⟩ := List.mem_map.1 hkv
    cases h2
    exact ⟨relabel_wfval (hg t0 h0 kv0.1 kv0.2 h1).1, (hg t0 h0 kv0.1 kv0.2 h1).2⟩
  have hgiven : ∀ k v', given (us.map (relState types)) k = some v' → ∃ v, given us k = some v ∧ v' = relabel types v := by
    intro k v' h
    rw [given_rel] at h
    cases h1 : given us k with
    | none => rw [h1] at h; cases h
    | some v => rw [h1] at h; cases h; exact ⟨v, rfl, rfl⟩
  have hattr : ∀ (v : World α) l n, attrAt (relWorld types v).heap l n = (attrAt v.heap l n).map (relAttr types) :=
    fun v l n => attrAt_rel v.heap l n
  have hleaf' : LeafPaths (relWorld types w).heap root (us.map (relState types)) := by
    intro k v' hk l n ha b hb
    obtain ⟨v, hv, _⟩ := hgiven k v' hk
    rw [hattr] at hb
    cases h4 : attrAt w.heap l n with
    | none => rw [h4] at hb; cases hb
    | some a =>
      rw [h4] at hb
      cases a with
      | val u => cases hb
      | ref b' => exact hleaf k v hv l n (addresses_rel.1 ha) b' h4
  have hnc' : NoConflict (relWorld types w).heap root (us.map (relState types)) := by
    intro k v k' v' hk hk' l n ha ha'
    obtain ⟨u, hu1, rfl⟩ := hgiven k v hk
    obtain ⟨u', hu2, rfl⟩ := hgiven k' v' hk'
    rw [hnc k u k' u' hu1 hu2 l n (addresses_rel.1 ha) (addresses_rel.1 ha')]
  exact ⟨hroot', hc', hg', hgiven, hattr, hleaf', hnc'⟩

/-- **C126, updates.** Whatever types were registered, a successful `update_state` makes each addressed attribute hold what C14
says, leaves all other attributes as they are (also those with values of registered types), and changes nothing else. -/
theorem C126_update {user : List Cls} (hu : MetadataUnregistered user) {w w' : World α} (wf : WFWorld w) {root : Loc}
    (hroot : root < w.heap.length) {fuel : Nat} {us : List (State (PyVal α))} (hc : ∀ t ∈ us, t.Canonical) (hg : GoodUpdates us)
    (hleaf : LeafPaths w.heap root us) (hnc : NoConflict w.heap root us)
    (e : updateStateIn (registered user) fuel root us w = (w', none)) :
    SameObjects w w' ∧
    (∀ k v l n, given us k = some v → Addresses w.heap root k l n →
      attrAt w'.heap l n = some (.val (newValue (attrAt w.heap l n) v))) ∧
    (∀ l n, (∀ k v, given us k = some v → ¬ Addresses w.heap root k l n) → attrAt w'.heap l n = attrAt w.heap l n) := by
  have e' := updateStateIn_rel hu wf hroot fuel (us := us) (fun t ht kv hkv => (hg t ht kv.1 kv.2 hkv).1)
  rw [e] at e'
  obtain ⟨hroot', hc', hg', hgiven, hattr, hleaf', hnc'⟩ := update_hyps_rel (registered user) hroot hc hg hleaf hnc
  obtain ⟨so, _, _, hcell⟩ := C14_addressed_updated (relWorld_wf wf) hroot' hc' hg' hleaf' hnc' e'
  refine ⟨⟨?_, ?_, so.nextId, so.jax, so.stack⟩, ?_, ?_⟩
  · have := so.len
    rw [show (relWorld (registered user) w').heap.length = _ from relHeap_length w'.heap,
      show (relWorld (registered user) w).heap.length = _ from relHeap_length w.heap] at this
    exact this
  · intro l o o' ho ho'
    exact so.obj l (relObj (registered user) o) (relObj (registered user) o')
      (by rw [show (relWorld (registered user) w).heap[l]? = _ from relHeap_get w.heap l, ho]; rfl)
      (by rw [show (relWorld (registered user) w').heap[l]? = _ from relHeap_get w'.heap l, ho']; rfl)
  · intro k v l n hk ha
    have := hcell k (relabel _ v) l n (by rw [given_rel, hk]; rfl) (addresses_rel.2 ha)
    rw [hattr, hattr, newValue_rel] at this
    cases h4 : attrAt w'.heap l n with
    | none => rw [h4] at this; cases this
    | some a =>
      rw [h4] at this
      simp only [Option.map_some, Option.some.injEq] at this
      rw [relAttr_inj (b := .val _) this]
  · intro l n hno
    have := C14_frame (relWorld_wf wf) hroot' hc' hg' hleaf' e' (l := l) (n := n) (by
      intro k v' hk ha
      obtain ⟨v, hv, _⟩ := hgiven k v' hk
      exact hno k v hv (addresses_rel.1 ha))
    rw [hattr, hattr] at this
    cases h4 : attrAt w'.heap l n <;> cases h5 : attrAt w.heap l n <;> rw [h4, h5] at this <;> simp at this
    exact congrArg some (relAttr_inj this)

/-- **C126, updates succeed.** Whatever types were registered, `update_state` succeeds under the conditions of C14. -/
theorem C126_update_succeeds {user : List Cls} (hu : MetadataUnregistered user) {w : World α} (wf : WFWorld w) {root : Loc}
    (hroot : root < w.heap.length) {fuel : Nat} (hf : w.heap.length < fuel) {us : List (State (PyVal α))}
    (hc : ∀ t ∈ us, t.Canonical) (hg : GoodUpdates us) (hleaf : LeafPaths w.heap root us) (hnc : NoConflict w.heap root us)
    (htr : ∀ (l : Loc) (o : ModObj α), Reaches w.heap root l → w.heap[l]? = some o → w.traceValid o.trace = true)
    (hpaths : ∀ k v, given us k = some v → ∃ l n, Addresses w.heap root k l n ∧ Compatible (attrAt w.heap l n) v) :
    ∃ w', updateStateIn (registered user) fuel root us w = (w', none) := by
  have e' := updateStateIn_rel hu wf hroot fuel (us := us) (fun t ht kv hkv => (hg t ht kv.1 kv.2 hkv).1)
  obtain ⟨hroot', hc', hg', hgiven, hattr, hleaf', hnc'⟩ := update_hyps_rel (registered user) hroot hc hg hleaf hnc
  obtain ⟨w2, h2⟩ := C14_succeeds (relWorld_wf (types := registered user) wf) hroot' (fuel := fuel)
    (by rw [show (relWorld (registered user) w).heap.length = _ from relHeap_length w.heap]; exact hf) hc' hg' hleaf' hnc'
    (by
      rintro l o ⟨p, hp⟩ ho
      rw [show (relWorld (registered user) w).heap[l]? = _ from relHeap_get w.heap l] at ho
      cases h3 : w.heap[l]? with
      | none => rw [h3] at ho; cases ho
      | some o' => rw [h3] at ho; cases ho; exact htr l o' ⟨p, walk_rel.1 hp⟩ h3)
    (by
      intro k v' hk
      obtain ⟨v, hv, rfl⟩ := hgiven k v' hk
      obtain ⟨l, n, ha, hcp⟩ := hpaths k v hv
      exact ⟨l, n, addresses_rel.2 ha, by rw [hattr]; exact (compatible_rel _ v).2 hcp⟩)
  rw [h2] at e'
  refine ⟨(updateStateIn (registered user) fuel root us w).1, ?_⟩
  rw [Prod.ext_iff]
  exact ⟨rfl, (congrArg Prod.snd e').symm⟩

/-! ### Examples -/

/-- In the example graph, `k` of the shared block becomes a node when its type is registered. -/
example : getStateIn (registered []) 3 exHeap 0 =
    some ⟨[(py! "a/s", exStat 6), (py! "a/w", exParam 5), (py! "w", exParam 1)]⟩ ∧
  getStateIn (registered [cTuple]) 3 exHeap 0 =
    some ⟨[(py! "a/k", .data cTuple 3), (py! "a/s", exStat 6), (py! "a/w", exParam 5), (py! "w", exParam 1)]⟩ ∧
  getStateIn (registered [cStr, cTuple]) 3 exHeap 0 =
    some ⟨[(py! "a/k", .data cTuple 3), (py! "a/s", exStat 6), (py! "a/w", exParam 5), (py! "name", .str (py! "net")),
      (py! "w", exParam 1)]⟩ := by decide

example : MetadataUnregistered [cTuple, cStr] := by unfold MetadataUnregistered; decide

example : ∃ w' r', cloneIn (registered [cTuple, cStr]) 3 0 exWorld = (w', .ok r') ∧ SameGraph exWorld.heap 0 w'.heap r' := by
  obtain ⟨w', r', h1, h2, _⟩ := C126_clone (user := [cTuple, cStr]) (by unfold MetadataUnregistered; decide) exWorld_wf
    (root := 0) (by decide) (fuel := 3) (by decide)
  exact ⟨w', r', h1, h2⟩

/-- The update of C14's example when strings and tuples are nodes: `name` and `k` are kept. -/
example : ∃ w', updateStateIn (registered [cTuple, cStr]) 3 0 exUpdates exWorld = (w', none) ∧
    access w'.heap (.ref 0) [py! "w"] = some (.val (exParam 3)) ∧
    access w'.heap (.ref 0) [py! "a", py! "k"] = some (.val (.data cTuple 3)) ∧
    access w'.heap (.ref 0) [py! "b", py! "new"] = some (.val (exStat 8)) := ⟨_, rfl, by decide, by decide, by decide⟩

/-! ### A registration between get_state and get_module_def -/

/-- **C126, stale States.** A State that was taken before a registration does not fit a ModuleDef that was taken after it: there are a
Module, a type and parts from before and after the registration of the type that merge without an exception, but the result
has lost the attribute, and is not the original Module. -/
theorem C126_stale_state : ∃ (w : World Nat) (c : Cls) (s : State (PyVal Nat)) (d : ModuleDef Nat) (w' : World Nat) (r : Loc),
    WFWorld w ∧ getStateIn (registered []) 3 w.heap 0 = some s ∧ getModuleDefIn (registered [c]) 3 w.heap 0 = some d ∧
    mergeDef d [s] w = (w', .ok r) ∧ (∃ v l, IsA v c.name ∧ attrAt w.heap 1 (py! "k") = some (.val v) ∧
      Walk w'.heap r [py! "a"] l ∧ attrAt w'.heap l (py! "k") = none) ∧ ¬ SameGraph w.heap 0 w'.heap r := by
  refine ⟨exWorld, cTuple, _, _, _, _, exWorld_wf, rfl, rfl, rfl, ⟨.data cTuple 3, 3, .inl rfl, by decide, ?_, by decide⟩, ?_⟩
  · exact .step (by decide) (.here (by decide))
  · intro h
    have := h.1 [py! "a", py! "k"]
    revert this
    decide

end Nnx
