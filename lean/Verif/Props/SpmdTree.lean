import Verif.Proofs.SpmdTree
import Verif.Props.Tree
/-
C122: `add_axis`, `remove_axis` and `get_partition_spec` on trees with Nodes at any depth.
-/
namespace Nnx
variable {α : Type}

theorem GoodTree.sub {v x : PyVal α} {p : List TreeKey} (h : Sub v p x) (hv : GoodTree v) : GoodTree x := by
  induction h with
  | here => exact hv
  | item h _ ih =>
    cases hv with
    | leaf h => exact h.elim
    | tup hx => exact ih (hx _ (List.mem_of_getElem? h))
  | key h _ ih =>
    cases hv with
    | leaf h => exact h.elim
    | dict _ hx => exact ih (hx _ _ h)
  | value node _ ih =>
    cases hv with
    | leaf h => rw [h.1] at node; cases node
    | cont _ hx => exact ih hx
  | field h node _ ih =>
    cases hv with
    | leaf h => exact h.elim
    | tree _ hx => exact ih (hx _ _ h node)

/-- The Nodes of a good tree are containers as the library makes them. -/
theorem NodeClasses.wf {v x : PyVal α} {p : List TreeKey} (hc : NodeClasses v) (hg : GoodTree v) (h : Sub v p x) (hx : NodeObj x) : WFContainer x := by
  obtain ⟨c, w, m, rfl, hn⟩ := hx
  have hb := hc p c w m h hn
  cases hg.sub h with
  | leaf hl => rw [hl.1] at hb; cases hb
  | cont wf => exact wf

theorem hasShard_iff {x : PyVal α} {xs : List (PyVal α)} : HasShard x xs ↔ shardingOf x = some xs := by
  constructor
  · rintro ⟨c, v, m, rfl, hc, hm⟩
    have hm : dget m kSharding = some (.tup xs) := hm
    simp [shardingOf, hc, hm]
  · intro h
    obtain ⟨c, v, m, e, hc, hm⟩ := shardingOf_some h
    exact ⟨c, v, m, e, hc, hm⟩

theorem noShard_iff {x : PyVal α} : (∀ xs, ¬ HasShard x xs) ↔ shardingOf x = none := by
  simp only [hasShard_iff]
  cases shardingOf x with
  | none => simp
  | some xs => exact ⟨fun h => absurd rfl (h xs), fun h => by cases h⟩

theorem shardingOf_node {x : PyVal α} {xs : List (PyVal α)} (h : shardingOf x = some xs) : NodeObj x := by
  obtain ⟨c, v, m, rfl, hc, _⟩ := shardingOf_some h
  exact ⟨c, v, m, rfl, hc⟩

variable [DecidableEq α]

/-- `tree_map` with `is_leaf`: it succeeds if `f` does on the outermost Nodes and leaves. -/
theorem treeMapUntil_ok {f : PyVal α → Except Err (PyVal α)} {v : PyVal α} (h : GoodTree v) (hk : ∀ x y, f x = .ok y → x.Plain → y.Plain)
    (hf : ∀ p x, OuterAt v p x → ∃ y, f x = .ok y) :
    ∃ w, treeMapUntil isNodeObj f v = .ok w ∧ NodesMapped (fun x y => (∃ p, OuterAt v p x) ∧ f x = .ok y) v w := by
  obtain ⟨xs, t, hs⟩ := outerSpec h
  obtain ⟨ys, hy⟩ := allOk_map_total (f := f) (l := xs) (fun x hx => by obtain ⟨p, hp⟩ := (hs.mem x).1 hx; exact hf p x hp)
  obtain ⟨hl, hxy⟩ := allOk_map_ok hy
  have hz : ∀ x y, (x, y) ∈ xs.zip ys → x ∈ xs ∧ f x = .ok y := by
    intro x y hm
    obtain ⟨i, h1, h2⟩ := mem_zip_iff.1 hm
    obtain ⟨y', h3, h4⟩ := hxy i x h1
    rw [h2] at h3; cases h3
    exact ⟨List.mem_of_getElem? h1, h4⟩
  obtain ⟨w, hw, hm, _⟩ := hs.unflatten ys [] hl (fun x y h' => hk x y (hz x y h').2)
  refine ⟨w, ?_, hm.mono fun x y h' => ⟨(hs.mem x).1 (hz x y h').1, (hz x y h').2⟩⟩
  rw [List.append_nil] at hw
  simp [treeMapUntil, hs.flat, hy, treeUnflatten, hw]

theorem treeMapUntil_error {f : PyVal α → Except Err (PyVal α)} {v : PyVal α} {e : Err} (h : GoodTree v) (hk : ∀ x y, f x = .ok y → x.Plain → y.Plain)
    (he : treeMapUntil isNodeObj f v = .error e) : ∃ p x, OuterAt v p x ∧ f x = .error e := by
  obtain ⟨xs, t, hs⟩ := outerSpec h
  cases hy : allOk (xs.map f) with
  | error e' =>
    simp [treeMapUntil, hs.flat, hy] at he
    subst he
    obtain ⟨i, x, hx, hfx, _⟩ := allOk_map_error hy
    obtain ⟨p, hp⟩ := (hs.mem x).1 (List.mem_of_getElem? hx)
    exact ⟨p, x, hp, hfx⟩
  | ok ys =>
    obtain ⟨hl, hxy⟩ := allOk_map_ok hy
    obtain ⟨w, hw, hm, _⟩ := hs.unflatten ys [] hl (fun x y h' => by
      obtain ⟨i, h1, h2⟩ := mem_zip_iff.1 h'
      obtain ⟨y', h3, h4⟩ := hxy i x h1
      rw [h2] at h3; cases h3
      exact hk x y h4)
    rw [List.append_nil] at hw
    simp [treeMapUntil, hs.flat, hy, treeUnflatten, hw] at he

/-! ### One Node -/

theorem addAxisLeaf_spec {i : Nat} {name x y : PyVal α} (hx : NodeObj x → WFContainer x) : addAxisLeaf i name x = .ok y ↔ ShardAdded i name x y := by
  rw [addAxisLeaf_ok i name x (fun xs h => hx (shardingOf_node h)), ShardAdded, noShard_iff]
  simp only [hasShard_iff]
  cases h : shardingOf x with
  | none => simp [eq_comm]
  | some xs => simp [grow_eq, eq_comm]

theorem removeAxisLeaf_spec {i : Nat} {name x y : PyVal α} (hx : NodeObj x → WFContainer x) : removeAxisLeaf i name x = .ok y ↔ ShardRemoved i name x y := by
  rw [ShardRemoved, noShard_iff, removeAxisLeaf]
  simp only [hasShard_iff]
  cases h : shardingOf x with
  | none => simp [eq_comm]
  | some xs =>
    simp only [pyPop_nat]
    cases hxi : xs[i]? with
    | none => simp [hxi]
    | some z =>
      simp only [Option.map_some]
      by_cases hz : z = name
      · rw [if_pos hz, replace_sharding (hx (shardingOf_node h)) h]
        simp [hxi, hz, eq_comm]
      · rw [if_neg hz]
        simp [hxi, hz]

omit [DecidableEq α] in
theorem withSharding_node {x : PyVal α} (ys : List (PyVal α)) : NodeObj (withSharding x ys) ↔ NodeObj x := by
  cases x with
  | cont c v m => exact ⟨fun ⟨_, _, _, e, h⟩ => by cases e; exact ⟨_, _, _, rfl, h⟩, fun ⟨_, _, _, e, h⟩ => by cases e; exact ⟨_, _, _, rfl, h⟩⟩
  | _ => exact Iff.rfl

omit [DecidableEq α] in
theorem withSharding_isNode (x : PyVal α) (ys : List (PyVal α)) : (withSharding x ys).isNode = x.isNode := by
  cases x <;> rfl

omit [DecidableEq α] in
theorem withSharding_plain {x : PyVal α} (ys : List (PyVal α)) (h : x.Plain) : (withSharding x ys).Plain := by
  cases x <;> exact h

theorem mem_zip_same {β : Type} {l : List β} {a b : β} (h : (a, b) ∈ l.zip l) : b = a := by
  induction l with
  | nil => cases h
  | cons x l ih =>
    rw [List.zip_cons_cons, List.mem_cons] at h
    rcases h with h | h
    · cases h; rfl
    · exact ih h

/-! ### C122 -/

/-- **C122.** `add_axis` succeeds on every tree. Every Node that is not inside another Node gets the name inserted in its sharding, if it has one;
everything else is as it was. -/
theorem C122_add {v : PyVal α} (h : GoodTree v) (hc : NodeClasses v) (i : Nat) {params : Md α} {name : PyVal α}
    (hn : dget params (py! "partition_name") = some name) :
    ∃ w, addAxisTree v i params = .ok w ∧ NodesMapped (ShardAdded i name) v w := by
  have hn' : dget params kPartitionName = some name := hn
  have hwf : ∀ p x, OuterAt v p x → NodeObj x → WFContainer x := fun p x hx => hc.wf h hx.1
  have hsp : ∀ x y, addAxisLeaf (i : Int) name x = .ok y → x.Plain → y.Plain := by
    intro x y hxy hx
    have hnone : shardingOf x = none := by
      cases hs : shardingOf x with
      | none => rfl
      | some xs =>
        obtain ⟨c, v, m, rfl, _⟩ := shardingOf_some hs
        exact hx.elim
    rw [addAxisLeaf, hnone] at hxy
    cases hxy
    exact hx
  obtain ⟨w, h1, h2⟩ := treeMapUntil_ok (f := addAxisLeaf (i : Int) name) h hsp
    (fun p x hx => ⟨_, addAxisLeaf_ok i name x fun xs hs => hwf p x hx (shardingOf_node hs)⟩)
  exact ⟨w, by simp [addAxisTree, hn', h1], h2.mono fun x y ⟨⟨p, hp⟩, hy⟩ => (addAxisLeaf_spec (hwf p x hp)).1 hy⟩

theorem removeAxisLeaf_plain {i : Int} {name x y : PyVal α} (hxy : removeAxisLeaf i name x = .ok y) (hx : x.Plain) : y.Plain := by
  have hnone : shardingOf x = none := by
    cases hs : shardingOf x with
    | none => rfl
    | some xs =>
      obtain ⟨c, v, m, rfl, _⟩ := shardingOf_some hs
      exact hx.elim
  rw [removeAxisLeaf, hnone] at hxy
  cases hxy
  exact hx

/-- **C122.** `remove_axis` succeeds exactly if every Node with a sharding that is not inside another Node has the name at the position; then these
Nodes have lost that entry, and everything else is as it was. -/
theorem C122_remove {v : PyVal α} (h : GoodTree v) (hc : NodeClasses v) (i : Nat) {params : Md α} {name : PyVal α}
    (hn : dget params (py! "partition_name") = some name) :
    ((∀ p x xs, OuterAt v p x → HasShard x xs → xs[i]? = some name) →
      ∃ w, removeAxisTree v i params = .ok w ∧ NodesMapped (ShardRemoved i name) v w) ∧
    (∀ p x xs, OuterAt v p x → HasShard x xs → xs[i]? ≠ some name → ∃ e, removeAxisTree v i params = .error e) ∧
    (∀ e, removeAxisTree v i params = .error e → ∃ p x xs, OuterAt v p x ∧ HasShard x xs ∧
      ((e = .indexError ∧ xs.length ≤ i) ∨ (e = .assertionError ∧ ∃ y, xs[i]? = some y ∧ y ≠ name))) := by
  have hn' : dget params kPartitionName = some name := hn
  have hwf : ∀ p x, OuterAt v p x → NodeObj x → WFContainer x := fun p x hx => hc.wf h hx.1
  have hrm : removeAxisTree v i params = treeMapUntil isNodeObj (removeAxisLeaf (i : Int) name) v := by simp [removeAxisTree, hn']
  have hok : (∀ p x xs, OuterAt v p x → HasShard x xs → xs[i]? = some name) →
      ∃ w, removeAxisTree v i params = .ok w ∧ NodesMapped (ShardRemoved i name) v w := by
    intro hall
    obtain ⟨w, h1, h2⟩ := treeMapUntil_ok (f := removeAxisLeaf (i : Int) name) h (fun x y => removeAxisLeaf_plain) (fun p x hx => by
      cases hs : shardingOf x with
      | none => exact ⟨x, by simp [removeAxisLeaf, hs]⟩
      | some xs =>
        refine ⟨withSharding x (xs.eraseIdx i), (removeAxisLeaf_spec (hwf p x hx)).2 ⟨fun ys hy => ?_, fun hno => ?_⟩⟩
        · have := hasShard_iff.1 hy
          rw [hs] at this; cases this
          exact ⟨hall p x xs hx hy, rfl⟩
        · exact absurd (hasShard_iff.2 hs) (hno xs))
    exact ⟨w, by rw [hrm, h1], h2.mono fun x y ⟨⟨p, hp⟩, hy⟩ => (removeAxisLeaf_spec (hwf p x hp)).1 hy⟩
  have herr : ∀ e, removeAxisTree v i params = .error e → ∃ p x xs, OuterAt v p x ∧ HasShard x xs ∧
      ((e = .indexError ∧ xs.length ≤ i) ∨ (e = .assertionError ∧ ∃ y, xs[i]? = some y ∧ y ≠ name)) := by
    intro e he
    rw [hrm] at he
    obtain ⟨p, x, hx, hf⟩ := treeMapUntil_error h (fun x y => removeAxisLeaf_plain) he
    unfold removeAxisLeaf at hf
    cases hs : shardingOf x with
    | none => simp [hs] at hf
    | some xs =>
      refine ⟨p, x, xs, hx, hasShard_iff.2 hs, ?_⟩
      simp only [hs, pyPop_nat] at hf
      cases hxi : xs[i]? with
      | none =>
        simp only [hxi, Option.map_none, Except.error.injEq] at hf
        exact Or.inl ⟨hf.symm, List.getElem?_eq_none_iff.1 hxi⟩
      | some y =>
        simp only [hxi, Option.map_some] at hf
        split at hf
        · rw [replace_sharding (hwf p x hx (shardingOf_node hs)) hs] at hf; simp at hf
        · next hne => exact Or.inr ⟨(Except.error.inj hf).symm, y, rfl, hne⟩
  refine ⟨hok, ?_, herr⟩
  intro p x xs hx hs hne
  rw [hrm]
  obtain ⟨zs, t, hsp⟩ := outerSpec h
  have hmem := (hsp.mem x).2 ⟨p, hx⟩
  simp only [treeMapUntil, hsp.flat]
  cases hy : allOk (zs.map (removeAxisLeaf (i : Int) name)) with
  | error e => exact ⟨e, rfl⟩
  | ok ys =>
    obtain ⟨j, hj⟩ := List.getElem?_of_mem hmem
    obtain ⟨y, _, hfy⟩ := (allOk_map_ok hy).2 j x hj
    exact absurd (((removeAxisLeaf_spec (hwf p x hx)).1 hfy).1 xs hs).1 hne

/-- **C122.** Without "partition_name" both raise ValueError. -/
theorem C122_no_name (v : PyVal α) (i : Int) (params : Md α) (h : dget params (py! "partition_name") = none) :
    addAxisTree v i params = .error .valueError ∧ removeAxisTree v i params = .error .valueError := by
  have h' : dget params kPartitionName = none := h
  simp [addAxisTree, removeAxisTree, h']

omit [DecidableEq α] in
theorem grow_shrink {i : Nat} {name : PyVal α} {xs : List (PyVal α)} (h : i ≤ xs.length) :
    (grow i name xs)[i]? = some name ∧ (grow i name xs).eraseIdx i = xs := by
  have h0 : i - xs.length = 0 := by omega
  have hl : (xs.take i).length = i := by simp; omega
  simp only [grow, h0, List.replicate_zero, List.append_nil]
  constructor
  · rw [List.getElem?_append_right (by omega), hl]; simp
  · rw [List.eraseIdx_append_of_length_le (by omega), hl]; simp

/-- **C122.** Removing an axis undoes adding it: every outermost Node and every leaf is the same again, and so is everything around them, if the
shardings are long enough. -/
theorem C122_remove_add {v : PyVal α} (h : GoodTree v) (hc : NodeClasses v) (i : Nat) {params : Md α} {name : PyVal α}
    (hn : dget params (py! "partition_name") = some name) (hlen : ∀ p x xs, OuterAt v p x → HasShard x xs → i ≤ xs.length) :
    ∃ w u, addAxisTree v i params = .ok w ∧ removeAxisTree w i params = .ok u ∧ NodesMapped (fun x y => y = x) v u := by
  have hn' : dget params kPartitionName = some name := hn
  have hwf : ∀ p x, OuterAt v p x → NodeObj x → WFContainer x := fun p x hx => hc.wf h hx.1
  obtain ⟨xs, t, hs⟩ := outerSpec h
  let g : PyVal α → PyVal α := fun x => match shardingOf x with
    | some ss => withSharding x (grow i name ss)
    | none => x
  have hadd : ∀ x ∈ xs, addAxisLeaf (i : Int) name x = .ok (g x) := by
    intro x hx
    obtain ⟨p, hp⟩ := (hs.mem x).1 hx
    rw [addAxisLeaf_ok i name x (fun ss hss => hwf p x hp (shardingOf_node hss))]
    simp only [g]
    cases shardingOf x <;> simp [grow_eq]
  have hrem : ∀ x ∈ xs, removeAxisLeaf (i : Int) name (g x) = .ok x := by
    intro x hx
    obtain ⟨p, hp⟩ := (hs.mem x).1 hx
    simp only [g]
    cases hss : shardingOf x with
    | none => simp [removeAxisLeaf, hss]
    | some ss =>
      have hw := hwf p x hp (shardingOf_node hss)
      obtain ⟨g1, g2⟩ := grow_shrink (name := name) (hlen p x ss hp (hasShard_iff.2 hss))
      have hsh : shardingOf (withSharding x (grow i name ss)) = some (grow i name ss) := shardingOf_withSharding hss _
      simp only
      rw [removeAxisLeaf, hsh]
      simp only [pyPop_nat, g1, Option.map_some, if_true, g2]
      rw [replace_sharding (withSharding_wf hw hss _) hsh, withSharding_twice, withSharding_self hss]
  have hmapAdd : allOk (xs.map (addAxisLeaf (i : Int) name)) = .ok (xs.map g) := by
    clear hs hrem
    induction xs with
    | nil => rfl
    | cons x xs ih =>
      simp only [List.map_cons, hadd x (by simp), allOk, ih (fun y hy => hadd y (by simp [hy]))]
  have hmapRem : allOk ((xs.map g).map (removeAxisLeaf (i : Int) name)) = .ok xs := by
    clear hs hadd hmapAdd
    induction xs with
    | nil => rfl
    | cons x xs ih =>
      simp only [List.map_cons, hrem x (by simp), allOk, ih (fun y hy => hrem y (by simp [hy]))]
  have hzip : ∀ {l : List (PyVal α)} {x y : PyVal α}, (x, y) ∈ l.zip (l.map g) → x ∈ l ∧ y = g x := by
    intro l x y hm
    rw [List.zip_map_right, List.mem_map] at hm
    obtain ⟨⟨a, b⟩, hab, e⟩ := hm
    cases e
    have hb : b = a := mem_zip_same hab
    exact ⟨(List.of_mem_zip hab).1, by simp [hb]⟩
  obtain ⟨w, hw, _, hfl⟩ := hs.unflatten (xs.map g) [] (by simp) (fun x y hm hx => by
    obtain ⟨_, rfl⟩ := hzip hm
    simp only [g]
    split
    · exact withSharding_plain _ hx
    · exact hx)
  have hflat := hfl (fun x y hm hx => by
    obtain ⟨_, rfl⟩ := hzip hm
    simp only [g]
    split
    · rw [withSharding_isNode]; exact hx
    · exact hx) (fun y hy => by
    obtain ⟨x, hx, rfl⟩ := List.mem_map.1 hy
    obtain ⟨p, hp⟩ := (hs.mem x).1 hx
    simp only [g]
    split
    · next ss hss => exact .inl ((withSharding_node _).2 (shardingOf_node hss))
    · exact hp.2.1)
  obtain ⟨u, hu, hmu, _⟩ := hs.unflatten xs [] rfl (fun x y hm hx => by
    rw [mem_zip_same hm]; exact hx)
  rw [List.append_nil] at hw hu
  refine ⟨w, u, ?_, ?_, hmu.mono fun x y hm => ?_⟩
  · simp [addAxisTree, hn', treeMapUntil, hs.flat, hmapAdd, treeUnflatten, hw]
  · simp only [removeAxisTree, hn', treeMapUntil, hflat, hmapRem, treeUnflatten, hu]
  · exact mem_zip_same hm

omit [DecidableEq α] in
theorem partitionSpecOf_spec (hasShape : PyVal α → Bool) (mk : List (PyVal α) → PyVal α) (x : PyVal α) :
    SpecFor hasShape mk x ((partitionSpecOf hasShape x).elim .none mk) := by
  have hif : ∀ b : Bool, ((if b then some [] else none : Option (List (PyVal α))).elim PyVal.none mk) = if b then mk [] else .none := by
    intro b; cases b <;> rfl
  refine ⟨fun xs hx hne => ?_, fun c v m e hc hno => ?_, fun hno => ?_⟩
  · have h := hasShard_iff.1 hx
    obtain ⟨c, v, m, rfl, hc, _⟩ := shardingOf_some h
    cases xs with
    | nil => exact absurd rfl hne
    | cons y ys => simp [partitionSpecOf, hc, h]
  · subst e
    simp only [hasShard_iff] at hno
    cases h : shardingOf (.cont c v m) with
    | none => simp only [partitionSpecOf, hc, if_true, h]; exact hif _
    | some xs =>
      cases hno xs h
      simp only [partitionSpecOf, hc, if_true, h]; exact hif _
  · cases x with
    | cont c v m =>
      have hc : c.isSub cNode = false := by
        cases hc : c.isSub cNode with
        | false => rfl
        | true => exact absurd ⟨c, v, m, rfl, hc⟩ hno
      simp only [partitionSpecOf, hc, Bool.false_eq_true, if_false]; exact hif _
    | _ => exact hif _

/-- **C122.** `get_partition_spec` of a tree is the tree with every outermost Node, and every leaf that is not in a Node, replaced by its
PartitionSpec; everything else is as it was. -/
theorem C122_partition_spec (hasShape : PyVal α → Bool) (mk : List (PyVal α) → PyVal α) (hmk : ∀ xs, (mk xs).Plain) {v : PyVal α} (h : GoodTree v) :
    ∃ w, partitionSpecTree hasShape mk v = .ok w ∧ NodesMapped (SpecFor hasShape mk) v w := by
  obtain ⟨w, h1, h2⟩ := treeMapUntil_ok (f := fun x => .ok ((partitionSpecOf hasShape x).elim .none mk)) h
    (fun x y hxy _ => by
      cases hxy
      cases partitionSpecOf hasShape x with
      | none => trivial
      | some xs => exact hmk xs) (fun p x _ => ⟨_, rfl⟩)
  exact ⟨w, h1, h2.mono fun x y ⟨_, hy⟩ => by cases hy; exact partitionSpecOf_spec hasShape mk x⟩

/-! ### States -/

theorem outerState {s : State (PyVal α)} (h : TreeState s) :
    ∃ xs ts, OuterKids s.flatten.1 xs ts ∧ stateFlattenUntil isNodeObj s = .ok (xs, (s.keys, ts)) := by
  obtain ⟨xs, ts, hs⟩ := outerKids (kids := s.flatten.1) (fun x hx => by
    obtain ⟨kv, hm, rfl⟩ := List.mem_map.1 hx
    exact outerSpec (h.good kv.1 kv.2 (mem_dget h.nodup hm)))
  refine ⟨xs, ts, hs, ?_⟩
  obtain ⟨rs, h1, rfl, rfl⟩ := hs.flat
  simp only [stateFlattenUntil, h1]
  rfl

omit [DecidableEq α] in
theorem state_value {s : State (PyVal α)} (hn : DNodup s.mapping) {v : PyVal α} : v ∈ s.flatten.1 ↔ ∃ k, s.get k = some v := by
  constructor
  · intro hm
    obtain ⟨kv, hm', rfl⟩ := List.mem_map.1 hm
    exact ⟨kv.1, mem_dget hn hm'⟩
  · rintro ⟨k, hk⟩
    exact List.mem_map.2 ⟨(k, v), dget_mem hk, rfl⟩

/-- Either `f` raises for some outermost Node or leaf, or it returns for all of them and they are replaced. -/
theorem stateMapUntil_core {f : PyVal α → Except Err (PyVal α)} {s : State (PyVal α)} (h : TreeState s) (hk : ∀ x y, f x = .ok y → x.Plain → y.Plain) :
    (∃ k v p x e, s.get k = some v ∧ OuterAt v p x ∧ f x = .error e ∧ stateMapUntil isNodeObj f s = .error e) ∨
    ((∀ k v p x, s.get k = some v → OuterAt v p x → ∃ y, f x = .ok y) ∧
      ∃ s', stateMapUntil isNodeObj f s = .ok s' ∧ s'.keys = s.keys ∧
      ∀ k v w, s.get k = some v → s'.get k = some w →
        NodesMapped (fun x y => (∃ k' v' p, s.get k' = some v' ∧ OuterAt v' p x) ∧ f x = .ok y) v w) := by
  obtain ⟨xs, ts, hs, hflat⟩ := outerState h
  simp only [stateMapUntil, hflat]
  cases hy : allOk (xs.map f) with
  | error e =>
    obtain ⟨i, x, hx, hfx, _⟩ := allOk_map_error hy
    obtain ⟨v, hv, p, hp⟩ := (hs.mem x).1 (List.mem_of_getElem? hx)
    obtain ⟨k, hk⟩ := (state_value h.nodup).1 hv
    exact .inl ⟨k, v, p, x, e, hk, hp, hfx, rfl⟩
  | ok ys =>
    obtain ⟨hl, hxy⟩ := allOk_map_ok hy
    have hz : ∀ x y, (x, y) ∈ xs.zip ys → x ∈ xs ∧ f x = .ok y := by
      intro x y hm
      obtain ⟨i, h1, h2⟩ := mem_zip_iff.1 hm
      obtain ⟨y', h3, h4⟩ := hxy i x h1
      rw [h2] at h3; cases h3
      exact ⟨List.mem_of_getElem? h1, h4⟩
    obtain ⟨ws, h1, h2, h3, _⟩ := hs.unflatten ys [] hl (fun x y h' => hk x y (hz x y h').2)
    rw [List.append_nil] at h1
    have hkn : s.keys.Nodup := h.nodup
    have hwl : ws.length = s.keys.length := by rw [h2]; simp [State.flatten, State.items, State.keys, dkeys]
    have hun : State.unflatten s.keys ws = ⟨s.keys.zip ws⟩ := by rw [State.unflatten, dofList_of_nodup (dnodup_zip hkn ws)]
    refine .inr ⟨?_, ⟨s.keys.zip ws⟩, ?_, ?_, ?_⟩
    · intro k v p x hv hx
      obtain ⟨i, hi⟩ := List.getElem?_of_mem ((hs.mem x).2 ⟨v, (state_value h.nodup).2 ⟨k, hv⟩, p, hx⟩)
      obtain ⟨y, _, hfy⟩ := hxy i x hi
      exact ⟨y, hfy⟩
    · simp only [stateUnflatten, h1, hun]
    · exact List.map_fst_zip (by omega)
    · intro k v w hv hw
      obtain ⟨i, e1, e2⟩ := state_index hv
      have hlt : i < ws.length := by
        rw [hwl]
        exact (List.getElem?_eq_some_iff.1 e1).1
      have hwi := List.getElem?_eq_getElem hlt
      have : (⟨s.keys.zip ws⟩ : State (PyVal α)).get k = some ws[i] := dget_zip hkn e1 hwi
      rw [hw] at this
      cases this
      refine (h3 i v _ e2 hwi).mono fun x y hm => ?_
      obtain ⟨v', hv', p, hp⟩ := (hs.mem x).1 (hz x y hm).1
      obtain ⟨k', hk'⟩ := (state_value h.nodup).1 hv'
      exact ⟨⟨k', v', p, hk', hp⟩, (hz x y hm).2⟩

theorem addAxisLeaf_plain {i : Int} {name x y : PyVal α} (hxy : addAxisLeaf i name x = .ok y) (hx : x.Plain) : y.Plain := by
  have hnone : shardingOf x = none := by
    cases hs : shardingOf x with
    | none => rfl
    | some xs =>
      obtain ⟨c, v, m, rfl, _⟩ := shardingOf_some hs
      exact hx.elim
  rw [addAxisLeaf, hnone] at hxy
  cases hxy
  exact hx

/-- **C122** (States). `add_axis` succeeds on every State: the paths are the same, in the same order, and in every value each outermost Node with a
sharding gets the name inserted; everything else is as it was. -/
theorem C122_state_add {s : State (PyVal α)} (h : TreeState s) (hc : ∀ k v, s.get k = some v → NodeClasses v) (i : Nat) {params : Md α}
    {name : PyVal α} (hn : dget params (py! "partition_name") = some name) :
    ∃ s', addAxisDeep s i params = .ok s' ∧ s'.keys = s.keys ∧
      ∀ k v w, s.get k = some v → s'.get k = some w → NodesMapped (ShardAdded i name) v w := by
  have hn' : dget params kPartitionName = some name := hn
  have hwf : ∀ k v p x, s.get k = some v → OuterAt v p x → NodeObj x → WFContainer x := fun k v p x hv hx => (hc k v hv).wf (h.good k v hv) hx.1
  have hadd : addAxisDeep s i params = stateMapUntil isNodeObj (addAxisLeaf (i : Int) name) s := by simp [addAxisDeep, hn']
  rw [hadd]
  rcases stateMapUntil_core (f := addAxisLeaf (i : Int) name) h (fun x y => addAxisLeaf_plain) with ⟨k, v, p, x, e, hv, hx, hf, _⟩ | ⟨_, s', h1, h2, h3⟩
  · rw [addAxisLeaf_ok i name x fun xs hs => hwf k v p x hv hx (shardingOf_node hs)] at hf
    cases hf
  · exact ⟨s', h1, h2, fun k v w hv hw => (h3 k v w hv hw).mono fun x y ⟨⟨k', v', p, hv', hp⟩, hy⟩ =>
      (addAxisLeaf_spec (hwf k' v' p x hv' hp)).1 hy⟩

/-- **C122** (States). `remove_axis` succeeds exactly if every outermost Node with a sharding, in every value, has the name at the position. -/
theorem C122_state_remove {s : State (PyVal α)} (h : TreeState s) (hc : ∀ k v, s.get k = some v → NodeClasses v) (i : Nat) {params : Md α}
    {name : PyVal α} (hn : dget params (py! "partition_name") = some name) :
    ((∃ s', removeAxisDeep s i params = .ok s') ↔
      ∀ k v p x xs, s.get k = some v → OuterAt v p x → HasShard x xs → xs[i]? = some name) ∧
    (∀ s', removeAxisDeep s i params = .ok s' → s'.keys = s.keys ∧
      ∀ k v w, s.get k = some v → s'.get k = some w → NodesMapped (ShardRemoved i name) v w) := by
  have hn' : dget params kPartitionName = some name := hn
  have hwf : ∀ k v p x, s.get k = some v → OuterAt v p x → NodeObj x → WFContainer x := fun k v p x hv hx => (hc k v hv).wf (h.good k v hv) hx.1
  have hrm : removeAxisDeep s i params = stateMapUntil isNodeObj (removeAxisLeaf (i : Int) name) s := by simp [removeAxisDeep, hn']
  rw [hrm]
  rcases stateMapUntil_core (f := removeAxisLeaf (i : Int) name) h (fun x y => removeAxisLeaf_plain) with
    ⟨k, v, p, x, e, hv, hx, hf, he⟩ | ⟨h0, s', h1, h2, h3⟩
  · refine ⟨⟨fun ⟨s', hs'⟩ => (by rw [he] at hs'; cases hs'), fun hall => ?_⟩, fun s' hs' => by rw [he] at hs'; cases hs'⟩
    cases hs : shardingOf x with
    | none => simp [removeAxisLeaf, hs] at hf
    | some xs =>
      have hxy := (removeAxisLeaf_spec (i := i) (name := name) (x := x) (y := withSharding x (xs.eraseIdx i)) (hwf k v p x hv hx)).2
        ⟨fun ys hy => by
          have := hasShard_iff.1 hy
          rw [hs] at this; cases this
          exact ⟨hall k v p x xs hv hx hy, rfl⟩, fun hno => absurd (hasShard_iff.2 hs) (hno xs)⟩
      rw [hf] at hxy; cases hxy
  · refine ⟨⟨fun _ k v p x xs hv hx hs => ?_, fun _ => ⟨s', h1⟩⟩, fun s'' hs'' => ?_⟩
    · obtain ⟨y, hy⟩ := h0 k v p x hv hx
      exact (((removeAxisLeaf_spec (hwf k v p x hv hx)).1 hy).1 xs hs).1
    · rw [h1] at hs''; cases hs''
      exact ⟨h2, fun k v w hv hw => (h3 k v w hv hw).mono fun x y ⟨⟨k', v', p, hv', hp⟩, hy⟩ => (removeAxisLeaf_spec (hwf k' v' p x hv' hp)).1 hy⟩

theorem mapExcept_eq_allOk {X Y : Type} (f : X → Except Err Y) (l : List X) : mapExcept f l = allOk (l.map f) := by
  induction l with
  | nil => rfl
  | cons x l ih =>
    simp only [mapExcept, List.map_cons, ih]
    cases f x <;> rfl

theorem unflattenAll_leaves (xs : List (PyVal α)) : unflattenAll (xs.map fun _ => (TreeDef.leaf : TreeDef α)) xs = .ok (xs, []) := by
  induction xs with
  | nil => simp [unflattenAll]
  | cons x xs ih => simp only [List.map_cons, unflattenAll, unflattenFrom, ih]

/-- Where every value is a Node or a leaf, looking inside the values finds nothing more: the functions of Model/Spmd.lean are the same. -/
theorem stateMapUntil_flat (f : PyVal α → Except Err (PyVal α)) {s : State (PyVal α)} (h : ∀ v ∈ s.flatten.1, NodeObj v ∨ TreeLeaf v) :
    stateMapUntil isNodeObj f s = s.treeMapExcept f := by
  have h1 : allOk (s.flatten.1.map (treeFlattenUntil isNodeObj)) = .ok (s.flatten.1.map fun v => ([v], .leaf)) := by
    generalize s.flatten.1 = l at h
    induction l with
    | nil => rfl
    | cons v l ih => simp only [List.map_cons, flattenUntil_outer (h v (by simp)), allOk, ih fun v hv => h v (by simp [hv])]
  have h2 : (s.flatten.1.map fun v => (([v], .leaf) : List (PyVal α) × TreeDef α)).flatMap (·.1) = s.flatten.1 := by
    simp [List.flatMap_map]
  have h3 : (s.flatten.1.map fun v => (([v], .leaf) : List (PyVal α) × TreeDef α)).map (·.2) = s.flatten.1.map fun _ => .leaf := by
    simp [List.map_map, Function.comp_def]
  simp only [stateMapUntil, stateFlattenUntil, h1, h2, h3, State.treeMapExcept, mapExcept_eq_allOk]
  cases hy : allOk (s.flatten.1.map f) with
  | error e => rfl
  | ok ys =>
    have hl : (s.flatten.1.map fun _ => (TreeDef.leaf : TreeDef α)) = ys.map fun _ => .leaf := by
      rw [List.map_const', List.map_const', (allOk_map_ok hy).1]
    simp only [stateUnflatten, hl, unflattenAll_leaves]

/-- **C122.** For a State of Nodes and leaves the two descriptions of the code agree. -/
theorem C122_flat {s : State (PyVal α)} (h : ∀ k v, (k, v) ∈ s.items → NodeObj v ∨ TreeLeaf v) (i : Int) (params : Md α) :
    addAxisDeep s i params = addAxis s i params ∧ removeAxisDeep s i params = removeAxis s i params := by
  have h' : ∀ v ∈ s.flatten.1, NodeObj v ∨ TreeLeaf v := by
    intro v hv
    obtain ⟨kv, hm, rfl⟩ := List.mem_map.1 hv
    exact h kv.1 kv.2 hm
  simp only [addAxisDeep, addAxis, removeAxisDeep, removeAxis]
  cases dget params kPartitionName with
  | none => exact ⟨rfl, rfl⟩
  | some name => exact ⟨stateMapUntil_flat _ h', stateMapUntil_flat _ h'⟩

/-! Examples: a dict with a Param, a tuple of a Param and an array, and a Param whose value has a Param in it. -/

def exSharded : PyVal Nat :=
  .dict [(py! "a", exShard [.str (py! "x")]),
    (py! "b", .tup [exShard [.none, .none], .data cArray 3]),
    (py! "c", .cont cParam (.tup [exShard [.str (py! "x")]]) [(kSharding, .none)])]

example : addAxisTree exSharded 1 exPartition = .ok (.dict [(py! "a", exShard [.str (py! "x"), .str (py! "layers")]),
    (py! "b", .tup [exShard [.none, .str (py! "layers"), .none], .data cArray 3]),
    (py! "c", .cont cParam (.tup [exShard [.str (py! "x")]]) [(kSharding, .none)])]) := by decide +kernel

theorem exShard_good (xs : List (PyVal Nat)) : GoodTree (exShard xs) :=
  .cont (.mk trivial (by simp [DNodup, dkeys]) (by simp [dkeys, kSharding]) (fun h => absurd h (by decide)) (fun _ _ => ⟨_, [], rfl⟩))
    (.leaf trivial)

theorem exSharded_good : GoodTree exSharded := by
  refine .dict (by simp [DNodup, dkeys]) fun k x hk => ?_
  have hk := dget_mem hk
  simp only [List.mem_cons, List.not_mem_nil, or_false, Prod.mk.injEq] at hk
  rcases hk with ⟨-, rfl⟩ | ⟨-, rfl⟩ | ⟨-, rfl⟩
  · exact exShard_good _
  · refine .tup fun x hx => ?_
    simp only [List.mem_cons, List.not_mem_nil, or_false] at hx
    rcases hx with rfl | rfl
    · exact exShard_good _
    · exact .leaf trivial
  · refine .cont (.mk trivial (by simp [DNodup, dkeys]) (by simp [dkeys, kSharding]) (fun h => absurd h (by decide)) (fun _ _ => ⟨_, [], rfl⟩)) (.tup fun x hx => ?_)
    simp only [List.mem_cons, List.not_mem_nil, or_false] at hx
    subst hx
    exact exShard_good _

theorem exShard_sub {xs : List (PyVal Nat)} {p : List TreeKey} {x : PyVal Nat} (h : Sub (exShard xs) p x) : x = exShard xs ∨ x = .data cArray 1 := by
  cases h with
  | here => exact .inl rfl
  | value _ h => cases h; exact .inr rfl

theorem exSharded_sub {p : List TreeKey} {c : Cls} {v : PyVal Nat} {m : Md Nat} (h : Sub exSharded p (.cont c v m)) : c = cParam := by
  cases h with
  | key hk h =>
    have hk := dget_mem hk
    simp only [List.mem_cons, List.not_mem_nil, or_false, Prod.mk.injEq] at hk
    rcases hk with ⟨-, rfl⟩ | ⟨-, rfl⟩ | ⟨-, rfl⟩
    · rcases exShard_sub h with h | h <;> cases h; rfl
    · cases h with
      | item hi h =>
        have hi := List.mem_of_getElem? hi
        simp only [List.mem_cons, List.not_mem_nil, or_false] at hi
        rcases hi with rfl | rfl
        · rcases exShard_sub h with h | h <;> cases h; rfl
        · cases h
    · cases h with
      | here => rfl
      | value _ h =>
        cases h with
        | item hi h =>
          have hi := List.mem_of_getElem? hi
          simp only [List.mem_cons, List.not_mem_nil, or_false] at hi
          subst hi
          rcases exShard_sub h with h | h <;> cases h; rfl

theorem exSharded_classes : NodeClasses exSharded := fun _ _ _ _ h _ => exSharded_sub h ▸ by decide

/-- The Param in "a" and the two in "b" and "c" are the outermost Nodes; the one inside "c" is not. -/
example : OuterAt exSharded [.key (py! "a")] (exShard [.str (py! "x")]) ∧
    ¬ OuterAt exSharded [.key (py! "c"), .attr (py! "value"), .item 0] (exShard [.str (py! "x")]) := by
  refine ⟨⟨.key rfl (.here _), .inl ⟨_, _, _, rfl, by decide⟩, ?_⟩, fun h => ?_⟩
  · rintro q r z e hr hs hz
    cases q with
    | nil => cases hs; obtain ⟨_, _, _, e, _⟩ := hz; cases e
    | cons a q =>
      simp only [List.cons_append, List.cons.injEq] at e
      have := e.2.symm
      rw [List.append_eq_nil_iff] at this
      exact hr this.2
  · exact h.2.2 [.key (py! "c")] [.attr (py! "value"), .item 0] _ rfl (by simp) (.key rfl (.here _)) ⟨_, _, _, rfl, by decide⟩

example : dget exPartition (py! "partition_name") = some (.str (py! "layers")) := rfl

example : ((addAxisTree exSharded 1 exPartition).bind fun w => removeAxisTree w 1 exPartition) = .ok exSharded := by decide +kernel

example : removeAxisTree exSharded 1 exPartition = .error .indexError ∧ removeAxisTree exSharded 0 exPartition = .error .assertionError := by
  constructor <;> decide +kernel

example : partitionSpecTree (fun v => decide (v = .data cArray 3)) .tup exSharded = .ok (.dict [(py! "a", .tup [.str (py! "x")]),
    (py! "b", .tup [.tup [.none, .none], .tup []]), (py! "c", .none)]) := by decide +kernel

example : TreeState (⟨[(py! "m", exSharded)]⟩ : State (PyVal Nat)) ∧ ∀ k v, (⟨[(py! "m", exSharded)]⟩ : State (PyVal Nat)).get k = some v → NodeClasses v := by
  have h1 : ∀ k v, (⟨[(py! "m", exSharded)]⟩ : State (PyVal Nat)).get k = some v → v = exSharded := by
    intro k v hk
    have hk := dget_mem hk
    simp only [List.mem_cons, List.not_mem_nil, or_false, Prod.mk.injEq] at hk
    exact hk.2
  exact ⟨⟨by simp [DNodup, dkeys], fun k v hk => h1 k v hk ▸ exSharded_good⟩, fun k v hk => h1 k v hk ▸ exSharded_classes⟩

/-- Without looking inside the values, the Params in the dict are not found. -/
example : addAxis (⟨[(py! "m", exSharded)]⟩ : State (PyVal Nat)) 1 exPartition ≠ addAxisDeep ⟨[(py! "m", exSharded)]⟩ 1 exPartition := by
  decide +kernel

end Nnx
