import Verif.Spec.Spmd
import Verif.Proofs.Containers
import Verif.Props.State
import Verif.Props.SpmdRules
/-
C46: add_axis and remove_axis. C73: get_partition_spec.
-/
namespace Nnx
variable {α : Type} [DecidableEq α]

/-! ### One container -/

omit [DecidableEq α] in
theorem dset_append_of_mem {K V : Type} [DecidableEq K] (d e : Dict K V) (k : K) (v : V) (h : k ∈ dkeys d) :
    dset (d ++ e) k v = dset d k v ++ e := by
  induction d with
  | nil => simp [dkeys] at h
  | cons kv d ih =>
    obtain ⟨a, b⟩ := kv
    simp only [List.cons_append, dset]
    by_cases hk : a = k
    · simp [hk]
    · simp only [hk, if_false, List.cons_append]
      rw [ih]
      simpa [dkeys, Ne.symm hk] using h

theorem dset_dset_self {K V : Type} [DecidableEq K] (d : Dict K V) (k : K) (v w : V) : dset (dset d k v) k w = dset d k w := by
  induction d with
  | nil => simp [dset]
  | cons kv d ih =>
    obtain ⟨a, b⟩ := kv
    by_cases hk : a = k
    · simp [dset, hk]
    · simp [dset, hk, ih]

theorem dset_get_self {K V : Type} [DecidableEq K] (d : Dict K V) (k : K) (v : V) (h : dget d k = some v) : dset d k v = d := by
  induction d with
  | nil => simp [dget] at h
  | cons kv d ih =>
    obtain ⟨a, b⟩ := kv
    by_cases hk : a = k
    · simp only [dget, hk, if_true, Option.some.injEq] at h
      simp [dset, hk, h]
    · simp only [dget, hk, if_false] at h
      simp [dset, hk, ih h]

omit [DecidableEq α] in
theorem shardingOf_some {x : PyVal α} {xs : List (PyVal α)} (h : shardingOf x = some xs) :
    ∃ c v m, x = .cont c v m ∧ c.isSub cNode = true ∧ dget m kSharding = some (.tup xs) := by
  cases x <;> simp only [shardingOf] at h <;> try contradiction
  next c v m =>
    split at h
    · next hc =>
      split at h
      · next ys hy =>
        simp only [Option.some.injEq] at h
        subst h
        exact ⟨c, v, m, rfl, hc, hy⟩
      · simp at h
    · simp at h

omit [DecidableEq α] in
theorem shardingOf_withSharding {x : PyVal α} {xs : List (PyVal α)} (h : shardingOf x = some xs) (ys : List (PyVal α)) :
    shardingOf (withSharding x ys) = some ys := by
  obtain ⟨c, v, m, rfl, hc, hm⟩ := shardingOf_some h
  simp [withSharding, shardingOf, hc, dget_dset]

omit [DecidableEq α] in
theorem withSharding_self {x : PyVal α} {xs : List (PyVal α)} (h : shardingOf x = some xs) : withSharding x xs = x := by
  obtain ⟨c, v, m, rfl, hc, hm⟩ := shardingOf_some h
  simp [withSharding, dset_get_self m _ _ hm]

omit [DecidableEq α] in
theorem withSharding_twice (x : PyVal α) (xs ys : List (PyVal α)) : withSharding (withSharding x xs) ys = withSharding x ys := by
  cases x <;> simp [withSharding, dset_dset_self]

omit [DecidableEq α] in
theorem withSharding_wf {x : PyVal α} {xs : List (PyVal α)} (hx : WFContainer x) (h : shardingOf x = some xs) (ys : List (PyVal α)) :
    WFContainer (withSharding x ys) := by
  obtain ⟨c, v, m, rfl, hc, hm⟩ := shardingOf_some h
  cases hx with
  | mk plain nodup novalue static shardingFirst =>
    refine .mk plain (dnodup_dset nodup _ _) ?_ ?_ ?_
    · rw [mem_dkeys_dset]
      rintro (h | h)
      · revert h; decide
      · exact novalue h
    · intro hs
      rw [static hs] at hm
      simp [dget] at hm
    · intro h1 h2
      obtain ⟨x, rest, rfl⟩ := shardingFirst h1 h2
      exact ⟨.tup ys, rest, by simp [dset, kSharding]⟩

/-- `x.replace(sharding=ys)` changes the sharding only. -/
theorem replace_sharding {x : PyVal α} {xs : List (PyVal α)} (hx : WFContainer x) (h : shardingOf x = some xs) (ys : List (PyVal α)) :
    replace x [(kSharding, .tup ys)] = .ok (withSharding x ys) := by
  have hcopy := copy_wf (withSharding_wf hx h ys)
  obtain ⟨c, v, m, rfl, hc, hm⟩ := shardingOf_some h
  have hmem : kSharding ∈ dkeys m := by rw [← dget_isSome, hm]; rfl
  cases hx with
  | mk plain nodup novalue static shardingFirst =>
    have hnv : py! "value" ∉ dkeys (dset m kSharding (.tup ys)) := by
      rw [mem_dkeys_dset]
      rintro (h | h)
      · revert h; decide
      · exact novalue h
    have e1 : replaceUnwrap (.cont c v m) [(kSharding, .tup ys)] = .ok [(kSharding, .tup ys)] := by
      simp [replaceUnwrap, dget, kSharding]
    have e2 : ([(kSharding, PyVal.tup ys)] : Md α).any (fun kv => !dhas (varsOf v m) kv.1) = false := by
      simp only [List.any_cons, List.any_nil, Bool.or_false, Bool.not_eq_false', dhas, dget_isSome, varsOf, dkeys, List.map_append,
        List.mem_append]
      exact Or.inl hmem
    have e3 : dupdate (varsOf v m) [(kSharding, .tup ys)] = varsOf v (dset m kSharding (.tup ys)) := by
      simp only [dupdate, List.foldl_cons, List.foldl_nil, varsOf]
      exact dset_append_of_mem _ _ _ _ hmem
    have e4 : dget (varsOf v (dset m kSharding (.tup ys))) (py! "value") = some v := by
      rw [varsOf, dget_append, dget_eq_none.2 hnv]
      simp [dget]
    simp only [replace, e1, e2, e3, e4, Bool.false_eq_true, if_false, ddel_varsOf hnv]
    exact hcopy

/-! ### Lists -/

theorem pyInsert_nat {X : Type} (l : List X) (i : Nat) (x : X) (h : i ≤ l.length) : pyInsert l i x = l.take i ++ x :: l.drop i := by
  unfold pyInsert
  have : ¬ ((i : Int) < 0) := by omega
  simp [this, Nat.min_eq_left h]

theorem pyPop_nat {X : Type} (l : List X) (i : Nat) : pyPop l i = (l[i]?).map (fun x => (x, l.eraseIdx i)) := by
  unfold pyPop
  have : ¬ ((i : Int) < 0) := by omega
  simp only [this, if_false, Int.toNat_natCast]
  cases l[i]? <;> rfl

omit [DecidableEq α] in
theorem padTo_length (xs : List (PyVal α)) (i : Nat) : i ≤ (padTo xs i).length := by
  simp only [padTo, List.length_append, List.length_replicate]; omega

omit [DecidableEq α] in
theorem padTo_le (xs : List (PyVal α)) (i : Int) (h : i ≤ xs.length) : padTo xs i = xs := by
  have : (i - xs.length).toNat = 0 := by omega
  simp [padTo, this]

theorem pop_insert {X : Type} (l : List X) (i : Nat) (x : X) (h : i ≤ l.length) : pyPop (pyInsert l i x) i = some (x, l) := by
  rw [pyInsert_nat l i x h, pyPop_nat]
  have e : i = (l.take i).length := by simp [h]
  have e1 : (l.take i ++ x :: l.drop i)[i]? = some x := by
    conv => lhs; rw [e]
    simp [Nat.min_eq_left h]
  have e2 : (l.take i ++ x :: l.drop i).eraseIdx i = l := by
    rw [List.eraseIdx_append_of_length_le (by simp [h])]
    simp [Nat.min_eq_left h]
  rw [e1, e2]; rfl

theorem insert_pop {X : Type} {l l' : List X} {i : Nat} {x : X} (h : pyPop l i = some (x, l')) :
    i ≤ l'.length ∧ pyInsert l' i x = l := by
  rw [pyPop_nat] at h
  obtain ⟨y, hy, h⟩ := Option.map_eq_some_iff.1 h
  simp only [Prod.mk.injEq] at h
  obtain ⟨rfl, rfl⟩ := h
  obtain ⟨hlt, he⟩ := List.getElem?_eq_some_iff.1 hy
  have hle : i ≤ (l.eraseIdx i).length := by rw [List.length_eraseIdx_of_lt hlt]; omega
  refine ⟨hle, ?_⟩
  rw [pyInsert_nat _ _ _ hle, List.eraseIdx_eq_take_drop_succ]
  have e : (l.take i).length = i := by simp; omega
  have e1 : (l.take i ++ l.drop (i + 1)).take i = l.take i := by
    conv => lhs; rw [← e]
    rw [e, List.take_append_of_le_length (by omega), List.take_take, Nat.min_self]
  have e2 : (l.take i ++ l.drop (i + 1)).drop i = l.drop (i + 1) := by
    rw [List.drop_append, e, Nat.sub_self, List.drop_zero, List.drop_eq_nil_of_le (by omega), List.nil_append]
  rw [e1, e2, ← he, List.getElem_cons_drop hlt, List.take_append_drop]

/-! ### States -/

/-- Every container of the State is well formed (as all constructed containers are, C38). -/
def WFState (s : State (PyVal α)) : Prop := ∀ (k : Str) (c : Cls) (v : PyVal α) (m : Md α), s.get k = some (.cont c v m) → WFContainer (.cont c v m)

omit [DecidableEq α] in
theorem treeMapExcept_ok {f : PyVal α → Except Err (PyVal α)} {s s' : State (PyVal α)} (hs : Obtainable s)
    (h : s.treeMapExcept f = .ok s') :
    Obtainable s' ∧ s'.keys = s.keys ∧ ∀ k v, s.get k = some v → ∃ w, f v = .ok w ∧ s'.get k = some w := by
  unfold State.treeMapExcept at h
  split at h
  · simp at h
  · next ys hys =>
    obtain ⟨h1, h2⟩ := mapExcept_ok hys
    obtain ⟨hc, hm⟩ := State.unflatten_canonical hs.canonical h1
    simp only [Except.ok.injEq] at h
    subst h
    have hlen : ys.length = s.mapping.length := by simpa [State.flatten, State.items] using h1
    refine ⟨.unflatten ys hs h1, ?_, ?_⟩
    · rw [State.keys, hm, State.keys, dkeys_zip_map hlen]
    · intro k v hk
      obtain ⟨i, hi⟩ := List.getElem?_of_mem (dget_mem hk)
      have hi2 : s.flatten.1[i]? = some v := by simp [State.flatten, State.items, List.getElem?_map, hi]
      obtain ⟨w, hw, hyi⟩ := h2 i v hi2
      refine ⟨w, hw, ?_⟩
      rw [State.get, hm]
      apply mem_dget
      · have hz := hc; rw [State.Canonical, hm] at hz; exact hz.nodup
      · have : (s.keys.zip ys)[i]? = some (k, w) := by
          rw [List.getElem?_zip_eq_some]
          exact ⟨by simp [State.keys, dkeys, List.getElem?_map, hi], hyi⟩
        exact List.mem_of_getElem? this

omit [DecidableEq α] in
theorem treeMapExcept_total {f : PyVal α → Except Err (PyVal α)} {s : State (PyVal α)} (hs : Obtainable s)
    (h : ∀ k v, s.get k = some v → ∃ w, f v = .ok w) : ∃ s', s.treeMapExcept f = .ok s' := by
  unfold State.treeMapExcept
  cases hm : mapExcept f s.flatten.1 with
  | ok ys => exact ⟨_, rfl⟩
  | error e =>
    exfalso
    obtain ⟨i, a, h1, h2, -⟩ := mapExcept_error hm
    simp only [State.flatten, State.items, List.getElem?_map, Option.map_eq_some_iff] at h1
    obtain ⟨⟨k, v⟩, hi, rfl⟩ := h1
    obtain ⟨w, hw⟩ := h k v (mem_dget hs.canonical.nodup (List.mem_of_getElem? hi))
    simp only [h2] at hw
    exact absurd hw (by simp)

omit [DecidableEq α] in
theorem treeMapExcept_error {f : PyVal α → Except Err (PyVal α)} {s : State (PyVal α)} {e : Err} (hs : Obtainable s)
    (h : s.treeMapExcept f = .error e) : ∃ k v, s.get k = some v ∧ f v = .error e := by
  unfold State.treeMapExcept at h
  split at h
  · next e' hm =>
    obtain ⟨i, a, h1, h2, -⟩ := mapExcept_error hm
    simp only [State.flatten, State.items, List.getElem?_map, Option.map_eq_some_iff] at h1
    obtain ⟨⟨k, v⟩, hi, rfl⟩ := h1
    exact ⟨k, v, mem_dget hs.canonical.nodup (List.mem_of_getElem? hi), by rw [h2, Except.error.inj h]⟩
  · simp at h

omit [DecidableEq α] in
theorem get_of_keys {s s' : State (PyVal α)} (h : s'.keys = s.keys) (k : Str) : s.get k = none ↔ s'.get k = none := by
  unfold State.get
  rw [dget_eq_none, dget_eq_none]
  unfold State.keys at h
  rw [h]

omit [DecidableEq α] in
theorem grow_eq (i : Nat) (name : PyVal α) (xs : List (PyVal α)) : pyInsert (padTo xs i) i name = grow i name xs := by
  rw [pyInsert_nat _ _ _ (padTo_length xs i)]
  have e : ((i : Int) - xs.length).toNat = i - xs.length := by omega
  unfold grow padTo
  rw [e]
  congr 2
  by_cases h : i ≤ xs.length
  · simp [Nat.sub_eq_zero_of_le h]
  · rw [List.drop_append, List.drop_replicate, List.drop_eq_nil_of_le (by omega)]
    simp

theorem addAxisLeaf_ok (i : Int) (name x : PyVal α) (hx : ∀ xs, shardingOf x = some xs → WFContainer x) :
    addAxisLeaf i name x = .ok (match shardingOf x with
      | some xs => withSharding x (pyInsert (padTo xs i) i name)
      | none => x) := by
  unfold addAxisLeaf
  cases h : shardingOf x with
  | none => rfl
  | some xs => exact replace_sharding (hx xs h) h _

omit [DecidableEq α] in
theorem WFState.wf {s : State (PyVal α)} (hw : WFState s) {k : Str} {x : PyVal α} (hk : s.get k = some x) :
    ∀ xs, shardingOf x = some xs → WFContainer x := by
  intro xs h
  obtain ⟨c, v, m, rfl, -⟩ := shardingOf_some h
  exact hw k c v m hk

/-- **C46.** Without "partition_name" both raise ValueError. -/
theorem C46_no_name (s : State (PyVal α)) (i : Int) (params : Md α) (h : dget params kPartitionName = none) :
    addAxis s i params = .error .valueError ∧ removeAxis s i params = .error .valueError := by
  simp [addAxis, removeAxis, h]

/-- **C46.** `add_axis` succeeds on every State. Paths are kept; a Node with a sharding gets the name inserted at position `i`
(after filling up with None), with class, value and other metadata kept; everything else is untouched. -/
theorem C46_add {s : State (PyVal α)} (hs : Obtainable s) (hw : WFState s) (i : Nat) {params : Md α} {name : PyVal α}
    (hn : dget params kPartitionName = some name) :
    ∃ s', addAxis s i params = .ok s' ∧ Obtainable s' ∧ s'.keys = s.keys ∧ ∀ k x, s.get k = some x →
      (∀ xs, shardingOf x = some xs → s'.get k = some (withSharding x (grow i name xs))) ∧
      (shardingOf x = none → s'.get k = some x) := by
  obtain ⟨s', h⟩ := treeMapExcept_total (f := addAxisLeaf (i : Int) name) hs
    (fun k v hk => ⟨_, addAxisLeaf_ok i name v (hw.wf hk)⟩)
  obtain ⟨h1, h2, h3⟩ := treeMapExcept_ok hs h
  refine ⟨s', by simp [addAxis, hn, h], h1, h2, ?_⟩
  intro k x hk
  obtain ⟨w, hw', hk'⟩ := h3 k x hk
  rw [addAxisLeaf_ok i name x (hw.wf hk)] at hw'
  simp only [Except.ok.injEq] at hw'
  subst hw'
  constructor
  · intro xs hx; rw [hk']; simp only [hx, grow_eq]
  · intro hx; rw [hk']; simp only [hx]

omit [DecidableEq α] in
/-- **C46.** Setting a sharding changes nothing but the sharding: class, value and the other metadata stay. -/
theorem C46_only_sharding {x : PyVal α} {xs : List (PyVal α)} (h : shardingOf x = some xs) (ys : List (PyVal α)) :
    ∃ c v m m', x = .cont c v m ∧ withSharding x ys = .cont c v m' ∧ dkeys m' = dkeys m ∧ dget m' kSharding = some (.tup ys) ∧
      ∀ k, k ≠ kSharding → dget m' k = dget m k := by
  obtain ⟨c, v, m, rfl, hc, hm⟩ := shardingOf_some h
  refine ⟨c, v, m, _, rfl, rfl, ?_, by simp [dget_dset], fun k hk => by simp [dget_dset, Ne.symm hk]⟩
  have hmem : kSharding ∈ dkeys m := by rw [← dget_isSome, hm]; rfl
  clear hm h hc
  induction m with
  | nil => simp [dkeys] at hmem
  | cons kv m ih =>
    obtain ⟨a, b⟩ := kv
    simp only [dset]
    split
    · rfl
    · next hne =>
      simp only [dkeys, List.map_cons]
      congr 1
      apply ih
      simpa [dkeys, Ne.symm hne] using hmem

/-- **C46.** What `remove_axis` does when it succeeds: every Node with a sharding had the name at position `i`, and has lost it. -/
theorem C46_remove {s s' : State (PyVal α)} (hs : Obtainable s) (hw : WFState s) {i : Nat} {params : Md α} {name : PyVal α}
    (hn : dget params kPartitionName = some name) (h : removeAxis s i params = .ok s') :
    Obtainable s' ∧ s'.keys = s.keys ∧ ∀ k x, s.get k = some x →
      (∀ xs, shardingOf x = some xs → xs[i]? = some name ∧ s'.get k = some (withSharding x (xs.eraseIdx i))) ∧
      (shardingOf x = none → s'.get k = some x) := by
  simp only [removeAxis, hn] at h
  obtain ⟨h1, h2, h3⟩ := treeMapExcept_ok hs h
  refine ⟨h1, h2, ?_⟩
  intro k x hk
  obtain ⟨w, hw', hk'⟩ := h3 k x hk
  unfold removeAxisLeaf at hw'
  constructor
  · intro xs hx
    simp only [hx, pyPop_nat] at hw'
    cases hxi : xs[i]? with
    | none => simp [hxi] at hw'
    | some y =>
      simp only [hxi, Option.map_some] at hw'
      split at hw'
      · next hy =>
        rw [replace_sharding (hw.wf hk xs hx) hx] at hw'
        simp only [Except.ok.injEq] at hw'
        exact ⟨by rw [hy], by rw [hk', hw']⟩
      · simp at hw'
  · intro hx
    simp only [hx, Except.ok.injEq] at hw'
    rw [hk', hw']

/-- **C46.** `remove_axis` succeeds exactly if every Node with a sharding has the name at position `i`. -/
theorem C46_remove_iff {s : State (PyVal α)} (hs : Obtainable s) (hw : WFState s) {i : Nat} {params : Md α} {name : PyVal α}
    (hn : dget params kPartitionName = some name) :
    (∃ s', removeAxis s i params = .ok s') ↔ ∀ k x xs, s.get k = some x → shardingOf x = some xs → xs[i]? = some name := by
  constructor
  · rintro ⟨s', h⟩ k x xs hk hx
    exact (((C46_remove hs hw hn h).2.2 k x hk).1 xs hx).1
  · intro h
    simp only [removeAxis, hn]
    apply treeMapExcept_total hs
    intro k x hk
    unfold removeAxisLeaf
    cases hx : shardingOf x with
    | none => exact ⟨x, rfl⟩
    | some xs =>
      have := h k x xs hk hx
      simp only [pyPop_nat, this, Option.map_some, if_true]
      exact ⟨_, replace_sharding (hw.wf hk xs hx) hx _⟩

omit [DecidableEq α] in
theorem WFState.add {s s' : State (PyVal α)} (hw : WFState s) (hkeys : s'.keys = s.keys)
    (h : ∀ k x, s.get k = some x → s'.get k = some x ∨ ∃ xs ys, shardingOf x = some xs ∧ s'.get k = some (withSharding x ys)) :
    WFState s' := by
  intro k c v m hk
  cases hx : s.get k with
  | none => rw [(get_of_keys hkeys k).1 hx] at hk; simp at hk
  | some x =>
    rcases h k x hx with h | ⟨xs, ys, h1, h2⟩
    · rw [hk] at h
      simp only [Option.some.injEq] at h
      exact hw k c v m (by rw [hx, h])
    · rw [hk] at h2
      simp only [Option.some.injEq] at h2
      rw [h2]
      exact withSharding_wf (hw.wf hx xs h1) h1 ys

/-- **C46, in general.** For an index `i ≥ 0`, `remove_axis` after `add_axis` succeeds and gives back the State, except that
shardings shorter than `i` have been filled up with None to length `i`. -/
theorem C46_remove_add {s : State (PyVal α)} (hs : Obtainable s) (hw : WFState s) (i : Nat) {params : Md α} {name : PyVal α}
    (hn : dget params kPartitionName = some name) :
    ∃ s' s'', addAxis s i params = .ok s' ∧ removeAxis s' i params = .ok s'' ∧ Obtainable s'' ∧ s''.keys = s.keys ∧
      ∀ k x, s.get k = some x →
        (∀ xs, shardingOf x = some xs → s''.get k = some (withSharding x (xs ++ List.replicate (i - xs.length) .none))) ∧
        (shardingOf x = none → s''.get k = some x) := by
  obtain ⟨s', ha, ho, hk, hv⟩ := C46_add hs hw i hn
  have hw' : WFState s' := by
    apply hw.add hk
    intro k x hx
    cases hsh : shardingOf x with
    | none => exact Or.inl ((hv k x hx).2 hsh)
    | some xs => exact Or.inr ⟨xs, _, rfl, (hv k x hx).1 xs hsh⟩
  have hback : ∀ k y, s'.get k = some y → ∃ x, s.get k = some x := by
    intro k y hy
    cases hx : s.get k with
    | none => rw [(get_of_keys hk k).1 hx] at hy; simp at hy
    | some x => exact ⟨x, rfl⟩
  have hpop : ∀ xs : List (PyVal α), pyPop (grow i name xs) i = some (name, xs ++ List.replicate (i - xs.length) .none) := by
    intro xs
    have e : ((i : Int) - xs.length).toNat = i - xs.length := by omega
    rw [← grow_eq, pop_insert _ _ _ (padTo_length xs i), padTo, e]
  have hgi : ∀ xs : List (PyVal α), (grow i name xs)[i]? = some name ∧ (grow i name xs).eraseIdx i = xs ++ List.replicate (i - xs.length) .none := by
    intro xs
    have := hpop xs
    rw [pyPop_nat] at this
    obtain ⟨y, hy, e⟩ := Option.map_eq_some_iff.1 this
    simp only [Prod.mk.injEq] at e
    exact ⟨e.1 ▸ hy, e.2⟩
  obtain ⟨s'', hr⟩ := (C46_remove_iff ho hw' (i := i) hn).2 (by
    intro k y ys hy hys
    obtain ⟨x, hx⟩ := hback k y hy
    cases hsh : shardingOf x with
    | none =>
      rw [(hv k x hx).2 hsh] at hy
      simp only [Option.some.injEq] at hy
      rw [hy, hys] at hsh; simp at hsh
    | some xs =>
      rw [(hv k x hx).1 xs hsh] at hy
      simp only [Option.some.injEq] at hy
      rw [← hy, shardingOf_withSharding hsh] at hys
      simp only [Option.some.injEq] at hys
      rw [← hys]; exact (hgi xs).1)
  obtain ⟨ho2, hk2, hv2⟩ := C46_remove ho hw' hn hr
  refine ⟨s', s'', ha, hr, ho2, hk2.trans hk, ?_⟩
  intro k x hx
  constructor
  · intro xs hsh
    have h1 := (hv k x hx).1 xs hsh
    have h2 := ((hv2 k _ h1).1 _ (shardingOf_withSharding hsh _)).2
    rw [h2, withSharding_twice, (hgi xs).2]
  · intro hsh
    exact (hv2 k x ((hv k x hx).2 hsh)).2 hsh

/-- **C46, partial: 0 ≤ i ≤ the length of every sharding.** `remove_axis` after `add_axis` gives back the State. It is false for
shorter shardings (`C46_short_counterexample`) and for negative indices (`C46_negative_counterexample`). -/
theorem C46_remove_add_partial {s : State (PyVal α)} (hs : Obtainable s) (hw : WFState s) (i : Nat) {params : Md α} {name : PyVal α}
    (hn : dget params kPartitionName = some name)
    (hlong : ∀ k x xs, s.get k = some x → shardingOf x = some xs → i ≤ xs.length) :
    ∃ s', addAxis s i params = .ok s' ∧ removeAxis s' i params = .ok s := by
  obtain ⟨s', s'', h1, h2, ho, hk, hv⟩ := C46_remove_add hs hw i hn
  refine ⟨s', h1, ?_⟩
  rw [h2]
  congr 1
  apply ho.canonical.ext hs.canonical
  intro k
  cases hx : s.get k with
  | none => exact (get_of_keys hk k).1 hx
  | some x =>
    cases hsh : shardingOf x with
    | none => exact (hv k x hx).2 hsh
    | some xs =>
      rw [(hv k x hx).1 xs hsh, Nat.sub_eq_zero_of_le (hlong k x xs hx hsh)]
      simp [withSharding_self hsh]

/-- **C46, partial: index ≥ 0.** `add_axis` after a successful `remove_axis` gives back the State. For negative indices it is false
(`C46_negative_counterexample`). -/
theorem C46_add_remove_partial {s s' : State (PyVal α)} (hs : Obtainable s) (hw : WFState s) (i : Nat) {params : Md α} {name : PyVal α}
    (hn : dget params kPartitionName = some name) (h : removeAxis s i params = .ok s') : addAxis s' i params = .ok s := by
  obtain ⟨ho, hk, hv⟩ := C46_remove hs hw hn h
  have hw' : WFState s' := by
    apply hw.add hk
    intro k x hx
    cases hsh : shardingOf x with
    | none => exact Or.inl ((hv k x hx).2 hsh)
    | some xs => exact Or.inr ⟨xs, _, rfl, ((hv k x hx).1 xs hsh).2⟩
  obtain ⟨s'', ha, ho2, hk2, hv2⟩ := C46_add ho hw' i hn
  rw [ha]
  congr 1
  apply ho2.canonical.ext hs.canonical
  intro k
  cases hx : s.get k with
  | none => exact (get_of_keys hk2 k).1 ((get_of_keys hk k).1 hx)
  | some x =>
    cases hsh : shardingOf x with
    | none => exact (hv2 k x ((hv k x hx).2 hsh)).2 hsh
    | some xs =>
      obtain ⟨h1, h2⟩ := (hv k x hx).1 xs hsh
      rw [(hv2 k _ h2).1 _ (shardingOf_withSharding hsh _), withSharding_twice, ← grow_eq]
      have hp : pyPop xs i = some (name, xs.eraseIdx i) := by rw [pyPop_nat, h1]; rfl
      obtain ⟨hle, he⟩ := insert_pop hp
      rw [padTo_le _ _ (by exact_mod_cast hle), he, withSharding_self hsh]

/-- **C46.** `remove_axis` fails only with IndexError (a sharding too short) or AssertionError (another name there). -/
theorem C46_remove_error {s : State (PyVal α)} (hs : Obtainable s) (hw : WFState s) {i : Nat} {params : Md α} {name : PyVal α}
    (hn : dget params kPartitionName = some name) {e : Err} (h : removeAxis s i params = .error e) :
    ∃ k x xs, s.get k = some x ∧ shardingOf x = some xs ∧
      ((e = .indexError ∧ xs.length ≤ i) ∨ (e = .assertionError ∧ ∃ y, xs[i]? = some y ∧ y ≠ name)) := by
  simp only [removeAxis, hn] at h
  obtain ⟨k, x, hk, hf⟩ := treeMapExcept_error hs h
  unfold removeAxisLeaf at hf
  cases hsh : shardingOf x with
  | none => simp [hsh] at hf
  | some xs =>
    refine ⟨k, x, xs, hk, hsh, ?_⟩
    simp only [hsh, pyPop_nat] at hf
    cases hxi : xs[i]? with
    | none =>
      simp only [hxi, Option.map_none, Except.error.injEq] at hf
      exact Or.inl ⟨hf.symm, List.getElem?_eq_none_iff.1 hxi⟩
    | some y =>
      simp only [hxi, Option.map_some] at hf
      split at hf
      · rw [replace_sharding (hw.wf hk xs hsh) hsh] at hf; simp at hf
      · next hne => exact Or.inr ⟨(Except.error.inj hf).symm, y, rfl, hne⟩

/-! Examples and counterexamples -/

def exShard (xs : List (PyVal Nat)) : PyVal Nat := .cont cParam (.data cArray 1) [(kSharding, .tup xs)]

def exShState (xs : List (PyVal Nat)) : State (PyVal Nat) :=
  .new [(py! "w", exShard xs), (py! "b", .cont cParam (.data cArray 2) [(kSharding, .none)]), (py! "n", .data cArray 3)]

def exPartition : Md Nat := [(kPartitionName, .str (py! "layers"))]

example : addAxis (exShState [.str (py! "x"), .none]) 1 exPartition =
    .ok (exShState [.str (py! "x"), .str (py! "layers"), .none]) := by decide

theorem exShState_wf (xs : List (PyVal Nat)) : WFState (exShState xs) := by
  intro k c v m hk
  have hg : (exShState xs).get k = dget [(py! "w", exShard xs), (py! "b", .cont cParam (.data cArray 2) [(kSharding, .none)]), (py! "n", .data cArray 3)] k :=
    State.new_get_nodup (by simp [DNodup, dkeys]) _
  rw [hg] at hk
  have hk := dget_mem hk
  simp only [List.mem_cons, List.not_mem_nil, or_false, Prod.mk.injEq] at hk
  rcases hk with ⟨-, hk⟩ | ⟨-, hk⟩ | ⟨-, hk⟩
  · simp only [exShard, PyVal.cont.injEq] at hk
    obtain ⟨rfl, rfl, rfl⟩ := hk
    exact .mk trivial (by simp [DNodup, dkeys]) (by simp [dkeys, kSharding]) (fun h => absurd h (by decide)) (fun _ _ => ⟨_, [], rfl⟩)
  · simp only [PyVal.cont.injEq] at hk
    obtain ⟨rfl, rfl, rfl⟩ := hk
    exact .mk trivial (by simp [DNodup, dkeys]) (by simp [dkeys, kSharding]) (fun h => absurd h (by decide)) (fun _ _ => ⟨_, [], rfl⟩)
  · simp at hk

example : Obtainable (exShState [.none]) ∧ WFState (exShState [.none]) ∧ dget exPartition kPartitionName = some (.str (py! "layers")) :=
  ⟨.new _, exShState_wf _, rfl⟩

/-- The sharding `(None,)` with index 3 comes back as `(None, None, None)`. -/
theorem C46_short_counterexample : ∃ s', addAxis (exShState [.none]) 3 exPartition = .ok s' ∧
    removeAxis s' 3 exPartition = .ok (exShState [.none, .none, .none]) ∧ exShState [.none] ≠ exShState [.none, .none, .none] :=
  ⟨exShState [.none, .none, .none, .str (py! "layers")], by decide, by decide, by decide⟩

/-- With index -1 the name goes before the last entry, so removing it again raises AssertionError; and removing it from the end and
adding it again gives another sharding. -/
theorem C46_negative_counterexample :
    (∃ s', addAxis (exShState [.none]) (-1) exPartition = .ok s' ∧ removeAxis s' (-1) exPartition = .error .assertionError) ∧
    (∃ s', removeAxis (exShState [.none, .str (py! "layers")]) (-1) exPartition = .ok s' ∧
      addAxis s' (-1) exPartition = .ok (exShState [.str (py! "layers"), .none])) :=
  ⟨⟨exShState [.str (py! "layers"), .none], by decide, by decide⟩, ⟨exShState [.none], by decide, by decide⟩⟩

omit [DecidableEq α] in
/-- Every negative index into a non-empty sharding: the entry popped is the one that was there before, not the inserted name. -/
theorem C46_negative_pops_other {X : Type} (l : List X) (k : Nat) (x : X) (h0 : 0 < k) (hk : k ≤ l.length) :
    (pyPop (pyInsert l (-(k : Int)) x) (-(k : Int))).map (·.1) = l[l.length - k]? := by
  have hneg : (-(k : Int)) < 0 := by omega
  have hpos : (-(k : Int) + l.length).toNat = l.length - k := by omega
  have hlen : (pyInsert l (-(k : Int)) x).length = l.length + 1 := by
    simp only [pyInsert, hneg, if_true, hpos, List.length_append, List.length_take, List.length_cons, List.length_drop]; omega
  have hi : ¬ (-(k : Int) + ((pyInsert l (-(k : Int)) x).length : Int) < 0) := by rw [hlen]; omega
  have hi2 : (-(k : Int) + ((pyInsert l (-(k : Int)) x).length : Int)).toNat = (l.length - k) + 1 := by rw [hlen]; omega
  have hget : (pyInsert l (-(k : Int)) x)[(l.length - k) + 1]? = l[l.length - k]? := by
    simp only [pyInsert, hneg, if_true, hpos]
    have e : (l.take (l.length - k)).length = l.length - k := by simp
    rw [List.getElem?_append_right (by omega), e, show l.length - k + 1 - (l.length - k) = 0 + 1 by omega, List.getElem?_cons_succ,
      List.getElem?_drop, Nat.add_zero]
  unfold pyPop
  simp only [hneg, if_true, hi, if_false, hi2, hget]
  cases l[l.length - k]? <;> rfl

/-! ### C73 -/

omit [DecidableEq α] in
/-- **C73.** Each leaf of the result: a Node with a non-empty sharding gives that sharding as PartitionSpec; another Node gives the
empty PartitionSpec if its value has a shape, else None; any other value likewise. -/
theorem C73_get_partition_spec (hasShape : PyVal α → Bool) (s : State (PyVal α)) (hs : s.Canonical) (k : Str) :
    (getPartitionSpec hasShape s).keys = s.keys ∧
    (s.get k = none → (getPartitionSpec hasShape s).get k = none) ∧
    (∀ x xs, s.get k = some x → shardingOf x = some xs → xs ≠ [] → (getPartitionSpec hasShape s).get k = some (some xs)) ∧
    (∀ c v m, s.get k = some (.cont c v m) → c.isSub cNode = true → (shardingOf (.cont c v m) = none ∨ shardingOf (.cont c v m) = some []) →
      (getPartitionSpec hasShape s).get k = some (if hasShape v then some [] else none)) ∧
    (∀ x, s.get k = some x → (∀ c v m, x = .cont c v m → c.isSub cNode = false) →
      (getPartitionSpec hasShape s).get k = some (if hasShape x then some [] else none)) := by
  obtain ⟨_, h⟩ := State.unflatten_canonical hs (leaves := s.flatten.1.map (partitionSpecOf hasShape)) (by simp)
  have e : (getPartitionSpec hasShape s).mapping = s.mapping.map (fun kv => (kv.1, partitionSpecOf hasShape kv.2)) := by
    rw [getPartitionSpec, State.treeMap, h]
    simp only [State.keys, State.flatten, State.items]
    generalize s.mapping = d
    induction d with
    | nil => rfl
    | cons x xs ih => simpa using ih
  have hg : (getPartitionSpec hasShape s).get k = (s.get k).map (partitionSpecOf hasShape) := by
    rw [State.get, e]
    exact dget_map_val (fun _ v => partitionSpecOf hasShape v) s.mapping k
  refine ⟨by rw [State.keys, e]; simp [State.keys], ?_, ?_, ?_, ?_⟩
  · intro hn; rw [hg, hn]; rfl
  · intro x xs hx hsh hne
    rw [hg, hx, Option.map_some]
    obtain ⟨c, v, m, rfl, hc, -⟩ := shardingOf_some hsh
    cases xs with
    | nil => exact absurd rfl hne
    | cons y ys => simp only [partitionSpecOf, hc, if_true, hsh]
  · intro c v m hx hc hsh
    rw [hg, hx, Option.map_some]
    rcases hsh with hsh | hsh <;> simp only [partitionSpecOf, hc, if_true, hsh]
  · intro x hx hnc
    rw [hg, hx, Option.map_some]
    congr 1
    unfold partitionSpecOf
    split
    · next c v m => simp [hnc c v m rfl]
    · rfl

example : (getPartitionSpec (fun v => decide (v = .data cArray 2)) (exShState [.str (py! "x"), .none])).mapping =
    [(py! "b", some []), (py! "n", none), (py! "w", some [.str (py! "x"), .none])] := by decide

end Nnx
