import Verif.Proofs.ScanNamed
import Verif.Proofs.Revalue
import Verif.Props.ModuleDef
import Verif.Props.Context
import Verif.Spec.ScanInit
/-
scan_init.
-/
namespace Nnx
variable {α κ : Type}

theorem dict_ext_of_keys {V : Type} : ∀ {d e : List (Str × V)}, DNodup d → dkeys e = dkeys d → (∀ k, dget d k = dget e k) → d = e
  | [], [], _, _, _ => rfl
  | [], _ :: _, _, h, _ => by simp [dkeys] at h
  | _ :: _, [], _, h, _ => by simp [dkeys] at h
  | (k, v) :: d, (k', v') :: e, hn, hk, hg => by
    simp only [dkeys, List.map_cons, List.cons.injEq] at hk
    obtain ⟨rfl, hk⟩ := hk
    simp only [DNodup, dkeys, List.map_cons, List.nodup_cons] at hn
    have h1 := hg k'
    simp only [dget, if_true, Option.some.injEq] at h1
    subst h1
    rw [dict_ext_of_keys hn.2 hk]
    intro x
    have h2 := hg x
    simp only [dget] at h2
    split at h2
    · next hx =>
      subst hx
      have hne : ∀ d : List (Str × V), k' ∉ dkeys d → dget d k' = none := fun d h => dget_eq_none.2 h
      rw [hne d hn.1, hne e (by rw [show dkeys e = dkeys d from hk]; exact hn.1)]
    · exact h2

/-- The context the model gives to slice `i`. -/
theorem SliceCtx.eq {split : κ → Nat → Nat → κ} {o : ScanOptions α} {p : Str → Bool} {n i : Nat} {c c' : Option (PureContext κ)}
    (hp : ∀ name, p name = true ↔ o.splitRngs.Selects name) (hn : ∀ x, c = .some x → DNodup x.keys) (h : SliceCtx split o n i c c') :
    c.map (initCtx split p n i) = c' := by
  cases h with
  | none => rfl
  | @some c c' names selected others counts flags =>
    simp only [Option.map_some, Option.some.injEq]
    have hk : (initCtx split p n i c).keys = c'.keys := by
      have hnd := hn c rfl
      have hkeys : dkeys (initCtx split p n i c).keys = dkeys c.keys := by simp [initCtx, dkeys]
      refine dict_ext_of_keys (by simp only [DNodup] at hnd ⊢; rw [hkeys]; exact hnd) (names.trans hkeys.symm) ?_
      intro k
      have h1 : dget (initCtx split p n i c).keys k = (dget c.keys k).map fun v => if p k then split v n i else v := by
        simp only [initCtx]
        exact dget_map_key (fun k v => if p k then split v n i else v) c.keys k
      rw [h1]
      cases hg : dget c.keys k with
      | none =>
        symm
        rw [Option.map_none, dget_eq_none, names, ← dget_eq_none]
        exact hg
      | some key =>
        by_cases hsel : o.splitRngs.Selects k
        · rw [selected k key hg hsel, Option.map_some, if_pos ((hp k).2 hsel)]
        · rw [others k key hg hsel, Option.map_some, if_neg (fun h => hsel ((hp k).1 h))]
    cases c; cases c'
    simp only [initCtx] at hk counts flags ⊢
    simp only [hk, counts, flags]

variable [DecidableEq α]

/-- `add_axis` of one value. -/
theorem AxisAdded.add {i : Int} {name x x' : PyVal α} (h : AxisAdded i name x x') (hx : WFVal x) : addAxisLeaf i name x = .ok x' := by
  rw [addAxisLeaf_ok i name x (by
    intro xs hs
    obtain ⟨c, v, m, rfl, _⟩ := shardingOf_some hs
    exact wfVal_container hx)]
  rcases h with ⟨h, rfl⟩ | ⟨xs, n, h, rfl, rfl⟩
  · rw [h]
  · rw [h]; simp only [grow_eq]

omit [DecidableEq α] in
theorem AxisAdded.good {i : Int} {name x x' : PyVal α} (h : AxisAdded i name x x') (hx : WFVal x) (hn : x.isNode = true) :
    WFVal x' ∧ x'.isNode = true := by
  rcases h with ⟨_, rfl⟩ | ⟨xs, n, h, _, rfl⟩
  · exact ⟨hx, hn⟩
  · obtain ⟨c, v, m, rfl, _⟩ := shardingOf_some h
    exact ⟨.inr (withSharding_wf (wfVal_container hx) h _), hn⟩

omit [DecidableEq α] in
theorem AxisNamed.good {o : ScanOptions α} {i : Int} {x x' : PyVal α} (h : AxisNamed o i x x') (hx : WFVal x) (hn : x.isNode = true) :
    WFVal x' ∧ x'.isNode = true := by
  rcases h with ⟨_, rfl⟩ | ⟨_, _, h⟩
  · exact ⟨hx, hn⟩
  · exact h.good hx hn

theorem IsInit.axes' {R : Arrays α} {o : ScanOptions α} {n : Nat} {ss : Nat → State (PyVal α)} {fin : State (PyVal α)}
    (h : IsInit R o n ss fin) : ∀ k x (g : Nat) f a, (ss 0).get k = some x → o.variableAxes[g]? = some (f, a) → FirstMatch o.filters k x g →
    ∃ v v', stackVals R a ((List.range n).filterMap fun i => (ss i).get k) = some v ∧ AxisNamed o a v v' ∧ fin.get k = some v' := by
  intro k x g f a h1 h2 h3
  obtain ⟨v, v', h4, h5⟩ := h.axes k x g f a h1 h2 h3
  exact ⟨v, v', stackedVal_iff.1 h4, h5⟩

/-- The modules constructed for the slices. -/
structure Made (o : ScanOptions α) (n : Nat) (ws : Nat → World α) (ms : Nat → Loc) (ss : Nat → State (PyVal α)) (d : ModuleDef α) : Prop where
  wf : ∀ i < n, WFWorld (ws i)
  lt : ∀ i < n, ms i < (ws i).heap.length
  state : ∀ i < n, getState ((ws i).heap.length + 1) (ws i).heap (ms i) = some (ss i)
  def_ : ∀ i < n, getModuleDef ((ws i).heap.length + 1) (ws i).heap (ms i) = some d

variable {o : ScanOptions α} {n : Nat} {ws : Nat → World α} {ms : Nat → Loc} {ss : Nat → State (PyVal α)} {d : ModuleDef α}

omit [DecidableEq α] in
theorem Made.good (M : Made o n ws ms ss d) {i : Nat} (hi : i < n) {k : Str} {v : PyVal α} (h : (ss i).get k = some v) :
    WFVal v ∧ v.isNode = true := by
  obtain ⟨a, m, _, h2, h3⟩ := (state_paths (M.wf i hi).heap (M.lt i hi) (M.state i hi)).1 k v h
  exact ⟨wfVal_of_node (M.wf i hi).heap h2 h3, h3⟩

theorem le_sum (f : Nat → Nat) : ∀ n, ∃ b, ∀ i < n, f i ≤ b
  | 0 => ⟨0, nofun⟩
  | n + 1 => by
    obtain ⟨b, hb⟩ := le_sum f n
    refine ⟨max b (f n), ?_⟩
    intro i hi
    rcases Nat.lt_succ_iff_lt_or_eq.1 hi with h | rfl
    · exact Nat.le_trans (hb i h) (Nat.le_max_left _ _)
    · exact Nat.le_max_right _ _

omit [DecidableEq α] in
/-- The partition for one slice. -/
theorem Made.part (M : Made o n ws ms ss d) {i : Nat} (hi : i < n) {ts} (h1 : (ss i).partition o.filters = .ok ts) :
    ts.length = o.variableAxes.length + 2 ∧ (∀ (g : Nat) t, ts[g]? = some t → IsGroup o (ss i) g t) ∧
      ∀ fuel, (ws i).heap.length < fuel → partitionModule fuel (ws i).heap (ms i) o.filters = .ok (ts, d) := by
  have hob : Obtainable (ss i) := getState_obtainable (M.state i hi)
  obtain ⟨hlen, hfm⟩ := C01_partition_first_match hob h1
  refine ⟨by rw [hlen, filters_length], ?_, ?_⟩
  · intro g t ht
    exact ⟨(Obtainable.partition hob h1 (List.mem_of_getElem? ht)).canonical, hfm g t ht⟩
  · intro fuel hf
    obtain ⟨s', d', hpart⟩ := partition_budget (M.wf i hi) (M.lt i hi)
    obtain ⟨_, hd1, hs1⟩ := hpart _ (Nat.lt_succ_self _)
    obtain ⟨_, hd2, hs2⟩ := hpart fuel hf
    rw [M.state i hi] at hs1; cases hs1
    rw [M.def_ i hi] at hd1; cases hd1
    simp only [partitionModule, hd2, hs2]
    split
    · next h => exact absurd (congrArg List.length h) (by rw [filters_length]; simp)
    · rw [h1]

omit [DecidableEq α] in
/-- The partitions for the slices. -/
theorem Made.parts (M : Made o n ws ms ss d) (hn : 0 < n) (U : UniformInit o n ss) {ps0} (hp : (ss 0).partition o.filters = .ok ps0) :
    ∃ ps : Nat → List (State (PyVal α)), ps 0 = ps0 ∧ ∀ i < n, (ps i).length = o.variableAxes.length + 2 ∧
      (∀ (g : Nat) t, (ps i)[g]? = some t → IsGroup o (ss i) g t) ∧
      ∀ fuel, (ws i).heap.length < fuel → partitionModule fuel (ws i).heap (ms i) o.filters = .ok (ps i, d) := by
  have hob : ∀ i < n, Obtainable (ss i) := fun i hi => getState_obtainable (M.state i hi)
  have hex : ∀ i, ∃ ts, i < n → (ss i).partition o.filters = .ok ts ∧ (i = 0 → ts = ps0) := by
    intro i
    by_cases hi : i < n
    · by_cases h0 : i = 0
      · exact ⟨ps0, fun _ => ⟨by rw [h0]; exact hp, fun _ => rfl⟩⟩
      · obtain ⟨ts, hts⟩ := partition_of_matches (hob 0 hn) (hob i hi) hp (by
          intro k v hk
          have := U.paths i hi k
          rw [hk] at this
          obtain ⟨x, hx⟩ := Option.isSome_iff_exists.1 this.symm
          obtain ⟨g, ⟨t, ht, htk⟩, _⟩ := C01_partition_exactly_one (hob 0 hn) hp hx
          have := (((C01_partition_first_match (hob 0 hn) hp).2 g t ht k x).1 htk).2
          exact ⟨g, U.stays i hi k x v g hx hk this⟩)
        exact ⟨ts, fun _ => ⟨hts, fun h => absurd h h0⟩⟩
    · exact ⟨ps0, fun h => absurd h hi⟩
  choose ps hps using hex
  refine ⟨ps, (hps 0 hn).2 rfl, ?_⟩
  intro i hi
  obtain ⟨h1, _⟩ := hps i hi
  exact M.part hi h1

/-- The stacked State of one collection. -/
theorem Made.stack (M : Made o n ws ms ss d) (hn : 0 < n) (U : UniformInit o n ss) {ps : Nat → List (State (PyVal α))}
    (hps : ∀ i < n, (ps i).length = o.variableAxes.length + 2 ∧ ∀ (g : Nat) t, (ps i)[g]? = some t → IsGroup o (ss i) g t)
    {R : Arrays α} {fin : State (PyVal α)} (F : IsInit R o n ss fin) {g : Nat} {f : Filter α} {a : Int}
    (hg : o.variableAxes[g]? = some (f, a)) :
    ∃ st, stackStates R a (((List.range n).map ps).filterMap fun ts => ts[g]?) = some st ∧ st.Canonical ∧
      (∀ k v, st.get k = some v → WFVal v ∧ ∃ x, (ss 0).get k = some x ∧ FirstMatch o.filters k x g ∧
        ∃ v', AxisNamed o a v v' ∧ fin.get k = some v') ∧
      ∀ k x, (ss 0).get k = some x → FirstMatch o.filters k x g → (st.get k).isSome := by
  have hlt : g < o.variableAxes.length := (List.getElem?_eq_some_iff.1 hg).1
  -- the group of each slice
  have hgr : ∀ i, ∃ t, i < n → (ps i)[g]? = some t ∧ IsGroup o (ss i) g t := by
    intro i
    by_cases hi : i < n
    · obtain ⟨h1, h2⟩ := hps i hi
      have : (ps i)[g]? = some ((ps i)[g]'(by omega)) := List.getElem?_eq_getElem _
      exact ⟨_, fun _ => ⟨this, h2 g _ this⟩⟩
    · exact ⟨⟨[]⟩, fun h => absurd h hi⟩
  choose grp hgrp using hgr
  have hlist : (((List.range n).map ps).filterMap fun ts => ts[g]?) = (List.range n).map grp := by
    rw [List.filterMap_map, ← List.filterMap_eq_map]
    refine List.filterMap_congr ?_
    intro i hi
    exact (hgrp i (List.mem_range.1 hi)).1
  have hkeys : ∀ i < n, ∀ k, ((grp i).get k).isSome = true ↔ ∃ x, (ss 0).get k = some x ∧ FirstMatch o.filters k x g := by
    intro i hi k
    constructor
    · intro h
      obtain ⟨y, hy⟩ := Option.isSome_iff_exists.1 h
      obtain ⟨h1, h2⟩ := ((hgrp i hi).2.2 k y).1 hy
      have := U.paths i hi k
      rw [h1] at this
      obtain ⟨x, hx⟩ := Option.isSome_iff_exists.1 this.symm
      refine ⟨x, hx, ?_⟩
      rcases U.total k x hx with ⟨g', hg'⟩
      have := (U.stays i hi k x y g' hx h1 hg').unique h2
      rw [← this]; exact hg'
    · rintro ⟨x, hx, hfm⟩
      have := U.paths i hi k
      rw [hx] at this
      obtain ⟨y, hy⟩ := Option.isSome_iff_exists.1 this
      rw [((hgrp i hi).2.2 k y).2 ⟨hy, U.stays i hi k x y g hx hy hfm⟩]; rfl
  have hvals : ∀ k x, (ss 0).get k = some x → FirstMatch o.filters k x g →
      ((List.range n).map grp).filterMap (fun t => t.get k) = (List.range n).filterMap fun i => (ss i).get k := by
    intro k x hx hfm
    rw [List.filterMap_map]
    refine List.filterMap_congr ?_
    intro i hi
    have hi := List.mem_range.1 hi
    have := (hkeys i hi k).2 ⟨x, hx, hfm⟩
    obtain ⟨y, hy⟩ := Option.isSome_iff_exists.1 this
    simp only [Function.comp_apply]
    rw [hy, (((hgrp i hi).2.2 k y).1 hy).1]
  obtain ⟨m, rfl⟩ : ∃ m, n = m + 1 := ⟨n - 1, by omega⟩
  have hcons : (List.range (m + 1)).map grp = grp 0 :: (List.range m).map (grp ∘ Nat.succ) := by
    rw [List.range_succ_eq_map, List.map_cons, List.map_map]
  obtain ⟨st, hst, hc, hget⟩ := stackStates_spec (R := R) (axis := a) (s := grp 0) (ss := (List.range m).map (grp ∘ Nat.succ)) (by
      intro t ht
      rw [← hcons] at ht
      obtain ⟨i, hi, rfl⟩ := List.mem_map.1 ht
      exact (hgrp i (List.mem_range.1 hi)).2.1) (by
      intro t ht k
      obtain ⟨i, hi, rfl⟩ := List.mem_map.1 ht
      rw [Bool.eq_iff_iff, Function.comp_apply, hkeys (i + 1) (by have := List.mem_range.1 hi; omega) k, hkeys 0 hn k]) (by
      intro k hk
      obtain ⟨x, hx, hfm⟩ := (hkeys 0 hn k).1 hk
      obtain ⟨v, v', hv, _⟩ := F.axes' k x g f a hx hg hfm
      rw [← hcons, hvals k x hx hfm, hv]; rfl)
  refine ⟨st, by rw [hlist, hcons]; exact hst, hc, ?_, ?_⟩
  · intro k v hv
    rw [hget] at hv
    split at hv
    · next hk =>
      obtain ⟨x, hx, hfm⟩ := (hkeys 0 hn k).1 hk
      obtain ⟨v1, v', h1, h2, h3⟩ := F.axes' k x g f a hx hg hfm
      rw [← hcons, hvals k x hx hfm, h1] at hv
      cases hv
      refine ⟨?_, x, hx, hfm, v', h2, h3⟩
      rw [List.range_succ_eq_map, List.filterMap_cons, hx] at h1
      obtain ⟨hw, hnd⟩ := M.good hn hx
      exact (stackVals_like h1 hw hnd).1
    · cases hv
  · intro k x hx hfm
    rw [hget, if_pos ((hkeys 0 hn k).2 ⟨x, hx, hfm⟩)]
    obtain ⟨v, v', hv, _⟩ := F.axes' k x g f a hx hg hfm
    rw [← hcons, hvals k x hx hfm, hv]; rfl

/-- The State of one collection with the axis name. -/
theorem named_group {fin : State (PyVal α)} {st : State (PyVal α)} (hc : Obtainable st) {name : PyVal α}
    (hname : dget o.metadata kPartitionName = some name) {a : Int}
    (h : ∀ k v, st.get k = some v → WFVal v ∧ ∃ v', AxisNamed o a v v' ∧ fin.get k = some v') :
    ∃ t, addAxis st a o.metadata = .ok t ∧ t.Canonical ∧ (∀ k v, t.get k = some v → fin.get k = some v) ∧
      ∀ k, (t.get k).isSome = (st.get k).isSome := by
  have hleaf : ∀ k v, st.get k = some v → ∃ v', addAxisLeaf a name v = .ok v' ∧ fin.get k = some v' := by
    intro k v hk
    obtain ⟨hw, v', h1, h2⟩ := h k v hk
    rcases h1 with ⟨h1, _⟩ | ⟨name', h1, h3⟩
    · rw [hname] at h1; cases h1
    · rw [hname] at h1; cases h1
      exact ⟨v', h3.add hw, h2⟩
  obtain ⟨t, ht⟩ := treeMapExcept_total (f := addAxisLeaf a name) hc (fun k v hk => by
    obtain ⟨v', h1, _⟩ := hleaf k v hk; exact ⟨v', h1⟩)
  obtain ⟨h1, h2, h3⟩ := treeMapExcept_ok hc ht
  have hdom : ∀ k, (t.get k).isSome = (st.get k).isSome := by
    intro k
    rw [Bool.eq_iff_iff, State.get, State.get, dget_isSome, dget_isSome]
    have : dkeys t.mapping = dkeys st.mapping := h2
    rw [this]
  refine ⟨t, by simp only [addAxis, hname, ht], h1.canonical, ?_, hdom⟩
  intro k v hv
  have := hdom k
  rw [hv] at this
  obtain ⟨u, hu⟩ := Option.isSome_iff_exists.1 this.symm
  obtain ⟨v1, h4, h5⟩ := h3 k u hu
  obtain ⟨v2, h6, h7⟩ := hleaf k u hu
  rw [hv] at h5; cases h5
  rw [h4] at h6; cases h6
  exact h7

theorem mapExcept_map {X Y : Type} {f : X → Except Err Y} {g : X → Y} : ∀ {xs : List X}, (∀ x ∈ xs, f x = .ok (g x)) →
    mapExcept f xs = .ok (xs.map g)
  | [], _ => rfl
  | x :: xs, h => by
    simp only [mapExcept, h x List.mem_cons_self, mapExcept_map fun y hy => h y (List.mem_cons_of_mem _ hy), List.map_cons]

omit [DecidableEq α] in
theorem zipIdx_get {X : Type} {xs : List X} {p : X × Nat} (h : p ∈ xs.zipIdx) : xs[p.2]? = some p.1 := by
  obtain ⟨x, i⟩ := p
  have := List.mem_zipIdx_iff_getElem?.1 h
  exact this

/-- The States of all collections, stacked and named. -/
theorem Made.axes (M : Made o n ws ms ss d) (hn : 0 < n) (U : UniformInit o n ss) {ps : Nat → List (State (PyVal α))}
    (hps : ∀ i < n, (ps i).length = o.variableAxes.length + 2 ∧ ∀ (g : Nat) t, (ps i)[g]? = some t → IsGroup o (ss i) g t)
    {R : Arrays α} {fin : State (PyVal α)} (F : IsInit R o n ss fin) :
    ∃ axes axes', allSome (o.variableAxes.zipIdx.map fun fa =>
        stackStates R fa.1.2 (((List.range n).map ps).filterMap fun ts => ts[fa.2]?)) = some axes ∧
      onAxes addAxis o axes = .ok axes' ∧ (∀ t ∈ axes', t.Canonical ∧ ∀ k v, t.get k = some v → fin.get k = some v) ∧
      ∀ k x (g : Nat), (ss 0).get k = some x → FirstMatch o.filters k x g → g < o.variableAxes.length → ∃ t ∈ axes', (t.get k).isSome := by
  obtain ⟨axes, hax⟩ := allSome_exists (fun fa : (Filter α × Int) × Nat =>
      stackStates R fa.1.2 (((List.range n).map ps).filterMap fun ts => ts[fa.2]?)) o.variableAxes.zipIdx (by
    intro fa hfa
    obtain ⟨st, hst, _⟩ := M.stack hn U hps F (zipIdx_get hfa)
    rw [hst]; rfl)
  obtain ⟨hlen, hat⟩ := allSome_map_spec _ _ hax
  rw [List.length_zipIdx] at hlen
  -- one collection
  have hone : ∀ (g : Nat) st f a, axes[g]? = some st → o.variableAxes[g]? = some (f, a) → Obtainable st ∧
      (∀ k v, st.get k = some v → WFVal v ∧ ∃ v', AxisNamed o a v v' ∧ fin.get k = some v') ∧
      ∀ k x, (ss 0).get k = some x → FirstMatch o.filters k x g → (st.get k).isSome := by
    intro g st f a hst hg
    obtain ⟨st', h1, h2⟩ := hat g ((f, a), g) (by rw [List.getElem?_zipIdx, hg]; simp)
    rw [hst] at h2; cases h2
    obtain ⟨st2, h3, hc, h4, h5⟩ := M.stack hn U hps F hg
    rw [h1] at h3; cases h3
    refine ⟨by have h := Obtainable.new st.mapping; rw [State.new_of_strict hc] at h; exact h, ?_, h5⟩
    intro k v hk
    obtain ⟨hw, _, _, _, v', h6, h7⟩ := h4 k v hk
    exact ⟨hw, v', h6, h7⟩
  cases hname : dget o.metadata kPartitionName with
  | none =>
    refine ⟨axes, axes, hax, by simp [onAxes, dhas, hname], ?_, ?_⟩
    · intro t ht
      obtain ⟨g, hg⟩ := List.mem_iff_getElem?.1 ht
      have hlt := (List.getElem?_eq_some_iff.1 hg).1
      obtain ⟨h1, h2, _⟩ := hone g t _ _ hg (List.getElem?_eq_getElem (by omega))
      refine ⟨h1.canonical, ?_⟩
      intro k v hk
      obtain ⟨_, v', h3, h4⟩ := h2 k v hk
      rcases h3 with ⟨_, rfl⟩ | ⟨_, h3, _⟩
      · exact h4
      · rw [hname] at h3; cases h3
    · intro k x g hx hfm hlt
      have hst : axes[g]? = some (axes[g]'(by omega)) := List.getElem?_eq_getElem _
      exact ⟨_, List.mem_of_getElem? hst, (hone g _ _ _ hst (List.getElem?_eq_getElem hlt)).2.2 k x hx hfm⟩
  | some name =>
    have hex : ∀ g : Nat, ∃ t, ∀ st f a, axes[g]? = some st → o.variableAxes[g]? = some (f, a) → addAxis st a o.metadata = .ok t ∧ t.Canonical ∧
        (∀ k v, t.get k = some v → fin.get k = some v) ∧ ∀ k, (t.get k).isSome = (st.get k).isSome := by
      intro g
      by_cases hlt : g < axes.length
      · obtain ⟨⟨f0, a0⟩, hfa⟩ : ∃ fa, o.variableAxes[g]? = some fa := ⟨_, List.getElem?_eq_getElem (by omega)⟩
        obtain ⟨h1, h2, _⟩ := hone g _ _ _ (List.getElem?_eq_getElem hlt) hfa
        obtain ⟨t, ht⟩ := named_group h1 hname h2
        refine ⟨t, ?_⟩
        intro st f a hst hg
        rw [List.getElem?_eq_getElem hlt] at hst; cases hst
        rw [hfa] at hg; cases hg
        exact ht
      · exact ⟨⟨[]⟩, fun st f a hst => absurd (List.getElem?_eq_some_iff.1 hst).1 hlt⟩
    choose tt htt using hex
    refine ⟨axes, (List.range axes.length).map tt, hax, ?_, ?_, ?_⟩
    · simp only [onAxes, dhas, hname, Option.isSome_some, if_true]
      refine mapExcept_of (List.forall₂_iff_get.2 ⟨by simp [hlen], ?_⟩)
      intro g h1 h2
      simp only [List.length_zip, List.length_map] at h1
      have h3 : g < axes.length := by omega
      have h4 : g < o.variableAxes.length := by omega
      simp only [List.get_eq_getElem, List.getElem_zip, List.getElem_map, List.getElem_range]
      exact (htt g _ _ _ (List.getElem?_eq_getElem h3) (List.getElem?_eq_getElem h4)).1
    · intro t ht
      obtain ⟨g, hg, rfl⟩ := List.mem_map.1 ht
      have hg := List.mem_range.1 hg
      obtain ⟨_, h1, h2, _⟩ := htt g _ _ _ (List.getElem?_eq_getElem hg) (List.getElem?_eq_getElem (by omega))
      exact ⟨h1, h2⟩
    · intro k x g hx hfm hlt
      have hg : g < axes.length := by omega
      refine ⟨tt g, List.mem_map.2 ⟨g, List.mem_range.2 hg, rfl⟩, ?_⟩
      obtain ⟨_, _, _, h3⟩ := htt g _ _ _ (List.getElem?_eq_getElem hg) (List.getElem?_eq_getElem hlt)
      rw [h3]
      exact (hone g _ _ _ (List.getElem?_eq_getElem hg) (List.getElem?_eq_getElem hlt)).2.2 k x hx hfm

/-- Merging the ModuleDef of a module with other values. -/
theorem merge_revalued {w0 w : World α} (wf0 : WFWorld w0) {l : Loc} (hl : l < w0.heap.length) {s : State (PyVal α)} {f1 f2 : Nat}
    (hs : getState f1 w0.heap l = some s) (hd : getModuleDef f2 w0.heap l = some d) {fin : State (PyVal α)}
    (hc : fin.Canonical) (hk : ∀ k, (fin.get k).isSome = (s.get k).isSome) (hv : ∀ k v, fin.get k = some v → v.isNode = true ∧ WFVal v)
    {ts : List (State (PyVal α))} (hp : Pieces fin ts) (wf : WFWorld w) :
    ∃ w' r, mergeDef d ts w = (w', .ok r) ∧ (∀ fuel, w'.heap.length < fuel → partitionModule fuel w'.heap r [] = .ok ([fin], d)) ∧
      WFWorld w' ∧ r < w'.heap.length ∧ w'.jaxTrace = w.jaxTrace ∧ w'.nnxStack = w.nnxStack ∧
      (∀ a : Loc, a < w.heap.length → w'.heap[a]? = w.heap[a]?) ∧
      ∀ (a : Loc) (x : ModObj α), Reaches w'.heap r a → w'.heap[a]? = some x → w.heap.length ≤ a ∧ x.trace = w.curTrace := by
  obtain ⟨hwf, hlen, hst, hdf⟩ := revalue_spec wf0.heap hl hs hd hc hk hv
  have hl' : l < (revalue w0.heap l fin).length := by rw [hlen]; exact hl
  obtain ⟨w', f, hm, sp⟩ := mergeDef_spec hwf hl' hdf hst hp (w := w) wf.heap.conts
  have wf' : WFWorld w' := by
    refine ⟨sp.wf hwf wf.heap wf.ids, ?_⟩
    intro a x hx
    by_cases ha : a < w.heap.length
    · rw [sp.old _ ha] at hx; exact Nat.le_trans (wf.ids _ _ hx) sp.ids
    · exact (sp.fresh _ _ (Nat.le_of_not_lt ha) hx).2.1
  have hr : w.heap.length < w'.heap.length := by
    obtain ⟨x, hx, _⟩ := sp.iso.obj l _ ⟨[], .here hl'⟩ (List.getElem?_eq_getElem hl')
    rw [sp.iso.root] at hx
    exact (List.getElem?_eq_some_iff.1 hx).1
  refine ⟨w', _, hm, ?_, wf', hr, sp.jax, sp.stack, sp.old, ?_⟩
  · intro fuel hf
    obtain ⟨s1, d1, e1, e2⟩ := C24_partition_canonical hwf wf'.heap hl' hr (sp.iso.sameGraph hwf hl') (Nat.lt_succ_self _) hf
    rw [e2]
    simp only [partitionModule] at e1
    split at e1
    · next d2 s2 h1 h2 =>
      cases e1
      rw [getState_det hwf hl' h2 hst, getModuleDef_det hwf hl' h1 hdf]
    · cases e1
  · rintro a x ⟨p, hp⟩ hx
    rw [← sp.iso.root] at hp
    obtain ⟨b, rfl, _⟩ := sp.iso.walk_back hwf ⟨[], .here hl'⟩ hp
    exact ⟨sp.ge b, (sp.fresh _ _ (sp.ge b) hx).2.2⟩

end Nnx
