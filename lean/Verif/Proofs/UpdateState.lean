import Verif.Proofs.History
/-
The effect of update_state on every attribute.
-/
namespace Nnx
variable {α : Type} [DecidableEq α]

/-! ### The order of the entries -/

theorem dkeys_dset_prefix {K V : Type _} [DecidableEq K] (d : Dict K V) (k : K) (v : V) :
    ∃ t, dkeys (dset d k v) = dkeys d ++ t := by
  induction d with
  | nil => exact ⟨[k], rfl⟩
  | cons x d ih =>
    obtain ⟨k', v'⟩ := x
    obtain ⟨t, ht⟩ := ih
    by_cases h : k' = k
    · exact ⟨[], by simp [dset, h, dkeys]⟩
    · exact ⟨t, by simp only [dkeys] at ht; simp [dset, h, dkeys, ht]⟩

theorem dkeys_dupdate_prefix {K V : Type _} [DecidableEq K] (e : List (K × V)) : ∀ (d : Dict K V),
    ∃ t, dkeys (dupdate d e) = dkeys d ++ t := by
  induction e with
  | nil => intro d; exact ⟨[], by simp [dupdate]⟩
  | cons x e ih =>
    intro d
    obtain ⟨t1, h1⟩ := dkeys_dset_prefix d x.1 x.2
    obtain ⟨t2, h2⟩ := ih (dset d x.1 x.2)
    refine ⟨t1 ++ t2, ?_⟩
    rw [← List.append_assoc, ← h1, ← h2]
    rfl

omit [DecidableEq α] in
theorem dkeys_foldl_prefix (ss : List (State (PyVal α))) : ∀ (d : Dict Str (PyVal α)),
    ∃ t, dkeys (ss.foldl (fun d t => dupdate d t.items) d) = dkeys d ++ t := by
  induction ss with
  | nil => intro d; exact ⟨[], by simp⟩
  | cons x ss ih =>
    intro d
    obtain ⟨t1, h1⟩ := dkeys_dupdate_prefix x.items d
    obtain ⟨t2, h2⟩ := ih (dupdate d x.items)
    exact ⟨t1 ++ t2, by rw [← List.append_assoc, ← h1, ← h2]; rfl⟩

omit [DecidableEq α] in
/-- The entries `_update_module` assigns: first the paths of the current state, then the new ones. -/
structure UpdatePlan (s : State (PyVal α)) (us : List (State (PyVal α))) (E A B : List (Str × PyVal α)) : Prop where
  split : E = A ++ B
  nodup : DNodup E
  mem : ∀ k v, (k, v) ∈ E ↔ ((given us k).orElse fun _ => s.get k) = some v
  old : ∀ e ∈ A, (s.get e.1).isSome
  new : ∀ e ∈ B, s.get e.1 = none

omit [DecidableEq α] in
theorem updatePlan {s : State (PyVal α)} (hs : s.Canonical) {us : List (State (PyVal α))}
    (hc : ∀ t ∈ us, t.Canonical) :
    ∃ A B, UpdatePlan s us ((s :: us).foldl (fun d t => dupdate d t.items) []) A B := by
  have hn : DNodup ((s :: us).foldl (fun d t => dupdate d t.items) ([] : Dict Str (PyVal α))) :=
    foldl_dupdate_nodup _ _ (by simp [DNodup])
  have hget : ∀ k, dget ((s :: us).foldl (fun d t => dupdate d t.items) []) k =
      ((given us k).orElse fun _ => s.get k) := by
    intro k
    rw [foldl_dupdate_get _ _ (by
      intro t ht
      rcases List.mem_cons.1 ht with rfl | ht
      · exact hs.nodup
      · exact (hc t ht).nodup)]
    simp only [List.reverse_cons, List.findSome?_append, given, dget, List.findSome?_singleton]
    cases us.reverse.findSome? (fun t => t.get k) <;> simp
  obtain ⟨t, ht⟩ := dkeys_foldl_prefix us s.items
  have e0 : (s :: us).foldl (fun d t => dupdate d t.items) ([] : Dict Str (PyVal α)) =
      us.foldl (fun d t => dupdate d t.items) s.items := by
    rw [List.foldl_cons]
    congr 1
    exact dofList_of_nodup hs.nodup
  rw [← e0] at ht
  generalize (s :: us).foldl (fun d t => dupdate d t.items) ([] : Dict Str (PyVal α)) = E at *
  refine ⟨E.take s.items.length, E.drop s.items.length, (List.take_append_drop _ _).symm, hn, ?_, ?_, ?_⟩
  · intro k v; rw [← dget_iff_mem hn, hget]
  · intro e he
    have h1 : (E.take s.items.length).map (·.1) = dkeys s.items := by
      rw [List.map_take]
      have : E.map (·.1) = dkeys s.items ++ t := ht
      rw [this, List.take_append_of_le_length (by simp [dkeys])]
      apply List.take_of_length_le
      simp [dkeys]
    have : e.1 ∈ dkeys s.items := by rw [← h1]; exact List.mem_map.2 ⟨e, he, rfl⟩
    exact dget_isSome.2 this
  · intro e he
    have h1 : (E.take s.items.length).map (·.1) = dkeys s.items := by
      rw [List.map_take]
      have : E.map (·.1) = dkeys s.items ++ t := ht
      rw [this, List.take_append_of_le_length (by simp [dkeys])]
      apply List.take_of_length_le
      simp [dkeys]
    apply dget_eq_none.2
    intro hmem
    change e.1 ∈ dkeys s.items at hmem
    rw [← h1] at hmem
    have hnd := hn
    unfold DNodup dkeys at hnd
    rw [← List.take_append_drop s.items.length E, List.map_append, List.nodup_append] at hnd
    exact hnd.2.2 _ hmem _ (List.mem_map.2 ⟨e, he, rfl⟩) rfl

/-! ### Addressed attributes -/

omit [DecidableEq α] in
theorem Addresses.functional {h : Heap α} {root : Loc} {k : Str} {l l' : Loc} {n n' : Str}
    (h1 : Addresses h root k l n) (h2 : Addresses h root k l' n') : l = l' ∧ n = n' := by
  obtain ⟨p, hp, hw⟩ := h1
  obtain ⟨q, hq, hw'⟩ := h2
  rw [hp] at hq
  have := List.append_inj' hq rfl
  obtain ⟨rfl, hn⟩ := this
  exact ⟨hw.functional hw', by simpa using hn⟩

omit [DecidableEq α] in
theorem Addresses.reaches {h : Heap α} {root : Loc} {k : Str} {l : Loc} {n : Str}
    (h1 : Addresses h root k l n) : Reaches h root l := let ⟨p, _, hw⟩ := h1; ⟨p, hw⟩

omit [DecidableEq α] in
theorem state_paths {h : Heap α} (wf : WFHeap h) {root : Loc} (hroot : root < h.length) {fuel : Nat}
    {s : State (PyVal α)} (hs : getState fuel h root = some s) :
    (∀ k v, s.get k = some v → ∃ l n, Addresses h root k l n ∧ attrAt h l n = some (.val v) ∧ v.isNode = true) ∧
    (∀ k k' l n, (s.get k).isSome → (s.get k').isSome → Addresses h root k l n → Addresses h root k' l n → k = k') ∧
    (∀ l n v, Reaches h root l → attrAt h l n = some (.val v) → v.isNode = true →
      ∃ k, s.get k = some v ∧ Addresses h root k l n) := by
  obtain ⟨vs, S', dfs, hcan, hget⟩ := getState_spec wf hroot hs
  obtain ⟨hn, hr, hw, hF⟩ := dfs.complete wf isOrder_sort hroot
  have haddr : ∀ x ∈ vs, ∀ n a, attrAt h x.1 n = some a → Addresses h root (joinSlash (x.2 ++ [n])) x.1 n := by
    intro x hx n a ha
    refine ⟨x.2, ?_, hw x hx⟩
    rw [split_join (by simp)]
    intro s hs'
    rcases List.mem_append.1 hs' with h' | h'
    · exact (hw x hx).noSlash wf s h'
    · simp at h'; subst h'; exact wf.slash _ _ _ ha
  refine ⟨?_, ?_, ?_⟩
  · intro k v hk
    obtain ⟨x, hx, n, ha, hv, rfl⟩ := (hget k v).1 hk
    exact ⟨x.1, n, haddr x hx n _ ha, ha, hv⟩
  · intro k k' l n hk hk' h1 h2
    obtain ⟨v, hk⟩ := Option.isSome_iff_exists.1 hk
    obtain ⟨v', hk'⟩ := Option.isSome_iff_exists.1 hk'
    obtain ⟨x, hx, m, ha, hv, rfl⟩ := (hget k v).1 hk
    obtain ⟨x', hx', m', ha', hv', rfl⟩ := (hget k' v').1 hk'
    obtain ⟨e1, rfl⟩ := h1.functional (haddr x hx m _ ha)
    obtain ⟨e2, rfl⟩ := h2.functional (haddr x' hx' m' _ ha')
    have := eq_of_map_nodup hn hx hx' (e1.symm.trans e2)
    rw [this]
  · intro l n v hl ha hv
    obtain ⟨x, hx, rfl⟩ := List.mem_map.1 ((hr l).2 hl)
    exact ⟨_, (hget _ v).2 ⟨x, hx, n, ha, hv, rfl⟩, haddr x hx n _ ha⟩

/-- A successful sequence of assignments that overwrites no Module addresses existing modules only. -/
theorem assignAll_addresses (root : Loc) : ∀ (E : List (Str × PyVal α)) (w w' : World α),
    WFWorld w → root < w.heap.length → (∀ e ∈ E, WFVal e.2 ∧ isReserved ((splitSlash e.1).getLastD []) = false) →
    assignAll root E w = (w', none) →
    (∀ e ∈ E, ∀ l n, Addresses w.heap root e.1 l n → ∀ b, attrAt w.heap l n ≠ some (.ref b)) →
    ∀ e ∈ E, ∃ l n, Addresses w.heap root e.1 l n := by
  intro E
  induction E with
  | nil => intro w w' _ _ _ _ _ e he; cases he
  | cons x E ih =>
    intro w w' wf hroot hg e hleaf
    obtain ⟨k, v⟩ := x
    rw [assignAll] at e
    split at e
    · simp at e
    · next w1 hs =>
      obtain ⟨p, n, l, hp, hw, hset⟩ := setValueAtPath_ok hroot wf.heap hs
      have haddr : Addresses w.heap root k l n := ⟨p, hp, hw⟩
      have hc := (confined_setAttr_val (A := fun _ => True) wf (fun _ _ _ _ _ => trivial) trivial (by
          have := (hg _ List.mem_cons_self).2
          simp only [hp, getLastD_append_single] at this
          refine ⟨?_, this⟩
          have := splitSlash_parts_noslash k n
          exact this (by rw [hp]; simp)) (hg _ List.mem_cons_self).1 hset)
      obtain ⟨o, a, ho, ht, hn, ha, rfl⟩ := setAttr_ok_iff.1 hset
      obtain ⟨y, rfl⟩ := storedAttr_val ha
      have hlen := (SameObjects.setAttrs ho (dset o.attrs n (.val y))).len
      have hnr := hleaf _ List.mem_cons_self l n haddr
      have hfwd : ∀ l' n' b, attrAt w.heap l' n' = some (.ref b) →
          attrAt (w.setAttrs l o (dset o.attrs n (.val y))).heap l' n' = some (.ref b) := by
        intro l' n' b hb
        rw [attrAt_setAttrs ho, if_neg]
        · exact hb
        · rintro ⟨rfl, rfl⟩; exact hnr _ hb
      have hback : ∀ l' n' b, attrAt (w.setAttrs l o (dset o.attrs n (.val y))).heap l' n' = some (.ref b) →
          attrAt w.heap l' n' = some (.ref b) := by
        intro l' n' b hb
        rw [attrAt_setAttrs ho] at hb
        split at hb
        · cases hb
        · exact hb
      have key := ih _ _ hc.1.wf (by rw [hlen]; exact hroot) (fun e he => hg e (List.mem_cons_of_mem _ he)) e (by
        rintro e he l' n' ⟨q, hq, hw'⟩ b hb
        exact hleaf e (List.mem_cons_of_mem _ he) l' n' ⟨q, hq, hw'.congr hlen.symm hback⟩ b (hback _ _ _ hb))
      intro e he
      rcases List.mem_cons.1 he with rfl | he
      · exact ⟨l, n, haddr⟩
      · obtain ⟨l', n', q, hq, hw'⟩ := key e he
        exact ⟨l', n', q, hq, hw'.congr hlen.symm hback⟩

/-! ### Sequences of assignments to one attribute -/

omit [DecidableEq α] in
theorem Assigned.append {vs vs' : List (PyVal α)} {old new : Option (Attr α)} :
    Assigned old (vs ++ vs') new ↔ ∃ mid, Assigned old vs mid ∧ Assigned mid vs' new := by
  induction vs generalizing old with
  | nil =>
    constructor
    · intro h; exact ⟨old, .nil, h⟩
    · rintro ⟨mid, h1, h2⟩; cases h1; exact h2
  | cons v vs ih =>
    constructor
    · intro h
      cases h with
      | cons hc h =>
        obtain ⟨mid, h1, h2⟩ := ih.1 h
        exact ⟨mid, .cons hc h1, h2⟩
    · rintro ⟨mid, h1, h2⟩
      cases h1 with
      | cons hc h1 => exact .cons hc (ih.2 ⟨mid, h1, h2⟩)

omit [DecidableEq α] in
theorem newValue_self (x : PyVal α) : newValue (some (.val x)) x = x := by
  cases x <;> rfl

omit [DecidableEq α] in
theorem newValue_twice (old : Option (Attr α)) (v : PyVal α) :
    newValue (some (.val (newValue old v))) v = newValue old v := by
  by_cases h : ∃ c x m, old = some (.val (.cont c x m))
  · obtain ⟨c, x, m, rfl⟩ := h; rfl
  · have : newValue old v = v := by
      unfold newValue
      split
      · next c x m => exact absurd ⟨c, x, m, rfl⟩ h
      · rfl
    rw [this, newValue_self]

omit [DecidableEq α] in
theorem Assigned.single {old new : Option (Attr α)} {x : PyVal α} (h : Assigned old [x] new) :
    new = some (.val (newValue old x)) := by
  cases h with
  | cons _ h => cases h; rfl

omit [DecidableEq α] in
theorem Assigned.const {v : PyVal α} {vs : List (PyVal α)} : ∀ {old new : Option (Attr α)}, vs ≠ [] →
    (∀ y ∈ vs, y = v) → Assigned old vs new → new = some (.val (newValue old v)) := by
  induction vs with
  | nil => intro old new h; exact absurd rfl h
  | cons x vs ih =>
    intro old new _ hall h
    have hx := hall x List.mem_cons_self
    subst hx
    cases h with
    | cons hc h =>
      by_cases hvs : vs = []
      · subst hvs; cases h; rfl
      · have := ih hvs (fun y hy => hall y (List.mem_cons_of_mem _ hy)) h
        rw [this, newValue_twice]

omit [DecidableEq α] in
theorem Assigned.kind {c : Cls} {m : Md α} {vs : List (PyVal α)} : ∀ {x : PyVal α} {new : Option (Attr α)},
    Assigned (some (.val (.cont c x m))) vs new → ∃ y, new = some (.val (.cont c y m)) := by
  induction vs with
  | nil => intro x new h; cases h; exact ⟨x, rfl⟩
  | cons v vs ih =>
    intro x new h
    cases h with
    | cons _ h => exact ih h

/-! ### The values assigned to one attribute -/

omit [DecidableEq α] in
theorem cellVals_append (A B : List ((Loc × Str) × PyVal α)) (l : Loc) (n : Str) :
    cellVals (A ++ B) l n = cellVals A l n ++ cellVals B l n := by
  simp [cellVals, List.filter_append]

/-- What a successful update does to every attribute, before the values are analysed. -/
structure Effect (w w' : World α) (root : Loc) (s : State (PyVal α)) (us : List (State (PyVal α)))
    (E A B : List (Str × PyVal α)) (cell : Str → Loc × Str) : Prop where
  plan : UpdatePlan s us E A B
  same : SameObjects w w'
  addr : ∀ e ∈ E, Addresses w.heap root e.1 (cell e.1).1 (cell e.1).2
  assigned : ∀ l n, Assigned (attrAt w.heap l n) (cellVals (E.map fun e => (cell e.1, e.2)) l n) (attrAt w'.heap l n)
  valid : ∀ e ∈ E, ∃ o, w.heap[(cell e.1).1]? = some o ∧ w.traceValid o.trace = true

omit [DecidableEq α] in
theorem given_mem {us : List (State (PyVal α))} {k : Str} {v : PyVal α} (h : given us k = some v) :
    ∃ t ∈ us, (k, v) ∈ t.items := by
  obtain ⟨t, ht, htv⟩ := List.exists_of_findSome?_eq_some h
  exact ⟨t, List.mem_reverse.1 ht, dget_mem htv⟩

omit [DecidableEq α] in
/-- The entries an update assigns are good values; none addresses an attribute holding a Module. -/
theorem plan_entries {w : World α} (wf : WFWorld w) {root : Loc} (hroot : root < w.heap.length) {fuel : Nat}
    {s : State (PyVal α)} (hs : getState fuel w.heap root = some s) {us : List (State (PyVal α))}
    (hg : GoodUpdates us) (hleaf : LeafPaths w.heap root us) {E A B : List (Str × PyVal α)}
    (hp : UpdatePlan s us E A B) :
    (∀ e ∈ E, WFVal e.2 ∧ isReserved ((splitSlash e.1).getLastD []) = false) ∧
    (∀ e ∈ E, ∀ l n, Addresses w.heap root e.1 l n → ∀ b, attrAt w.heap l n ≠ some (.ref b)) := by
  obtain ⟨h1, h2, h3⟩ := state_paths wf.heap hroot hs
  have hcan := getState_canonical hs
  constructor
  · rintro ⟨k, v⟩ he
    have := (hp.mem k v).1 he
    cases hgv : given us k with
    | some v' =>
      rw [hgv] at this
      simp only [Option.orElse_some, Option.some.injEq] at this
      subst this
      obtain ⟨t, ht, htv⟩ := given_mem hgv
      exact hg t ht k _ htv
    | none =>
      rw [hgv] at this
      simp only [Option.orElse_none] at this
      exact getState_good wf.heap hroot hs k v (dget_mem this)
  · rintro ⟨k, v⟩ he l n ha b hb
    have := (hp.mem k v).1 he
    cases hgv : given us k with
    | some v' => exact hleaf k v' hgv l n ha b hb
    | none =>
      rw [hgv] at this
      simp only [Option.orElse_none] at this
      obtain ⟨l', n', ha', hat, _⟩ := h1 k v this
      obtain ⟨rfl, rfl⟩ := ha.functional ha'
      rw [hat] at hb; cases hb

theorem assign_cells {w : World α} {root : Loc} {E : List (Str × PyVal α)} {cell : Str → Loc × Str}
    (h1 : ∀ e ∈ E, Addresses w.heap root e.1 (cell e.1).1 (cell e.1).2)
    (h2 : ∀ e ∈ E, ∀ l n, Addresses w.heap root e.1 l n → ∀ b, attrAt w.heap l n ≠ some (.ref b)) :
    assignAll root E w = runCells (E.map fun e => (cell e.1, e.2)) w := by
  apply assignAll_eq_runCells
  rw [List.forall₂_map_right_iff, List.forall₂_same]
  intro e he
  exact ⟨h1 e he, rfl, fun b => h2 e he _ _ (h1 e he) b⟩

theorem update_effect {w w' : World α} (wf : WFWorld w) {root : Loc} (hroot : root < w.heap.length) {fuel : Nat}
    {s : State (PyVal α)} (hs : getState fuel w.heap root = some s) {us : List (State (PyVal α))}
    (hc : ∀ t ∈ us, t.Canonical) (hg : GoodUpdates us) (hleaf : LeafPaths w.heap root us)
    (e : updateState fuel root us w = (w', none)) :
    ∃ E A B cell, Effect w w' root s us E A B cell := by
  obtain ⟨A, B, hp⟩ := updatePlan (getState_canonical hs) hc
  rw [updateState, hs] at e
  simp only [updateModule] at e
  generalize (s :: us).foldl (fun d t => dupdate d t.items) ([] : Dict Str (PyVal α)) = E at *
  obtain ⟨hgood, hnr⟩ := plan_entries wf hroot hs hg hleaf hp
  have hex := assignAll_addresses root E w w' wf hroot hgood e hnr
  have hch : ∀ k : Str, ∃ c : Loc × Str, ∀ e ∈ E, e.1 = k → Addresses w.heap root k c.1 c.2 := by
    intro k
    by_cases hk : ∃ e ∈ E, e.1 = k
    · obtain ⟨e, he, rfl⟩ := hk
      obtain ⟨l, n, ha⟩ := hex e he
      exact ⟨(l, n), fun _ _ _ => ha⟩
    · exact ⟨(0, []), fun e he h => absurd ⟨e, he, h⟩ hk⟩
  choose cell hcell using hch
  have haddr : ∀ e ∈ E, Addresses w.heap root e.1 (cell e.1).1 (cell e.1).2 := fun e he => hcell e.1 e he rfl
  rw [assign_cells haddr hnr] at e
  obtain ⟨h1, h2, h3⟩ := runCells_effect _ _ _ wf.heap.conts (by
    intro c hc
    obtain ⟨e, he, rfl⟩ := List.mem_map.1 hc
    exact (hgood e he).1) e
  refine ⟨E, A, B, cell, hp, h1, haddr, h2, ?_⟩
  intro e he
  obtain ⟨o, ho, ht, _⟩ := h3 _ (List.mem_map.2 ⟨e, he, rfl⟩)
  exact ⟨o, ho, ht⟩

omit [DecidableEq α] in
/-- The values assigned to an attribute no path of the update addresses. -/
theorem vals_untouched {w : World α} (wf : WFWorld w) {root : Loc} (hroot : root < w.heap.length) {fuel : Nat}
    {s : State (PyVal α)} (hs : getState fuel w.heap root = some s) {us : List (State (PyVal α))}
    {E A B : List (Str × PyVal α)} (hp : UpdatePlan s us E A B) {cell : Str → Loc × Str}
    (haddr : ∀ e ∈ E, Addresses w.heap root e.1 (cell e.1).1 (cell e.1).2) {l : Loc} {n : Str}
    (hno : ∀ k v, given us k = some v → ¬ Addresses w.heap root k l n) :
    cellVals (E.map fun e => (cell e.1, e.2)) l n = [] ∨
    ∃ x, cellVals (E.map fun e => (cell e.1, e.2)) l n = [x] ∧ attrAt w.heap l n = some (.val x) := by
  obtain ⟨h1, h2, h3⟩ := state_paths wf.heap hroot hs
  have hown : ∀ e ∈ E, cell e.1 = (l, n) → s.get e.1 = some e.2 := by
    rintro ⟨k, v⟩ he hcell
    have := (hp.mem k v).1 he
    cases hgv : given us k with
    | some v' =>
      have ha := haddr _ he
      rw [hcell] at ha
      exact absurd ha (hno k v' hgv)
    | none => rw [hgv] at this; exact this
  by_cases hex : ∃ e ∈ E, cell e.1 = (l, n)
  · obtain ⟨⟨k, v⟩, he, hcell⟩ := hex
    right
    refine ⟨v, ?_, ?_⟩
    · have e0 : E.filter (fun e => decide (cell e.1 = (l, n))) = E.filter (fun e => decide (e.1 = k)) := by
        apply List.filter_congr
        intro e' he'
        simp only [decide_eq_decide]
        constructor
        · intro hc'
          have a1 := haddr _ he
          have a2 := haddr _ he'
          rw [hcell] at a1; rw [hc'] at a2
          exact h2 _ _ l n (by rw [hown e' he' hc']; rfl) (by have := hown _ he hcell; simp only at this; rw [this]; rfl) a2 a1
        · intro hk; rw [hk]; exact hcell
      have e1 := cellVals_single (E := E) (tgt := fun k => (0, k)) (fun e _ e' _ h => by simpa using h) hp.nodup he
      simp only [cellVals, List.filter_map, List.map_map, Function.comp_def] at e1 ⊢
      rw [e0]
      simpa using e1
    · obtain ⟨l', n', ha, hat, _⟩ := h1 k v (hown _ he hcell)
      have a1 := haddr _ he
      rw [hcell] at a1
      obtain ⟨rfl, rfl⟩ := a1.functional ha
      exact hat
  · exact .inl (cellVals_none (fun e he h => hex ⟨e, he, h⟩))

omit [DecidableEq α] in
/-- The values assigned to an attribute that the update addresses without conflict. -/
theorem vals_touched {w : World α} (wf : WFWorld w) {root : Loc} (hroot : root < w.heap.length) {fuel : Nat}
    {s : State (PyVal α)} (hs : getState fuel w.heap root = some s) {us : List (State (PyVal α))}
    {E A B : List (Str × PyVal α)} (hp : UpdatePlan s us E A B) {cell : Str → Loc × Str}
    (haddr : ∀ e ∈ E, Addresses w.heap root e.1 (cell e.1).1 (cell e.1).2)
    (hnc : NoConflict w.heap root us) {l : Loc} {n k : Str} {v : PyVal α}
    (hk : given us k = some v) (ha : Addresses w.heap root k l n) :
    ∃ pre vs, cellVals (E.map fun e => (cell e.1, e.2)) l n = pre ++ vs ∧ vs ≠ [] ∧ (∀ y ∈ vs, y = v) ∧
      (pre = [] ∨ ∃ x, pre = [x] ∧ attrAt w.heap l n = some (.val x)) := by
  obtain ⟨h1, h2, h3⟩ := state_paths wf.heap hroot hs
  have hmemA : ∀ e ∈ A, e ∈ E := fun e he => by rw [hp.split]; exact List.mem_append_left _ he
  have hmemB : ∀ e ∈ B, e ∈ E := fun e he => by rw [hp.split]; exact List.mem_append_right _ he
  have hkE : (k, v) ∈ E := (hp.mem k v).2 (by rw [hk]; rfl)
  have hkcell : cell k = (l, n) := by
    have := (haddr _ hkE).functional ha
    exact Prod.ext this.1 this.2
  have hsame : ∀ e ∈ E, cell e.1 = (l, n) → ∀ v', given us e.1 = some v' → v' = v := by
    intro e he hc v' hv'
    have a1 := haddr e he
    rw [hc] at a1
    exact hnc e.1 v' k v hv' hk l n a1 ha
  have hB : ∀ y ∈ cellVals (B.map fun e => (cell e.1, e.2)) l n, y = v := by
    intro y hy
    simp only [cellVals, List.mem_map, List.mem_filter, decide_eq_true_eq] at hy
    obtain ⟨_, ⟨⟨e, he, rfl⟩, hc⟩, rfl⟩ := hy
    have hm := (hp.mem e.1 e.2).1 (hmemB e he)
    rw [hp.new e he] at hm
    cases hgv : given us e.1 with
    | none => rw [hgv] at hm; cases hm
    | some v' =>
      rw [hgv] at hm
      simp only [Option.orElse_some, Option.some.injEq] at hm
      simp only
      rw [← hm]
      exact hsame e (hmemB e he) hc v' hgv
  have hsplit : cellVals (E.map fun e => (cell e.1, e.2)) l n =
      cellVals (A.map fun e => (cell e.1, e.2)) l n ++ cellVals (B.map fun e => (cell e.1, e.2)) l n := by
    rw [hp.split, List.map_append, cellVals_append]
  have hnA : DNodup A := by
    have := hp.nodup
    unfold DNodup dkeys at this ⊢
    rw [hp.split, List.map_append, List.nodup_append] at this
    exact this.1
  have hinj : ∀ e ∈ A, ∀ e' ∈ A, cell e.1 = cell e'.1 → e.1 = e'.1 := by
    intro e he e' he' hc
    have a1 := haddr e (hmemA e he)
    have a2 := haddr e' (hmemA e' he')
    rw [← hc] at a2
    exact h2 _ _ _ _ (hp.old e he) (hp.old e' he') a1 a2
  by_cases hex : ∃ e ∈ A, cell e.1 = (l, n)
  · obtain ⟨e, he, hc⟩ := hex
    have hA1 := cellVals_single hinj hnA (k := e.1) (v := e.2) he
    rw [hc] at hA1
    simp only at hA1
    have hm := (hp.mem e.1 e.2).1 (hmemA e he)
    cases hgv : given us e.1 with
    | some v' =>
      rw [hgv] at hm
      simp only [Option.orElse_some, Option.some.injEq] at hm
      have hv := hsame e (hmemA e he) hc v' hgv
      refine ⟨[], _, by rw [List.nil_append], ?_, ?_, .inl rfl⟩
      · rw [hsplit, hA1]; simp
      · rw [hsplit, hA1]
        intro y hy
        rcases List.mem_append.1 hy with hy | hy
        · simp at hy; rw [hy, ← hm, hv]
        · exact hB y hy
    | none =>
      rw [hgv] at hm
      simp only [Option.orElse_none] at hm
      refine ⟨[e.2], _, by rw [hsplit, hA1], ?_, hB, .inr ⟨e.2, rfl, ?_⟩⟩
      · have hkB : (k, v) ∈ B := by
          rw [hp.split] at hkE
          rcases List.mem_append.1 hkE with hkA | hkB
          · exfalso
            have := hinj _ hkA e he (by rw [hc]; exact hkcell)
            simp only at this
            rw [← this, hk] at hgv; cases hgv
          · exact hkB
        intro hnil
        have : v ∈ cellVals (B.map fun e => (cell e.1, e.2)) l n := by
          simp only [cellVals, List.mem_map, List.mem_filter, decide_eq_true_eq]
          exact ⟨_, ⟨⟨_, hkB, rfl⟩, hkcell⟩, rfl⟩
        rw [hnil] at this; cases this
      · obtain ⟨l', n', ha', hat, _⟩ := h1 _ _ hm
        have a1 := haddr e (hmemA e he)
        rw [hc] at a1
        obtain ⟨rfl, rfl⟩ := a1.functional ha'
        exact hat
  · have hA0 : cellVals (A.map fun e => (cell e.1, e.2)) l n = [] :=
      cellVals_none (fun e he h => hex ⟨e, he, h⟩)
    refine ⟨[], _, by rw [hsplit, hA0], ?_, hB, .inl rfl⟩
    have hkB : (k, v) ∈ B := by
      rw [hp.split] at hkE
      rcases List.mem_append.1 hkE with hkA | hkB
      · exact absurd ⟨_, hkA, hkcell⟩ hex
      · exact hkB
    intro hnil
    have : v ∈ cellVals (B.map fun e => (cell e.1, e.2)) l n := by
      simp only [cellVals, List.mem_map, List.mem_filter, decide_eq_true_eq]
      exact ⟨_, ⟨⟨_, hkB, rfl⟩, hkcell⟩, rfl⟩
    rw [hnil] at this; cases this

end Nnx
