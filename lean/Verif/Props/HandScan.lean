import Verif.Proofs.HandScan
/-
C104: a scan over layers that is written by hand.
-/
namespace Nnx
variable {α κ A B C X : Type} [DecidableEq α]

/-- **C104, construction.** Let the constructor make the layers `ms 0, ..., ms (n-1)`, given the slices `0, ..., n-1` of the keys, with equal module
definitions. `jax.vmap(create_block)(keys).merge()` is a new module with this module definition whose variables are the stacked variables of the layers. It may be
modified, and shares nothing with any other module. -/
theorem C104_hand_written_init {w : World α} {n : Nat} (hn : 0 < n) {j : Nat} {ctor : Nat → World α → World α × Except Err Loc} {ws : Nat → World α}
    {ms : Nat → Loc} (hrun : ∀ i < n, ctor i { w with jaxTrace := j } = (ws i, .ok (ms i)))
    (hwf : ∀ i < n, WFWorld (ws i)) (hms : ∀ i < n, ms i < (ws i).heap.length) {ss : Nat → State (PyVal α)} {d : ModuleDef α}
    (hss : ∀ i < n, partitionModule ((ws i).heap.length + 1) (ws i).heap (ms i) [] = .ok ([ss i], d))
    {R : Arrays α} {fin : State (PyVal α)} (F : IsStack R ((List.range n).map ss) fin) :
    ∃ w1 r limit, ∀ fuel, limit < fuel → handInit R fuel j n ctor w = (w1, .ok r) ∧ partitionModule fuel w1.heap r [] = .ok ([fin], d) ∧
      WFWorld w1 ∧ r < w1.heap.length ∧ AllValid w1 r ∧ (∀ a : Loc, a < (ws 0).heap.length → w1.heap[a]? = (ws 0).heap[a]? ∧ ¬ Reaches w1.heap r a) := by
  have h0 : ((List.range n).map ss)[0]? = some (ss 0) := by simp [List.getElem?_range hn]
  obtain ⟨hs0, hd0⟩ := partition_nil (hss 0 hn)
  have hdom : ∀ k, (fin.get k).isSome = ((ss 0).get k).isSome := fun k => (F.paths _ (List.mem_of_getElem? h0) k).symm
  obtain ⟨w1, r, hm, hpart, wf1, hr, hj, hst, hold, hfresh⟩ := merge_revalued (w := { ws 0 with jaxTrace := w.jaxTrace, nnxStack := w.nnxStack })
    (hwf 0 hn) (hms 0 hn) hs0 hd0 F.sorted hdom (by
      intro k v hk
      obtain ⟨u, hu⟩ := Option.isSome_iff_exists.1 (by rw [← hdom, hk]; rfl : ((ss 0).get k).isSome = true)
      obtain ⟨_, _, _, _, hnode⟩ := (state_paths (hwf 0 hn).heap (hms 0 hn) hs0).1 k u hu
      obtain ⟨h1, h2, _⟩ := F.like h0 hk hu (getState_good (hwf 0 hn).heap (hms 0 hn) hs0 k u (dget_mem hu)).1 hnode
      exact ⟨h2, h1⟩) (pieces_self F.sorted) ⟨(hwf 0 hn).heap, (hwf 0 hn).ids⟩
  obtain ⟨limit, hlim⟩ := le_sum (fun i => (ws i).heap.length) n
  refine ⟨w1, r, max limit w1.heap.length, ?_⟩
  intro fuel hf
  refine ⟨?_, hpart fuel (Nat.lt_of_le_of_lt (Nat.le_max_right _ _) hf), wf1, hr, ?_, ?_⟩
  · have hcreate : ∀ i < n, insideTrace j none (createBlock fuel (ctor i)) w =
        ({ ws i with jaxTrace := w.jaxTrace, nnxStack := w.nnxStack }, .ok ([ss i], d)) := by
      intro i hi
      obtain ⟨s1, d1, hb⟩ := partition_budget (hwf i hi) (hms i hi)
      have h1 := (hb _ (Nat.lt_succ_self _)).1
      rw [hss i hi] at h1
      cases h1
      have := (hb fuel (Nat.lt_of_le_of_lt (hlim i hi) (Nat.lt_of_le_of_lt (Nat.le_max_left _ _) hf))).1
      simp only [insideTrace, createBlock, Option.toList_none, List.append_nil, hrun i hi, this]
    have h1 : mapExcept (fun i => (insideTrace j none (createBlock fuel (ctor i)) w).2) (List.range n) =
        .ok ((List.range n).map fun i => ([ss i], d)) := mapExcept_map fun i hi => by rw [hcreate i (List.mem_range.1 hi)]
    have hstack : stackStates R 0 ((List.range n).map ss) = some fin := F.compute (by simp; omega) (by
      intro t ht
      obtain ⟨i, hi, rfl⟩ := List.mem_map.1 ht
      exact getState_canonical (partition_nil (hss i (List.mem_range.1 hi))).1)
    obtain ⟨m, rfl⟩ : ∃ m, n = m + 1 := ⟨n - 1, by omega⟩
    have hcons : (List.range (m + 1)).map (fun i => ([ss i], d)) = ([ss 0], d) :: ((List.range m).map Nat.succ).map fun i => ([ss i], d) := by
      rw [List.range_succ_eq_map, List.map_cons]
    have hall2 : ((((List.range m).map Nat.succ).map fun i => ([ss i], d)).all fun r => decide (r.2 = d)) = true := by
      simp
    have hflat : (([ss 0], d) :: ((List.range m).map Nat.succ).map fun i => ([ss i], d)).flatMap (·.1) = (List.range (m + 1)).map ss := by
      rw [← hcons, List.flatMap_map]
      exact List.map_eq_flatMap.symm
    simp only [handInit, h1, hcons, hall2, if_true, hflat, hstack, hcreate 0 hn, hm]
  · intro a x ha hx
    rw [traceValid_eq, (hfresh a x ha hx).2]
    simp only [World.curTrace, hj, hst]
  · intro a ha
    refine ⟨hold a ha, fun h => ?_⟩
    obtain ⟨x, hx⟩ : ∃ x, w1.heap[a]? = some x := ⟨_, (hold a ha).trans (List.getElem?_eq_getElem ha)⟩
    exact absurd (hfresh a x h hx).1 (Nat.not_le_of_lt ha)

theorem allSome_of_map {Y Z : Type} {f : Y → Option Z} {g : Y → Z} : ∀ {ys : List Y}, (∀ y ∈ ys, f y = some (g y)) → allSome (ys.map f) = some (ys.map g)
  | [], _ => rfl
  | y :: ys, h => by
    simp only [List.map_cons, h y List.mem_cons_self, allSome, allSome_of_map fun y hy => h y (List.mem_cons_of_mem _ hy)]
    rfl

theorem LayersRun.canonical {body : X → C → Loc → World α → World α × Except Err (C × B)} {ls c c' outs} (run : LayersRun body ls c c' outs) :
    ∀ t ∈ outs, t.1.Canonical := by
  induction run with
  | done => intro t ht; cases ht
  | next _ _ hs _ ih =>
    intro t ht
    rcases List.mem_cons.1 ht with rfl | h
    · exact getState_canonical hs
    · exact ih t h

/-- The variables of the first layer after the loop. -/
theorem run_first {n : Nat} {ws : Nat → World α} {ms : Nat → Loc} {xs : Nat → X} {body : X → C → Prog α (C × B)} (hb : ∀ x c, (body x c).Good)
    (hn : 0 < n) (hwf : ∀ i < n, WFWorld (ws i)) (hms : ∀ i < n, ms i < (ws i).heap.length) {ss : Nat → State (PyVal α)}
    (hss : ∀ i < n, getState ((ws i).heap.length + 1) (ws i).heap (ms i) = some (ss i)) {c c' : C} {outs}
    (run : LayersRun (calls body) ((List.range n).map fun i => ((ws i, ms i), xs i)) c c' outs) :
    ∃ t y, outs[0]? = some (t, y) ∧ ∀ k u, (ss 0).get k = some u → ∃ v, t.get k = some v ∧ WFVal v ∧ v.isNode = true ∧ SameKind u v := by
  obtain ⟨m, rfl⟩ : ∃ m, n = m + 1 := ⟨n - 1, by omega⟩
  rw [List.range_succ_eq_map, List.map_cons] at run
  cases run with
  | @next _ wi' _ _ _ c1 _ y t _ outs hc hno ht run =>
  refine ⟨t, y, rfl, ?_⟩
  intro k u hu
  have ev := Evolves.call (hwf 0 hn) (hms 0 hn) (hb _ _).parametric hc hno
  have hl := Nat.lt_of_lt_of_le (hms 0 hn) ev.keeps.len
  obtain ⟨v, h1, h2⟩ := ev.state (hwf 0 hn) (hms 0 hn) (hss 0 hn) ht hu
  obtain ⟨_, _, _, _, hnode⟩ := (state_paths ev.wf.heap hl ht).1 k v h1
  exact ⟨v, h1, (getState_good ev.wf.heap hl ht k v (dget_mem h1)).1, hnode, h2⟩

/-- **C104, the forward pass.** Let layers `ms 0, ..., ms (n-1)` be modules with equal module definitions, and let the module `l` have that module
definition and the stacked variables of the layers. The scan written by hand over `l` returns the carry and the outputs of the loop that calls `body`
with the layers, one after the other; after it, the variables of `l` are the stacked variables of the layers after the loop, its module definition
is as before, and no other module has changed. -/
theorem C104_hand_written_scan {w : World α} (wf : WFWorld w) {l : Loc} (hl : l < w.heap.length) (hv : AllValid w l) {k0 : Nat} {fin : State (PyVal α)}
    {d : ModuleDef α} (hpart : partitionModule k0 w.heap l [] = .ok ([fin], d))
    {n : Nat} (hn : 0 < n) {ws : Nat → World α} {ms : Nat → Loc} (hwf : ∀ i < n, WFWorld (ws i)) (hms : ∀ i < n, ms i < (ws i).heap.length)
    (hvs : ∀ i < n, AllValid (ws i) (ms i)) {ss : Nat → State (PyVal α)}
    (hss : ∀ i < n, partitionModule ((ws i).heap.length + 1) (ws i).heap (ms i) [] = .ok ([ss i], d))
    {R : Arrays α} (laws : ArrayLaws R) (F : IsStack R ((List.range n).map ss) fin)
    {filt : Filter α} (hf : filt.WellFormed) (hfin : ∀ k v, fin.get k = some v → filt.Matches k v)
    {xs : Nat → X} {body : X → C → Prog α (C × B)} (hb : ∀ x c, (body x c).Good) {c c' : C} {outs}
    (run : LayersRun (calls body) ((List.range n).map fun i => ((ws i, ms i), xs i)) c c' outs)
    (hafter : ∀ t ∈ outs, ∀ k y, t.1.get k = some y → filt.Matches k y)
    {fin' : State (PyVal α)} (F' : IsStack R (outs.map (·.1)) fin') (hnew : ∀ k, (fin'.get k).isSome → (fin.get k).isSome) (j : Nat) :
    ∃ w' limit, ∀ fuel, limit < fuel →
      handScan R fuel filt j l (calls body) c ((List.range n).map xs) w = (w', .ok (c', outs.map (·.2))) ∧
      partitionModule fuel w'.heap l [] = .ok ([fin'], d) ∧ WFWorld w' ∧ l < w'.heap.length ∧ AllValid w' l ∧
      ∀ a : Loc, a < w.heap.length → ¬ Reaches w.heap l a → w'.heap[a]? = w.heap[a]? := by
  obtain ⟨hs, hd⟩ := partition_nil hpart
  have hcan : ∀ t ∈ (List.range n).map ss, t.Canonical := by
    intro t ht
    obtain ⟨i, hi, rfl⟩ := List.mem_map.1 ht
    exact getState_canonical (partition_nil (hss i (List.mem_range.1 hi))).1
  have hne : (List.range n).map ss ≠ [] := by simp; omega
  -- the loop
  obtain ⟨u, limit, wfu, ku, ou, hloop⟩ := hand_loop (d := d) hb hf ((List.range n).map fun i => (ss i, (ws i, ms i), xs i)) (by
    intro e he
    obtain ⟨i, hi, rfl⟩ := List.mem_map.1 he
    have hi := List.mem_range.1 hi
    exact ⟨hwf i hi, hms i hi, hvs i hi, hss i hi⟩) (by rw [List.map_map]; exact run) hafter (u := { w with jaxTrace := j }) ⟨wf.heap, wf.ids⟩
  have hzip : ((List.range n).map fun i => (ss i, (ws i, ms i), xs i)).map (fun e => (e.1, e.2.2)) = ((List.range n).map ss).zip ((List.range n).map xs) := by
    rw [List.map_map, List.zip_map']
    rfl
  rw [hzip] at hloop
  -- the world after it
  have hv1 : Evolves w { u with jaxTrace := w.jaxTrace, nnxStack := w.nnxStack } l := by
    refine ⟨⟨rfl, rfl, ku.len, fun a ha => ?_⟩, ⟨wfu.heap, wfu.ids⟩, fun a m hr => .inl ?_, fun a ha _ => ou a ha⟩
    · simp only [objInfo, ou a ha]
    · obtain ⟨q, hq⟩ := hr
      have ha := hq.lt
      simp only [attrAt, ou a ha]
  have hl1 := Nat.lt_of_lt_of_le hl ku.len
  have hg : SameGraph w.heap l u.heap l := AgreeOn.sameGraph (w' := u) (n := w.heap.length) (fun a ha => ⟨fun m => by simp only [attrAt, ou a ha], by rw [ou a ha]⟩)
    wf hl (by rintro a ⟨q, hq⟩; exact hq.lt)
  have hpu : ∀ f, u.heap.length < f → partitionModule f u.heap l [] = .ok ([fin], d) := by
    intro f hlt
    obtain ⟨s1, d1, h1, h2⟩ := C24_partition_canonical wf.heap wfu.heap hl hl1 hg (Nat.lt_succ_self _) hlt
    rw [h2, getState_det wf.heap hl hs (partition_nil h1).1, getModuleDef_det wf.heap hl hd (partition_nil h1).2]
  have hs1 := (partition_nil (hpu _ (Nat.lt_succ_self _))).1
  obtain ⟨t0, y0, ht0, hlike0⟩ := run_first hb hn hwf hms (fun i hi => (partition_nil (hss i hi)).1) run
  have hmem0 : ss 0 ∈ (List.range n).map ss := List.mem_map.2 ⟨0, List.mem_range.2 hn, rfl⟩
  have ht0' : (outs.map (·.1))[0]? = some t0 := by simp [ht0]
  have hmt0 := List.mem_of_getElem? ht0'
  obtain ⟨w', s', hu, ev', hs', hget, hlen', _⟩ := hv1.update wf hl hv hs1 F'.sorted (by
    intro k y hk
    obtain ⟨x, hx⟩ := Option.isSome_iff_exists.1 (hnew k (by rw [hk]; rfl))
    refine ⟨x, hx, ?_⟩
    obtain ⟨x0, hx0⟩ := Option.isSome_iff_exists.1 (by rw [F.paths _ hmem0, hx]; rfl : ((ss 0).get k).isSome = true)
    obtain ⟨y0, hy0, hw0, hn0, hk0⟩ := hlike0 k x0 hx0
    obtain ⟨h4, h5⟩ := (Evolves.refl (hwf 0 hn) (ms 0)).values (hms 0 hn) (partition_nil (hss 0 hn)).1 hx0
    obtain ⟨_, _, hk1⟩ := F.like (t := ss 0) (by simp [List.getElem?_range hn]) hx hx0 h4 h5
    obtain ⟨h1, h2, h3⟩ := F'.like ht0' hk hy0 hw0 hn0
    exact ⟨h1, h2, hk1.symm.trans (hk0.trans h3)⟩)
  have es : s' = fin' := by
    refine State.Canonical.ext (getState_canonical hs') F'.sorted ?_
    intro k
    rw [hget]
    cases hk : fin'.get k with
    | some y => rfl
    | none =>
      cases hx : fin.get k with
      | none => rfl
      | some x =>
        obtain ⟨x0, hx0⟩ := Option.isSome_iff_exists.1 (by rw [F.paths _ hmem0, hx]; rfl : ((ss 0).get k).isSome = true)
        obtain ⟨y0, hy0, _⟩ := hlike0 k x0 hx0
        have := F'.paths _ hmt0 k
        rw [hy0, hk] at this
        cases this
  subst es
  have hl' := Nat.lt_of_lt_of_le hl ev'.keeps.len
  obtain ⟨s1, d1, hb1⟩ := partition_budget ev'.wf hl'
  have hd' := ev'.moduleDef wf hl hd (Nat.lt_succ_self _)
  have e1 := (hb1 _ (Nat.lt_succ_self _)).2.2
  have e2 := (hb1 _ (Nat.lt_succ_self _)).2.1
  rw [hs'] at e1
  rw [hd'] at e2
  cases e1
  cases e2
  obtain ⟨sz, hsz, hall⟩ := F.sizes laws hne
  refine ⟨w', max (max w.heap.length limit) w'.heap.length, ?_⟩
  intro fuel hfuel
  have hf1 : w.heap.length < fuel := Nat.lt_of_le_of_lt (Nat.le_trans (Nat.le_max_left _ _) (Nat.le_max_left _ _)) hfuel
  have hf2 : limit < fuel := Nat.lt_of_le_of_lt (Nat.le_trans (Nat.le_max_right _ _) (Nat.le_max_left _ _)) hfuel
  have hf3 : w'.heap.length < fuel := Nat.lt_of_le_of_lt (Nat.le_max_right _ _) hfuel
  refine ⟨?_, (hb1 fuel hf3).1, ev'.wf, hl', ev'.valid wf hl hv, ev'.others⟩
  have hp0 : partitionModule fuel w.heap l [] = .ok ([fin], d) := by
    obtain ⟨s1, d1, h1⟩ := partition_budget wf hl
    obtain ⟨q1, q2, q3⟩ := h1 fuel hf1
    rw [q1, getState_det wf.heap hl hs q3, getModuleDef_det wf.heap hl hd q2]
  have hslices : allSome ((List.range ((List.range n).map xs).length).map fun i => sliceState R 0 i fin) = some ((List.range n).map ss) := by
    rw [List.length_map, List.length_range]
    refine allSome_of_map ?_
    intro i hi
    exact F.slice laws hcan (by simp [List.getElem?_range (List.mem_range.1 hi)])
  have hstack : stackStates R 0 (outs.map (·.1)) = some s' := F'.compute (by rintro h; rw [h] at ht0'; cases ht0') (by
    intro t ht
    obtain ⟨e, he, rfl⟩ := List.mem_map.1 ht
    exact run.canonical e he)
  have hupd : updateState fuel l [s'] { u with jaxTrace := w.jaxTrace, nnxStack := w.nnxStack } = (w', none) := by
    rw [← hu]
    simp only [updateState]
    have := (partition_nil (hpu fuel (by rw [hlen'] at hf3; exact hf3))).1
    rw [this, hs1]
  have hsizes : (sz.all fun m => decide (m = ((List.range n).map xs).length)) = true := by
    simp only [List.all_eq_true, decide_eq_true_eq]
    intro m hm
    rw [hall m hm]; simp
  simp only [handScan, partitionModule_single hp0 hf hfin, hsz, hsizes, if_true, hslices, insideTrace, Option.toList_none, List.append_nil,
    hloop fuel hf2, hstack, hupd]

/-- **C104, from construction.** The constructor and the forward pass, both written by hand: the same as to construct the layers and to call one
after the other. -/
theorem C104_constructed {w : World α} {n : Nat} (hn : 0 < n) {j : Nat} {ctor : Nat → World α → World α × Except Err Loc} {ws : Nat → World α}
    {ms : Nat → Loc} (hrun : ∀ i < n, ctor i { w with jaxTrace := j } = (ws i, .ok (ms i)))
    (hwf : ∀ i < n, WFWorld (ws i)) (hms : ∀ i < n, ms i < (ws i).heap.length) (hvs : ∀ i < n, AllValid (ws i) (ms i))
    {ss : Nat → State (PyVal α)} {d : ModuleDef α}
    (hss : ∀ i < n, partitionModule ((ws i).heap.length + 1) (ws i).heap (ms i) [] = .ok ([ss i], d))
    {R : Arrays α} (laws : ArrayLaws R) {fin : State (PyVal α)} (F : IsStack R ((List.range n).map ss) fin)
    {filt : Filter α} (hf : filt.WellFormed) (hfin : ∀ k v, fin.get k = some v → filt.Matches k v)
    {xs : Nat → X} {body : X → C → Prog α (C × B)} (hb : ∀ x c, (body x c).Good) {c c' : C} {outs}
    (run : LayersRun (calls body) ((List.range n).map fun i => ((ws i, ms i), xs i)) c c' outs)
    (hafter : ∀ t ∈ outs, ∀ k y, t.1.get k = some y → filt.Matches k y)
    {fin' : State (PyVal α)} (F' : IsStack R (outs.map (·.1)) fin') (hnew : ∀ k, (fin'.get k).isSome → (fin.get k).isSome) (j' : Nat) :
    ∃ w1 r w' limit, ∀ fuel, limit < fuel → handInit R fuel j n ctor w = (w1, .ok r) ∧
      handScan R fuel filt j' r (calls body) c ((List.range n).map xs) w1 = (w', .ok (c', outs.map (·.2))) ∧
      partitionModule fuel w'.heap r [] = .ok ([fin'], d) := by
  obtain ⟨w1, r, limit, h⟩ := C104_hand_written_init hn hrun hwf hms hss F
  obtain ⟨_, h2, h3, h4, h5, _⟩ := h (limit + 1) (Nat.lt_succ_self _)
  obtain ⟨w', limit', h'⟩ := C104_hand_written_scan h3 h4 h5 h2 hn hwf hms hvs hss laws F hf hfin hb run hafter F' hnew j'
  refine ⟨w1, r, w', max limit limit', ?_⟩
  intro fuel hfuel
  obtain ⟨q1, q2, _⟩ := h' fuel (Nat.lt_of_le_of_lt (Nat.le_max_right _ _) hfuel)
  exact ⟨(h fuel (Nat.lt_of_le_of_lt (Nat.le_max_left _ _) hfuel)).1, q1, q2⟩

/-- **C104, compared to nnx.Scan.** The scan written by hand and `nnx.scan` with `variable_axes={filt: 0}` return the same and leave the same variables. -/
theorem C104_as_nnx_scan {w : World α} (wf : WFWorld w) {l : Loc} (hl : l < w.heap.length) (hv : AllValid w l) {k0 : Nat} {fin : State (PyVal α)}
    {d : ModuleDef α} (hpart : partitionModule k0 w.heap l [] = .ok ([fin], d))
    {n : Nat} (hn : 0 < n) {ws : Nat → World α} {ms : Nat → Loc} (hwf : ∀ i < n, WFWorld (ws i)) (hms : ∀ i < n, ms i < (ws i).heap.length)
    (hvs : ∀ i < n, AllValid (ws i) (ms i)) {ss : Nat → State (PyVal α)}
    (hss : ∀ i < n, partitionModule ((ws i).heap.length + 1) (ws i).heap (ms i) [] = .ok ([ss i], d))
    {R : Arrays α} (laws : ArrayLaws R) (F : IsStack R ((List.range n).map ss) fin)
    {filt : Filter α} (hf : filt.WellFormed) (hfin : ∀ k v, fin.get k = some v → filt.Matches k v)
    (hfss : ∀ i < n, ∀ k v, (ss i).get k = some v → filt.Matches k v)
    {o : ScanOptions α} (ho : o.variableAxes = [(filt, 0)]) (hname : dget o.metadata kPartitionName = none) (hrev : o.reverse = false)
    {ps} (hp : (ss 0).partition o.filters = .ok ps)
    {args : Option (List A)} (hxs : ∀ as, args = some as → as.length = n) (hlen : ∀ m, o.length = some m → m = n)
    (hknown : o.length = some n ∨ args ≠ none) {split : κ → Nat → Nat → κ} {p : Str → Bool} {ctx : Option (PureContext κ)}
    (hsel : ctx.isSome = true → toRngPredicate o.splitRngs = .ok p)
    {xs : Nat → Option (PureContext κ) × Option A} (hx : ∀ i, xs i = (ctx.map (stepCtx split p n i), args.bind fun as => as[i]?))
    {body : Option (PureContext κ) × Option A → C → Prog α (C × B)} (hb : ∀ x c, (body x c).Good) {c c' : C} {outs}
    (run : LayersRun (calls body) ((List.range n).map fun i => ((ws i, ms i), xs i)) c c' outs)
    (hafter : ∀ t ∈ outs, ∀ k y, t.1.get k = some y → filt.Matches k y)
    {fin' : State (PyVal α)} (F' : IsStack R (outs.map (·.1)) fin') (hnew : ∀ k, (fin'.get k).isSome → (fin.get k).isSome) (j j' : Nat) :
    ∃ limit, ∀ fuel, limit < fuel → ∃ w' w'',
      handScan R fuel filt j l (calls body) c ((List.range n).map xs) w = (w', .ok (c', outs.map (·.2))) ∧
      scanApply R split fuel o j' l (scanBody (calls body)) c args ctx w = (w'', .ok (c', outs.map (·.2))) ∧
      ∀ k v, fin'.get k = some v → observe w'.heap l (splitSlash k) = some (.value v) ∧ observe w''.heap l (splitSlash k) = some (.value v) := by
  obtain ⟨w', limit, h⟩ := C104_hand_written_scan wf hl hv hpart hn hwf hms hvs hss laws F hf hfin hb run hafter F' hnew j
  obtain ⟨hs, hd⟩ := partition_nil hpart
  have hfirst : ∀ k v, filt.Matches k v → FirstMatch o.filters k v 0 := by
    intro k v hm
    refine ⟨⟨filt, ?_, hm⟩, fun j hj => absurd hj (Nat.not_lt_zero _)⟩
    simp only [ScanOptions.filters, ho, List.map_cons, List.map_nil, List.cons_append, List.getElem?_cons_zero]
  have hmem : ∀ i < n, ss i ∈ (List.range n).map ss := fun i hi => List.mem_map.2 ⟨i, List.mem_range.2 hi, rfl⟩
  have hpaths : ∀ i < n, ∀ k, ((ss i).get k).isSome = (fin.get k).isSome := fun i hi k => F.paths _ (hmem i hi) k
  have hzero : ∀ k x g, (ss 0).get k = some x → FirstMatch o.filters k x g → g = 0 :=
    fun k x g hk hg => hg.unique (hfirst k x (hfss 0 hn k x hk))
  have hfinm : ∀ k x g, fin.get k = some x → FirstMatch o.filters k x g → g = 0 :=
    fun k x g hk hg => hg.unique (hfirst k x (hfin k x hk))
  have hvl : o.variableAxes.length = 1 := by rw [ho]; rfl
  have haxis : ∀ f (a : Int), o.variableAxes[0]? = some (f, a) → a = 0 := by
    intro f a h
    rw [ho] at h
    cases h; rfl
  have U : UniformInit o n ss := by
    refine ⟨fun i hi k => by rw [hpaths i hi, hpaths 0 hn], fun k x hk => ⟨0, hfirst k x (hfss 0 hn k x hk)⟩, ?_, ?_⟩
    · intro i hi k x y g hx hy hg
      cases hzero k x g hx hg
      exact hfirst k y (hfss i hi k y hy)
    · intro i hi k x g hx hg hle
      cases hzero k x g hx hg
      omega
  have I : IsInit R o n ss fin := by
    refine ⟨F.sorted, ?_, ?_, ?_⟩
    · intro k x g f a hx hga hg
      cases hzero k x g hx hg
      cases haxis f a hga
      obtain ⟨v, hv⟩ := Option.isSome_iff_exists.1 (by rw [← hpaths 0 hn, hx]; rfl : (fin.get k).isSome = true)
      have := F.values k v hv
      rw [List.filterMap_map] at this
      exact ⟨v, v, this, .inl ⟨hname, rfl⟩, hv⟩
    · intro k x g hx hg hle
      cases hzero k x g hx hg
      omega
    · intro k hk
      rw [hpaths 0 hn]; exact hk
  obtain ⟨t0, y0, ht0, hlike0⟩ := run_first hb hn hwf hms (fun i hi => (partition_nil (hss i hi)).1) run
  have hmt0 : t0 ∈ outs.map (·.1) := List.mem_map.2 ⟨_, List.mem_of_getElem? ht0, rfl⟩
  have hkept : ∀ k, (fin.get k).isSome → (fin'.get k).isSome := by
    intro k hk
    obtain ⟨x0, hx0⟩ := Option.isSome_iff_exists.1 (by rw [hpaths 0 hn]; exact hk : ((ss 0).get k).isSome = true)
    obtain ⟨y, hy, _⟩ := hlike0 k x0 hx0
    rw [← F'.paths t0 hmt0, hy]; rfl
  have S : IsStacked R o fin (outs.map (·.1)) fin' := by
    refine ⟨F'.sorted, ?_, ?_, ?_⟩
    · intro k x g f a hx hga hg
      cases hfinm k x g hx hg
      cases haxis f a hga
      obtain ⟨v, hv⟩ := Option.isSome_iff_exists.1 (hkept k (by rw [hx]; rfl))
      exact ⟨v, F'.values k v hv, hv⟩
    · intro k x hx hg
      have := hfinm k x _ hx hg
      omega
    · intro k y hk
      obtain ⟨x, hx⟩ := Option.isSome_iff_exists.1 (hnew k (by rw [hk]; rfl))
      exact ⟨x, 0, hx, hfirst k x (hfin k x hx), Nat.zero_le _⟩
  have hxs' : xs = fun i => (ctx.map (stepCtx split p n i), args.bind fun as => as[i]?) := funext hx
  subst hxs'
  obtain ⟨s1, d1, hbud⟩ := partition_budget wf hl
  refine ⟨max limit w.heap.length, ?_⟩
  intro fuel hfuel
  obtain ⟨q1, q2, q3, hl', _⟩ := h fuel (Nat.lt_of_le_of_lt (Nat.le_max_left _ _) hfuel)
  have hpt : partitionModule fuel w.heap l [] = .ok ([fin], d) := by
    obtain ⟨h1, h2, h3⟩ := hbud fuel (Nat.lt_of_le_of_lt (Nat.le_max_right _ _) hfuel)
    rw [h1, getState_det wf.heap hl hs h3, getModuleDef_det wf.heap hl hd h2]
  obtain ⟨w'', r1, _, r2⟩ :=
    C83_scan_of_layers wf hl hv hpt hn hwf hms hvs hss hp U laws I hname hrev
      (by
        intro k x v g hx hv hg
        cases hzero k x g hx hg
        exact hfirst k v (hfin k v hv))
      (by
        intro k x g hx hg
        cases hzero k x g hx hg
        exact Nat.zero_le _) hxs hlen hknown hsel hb run
      (by
        intro t ht k y hk
        obtain ⟨x, hx⟩ := Option.isSome_iff_exists.1 (hnew k (by rw [← F'.paths _ (List.mem_map.2 ⟨t, ht, rfl⟩), hk]; rfl))
        refine ⟨x, hx, fun g hg => ?_⟩
        cases hfinm k x g hx hg
        exact hfirst k y (hafter t ht k y hk)) S j'
  refine ⟨w', w'', q1, r1, ?_⟩
  intro k v hk
  refine ⟨?_, r2 k v hk⟩
  obtain ⟨a, m, ⟨q, hq, hwk⟩, hat, _⟩ := (state_paths q3.heap hl' (partition_nil q2).1).1 k v hk
  rw [hq]
  simp only [observe, access_snoc hwk, hat, Option.bind_some, shown]

/-! ### Errors -/

/-- **C104, other variables.** If a variable of the module does not match the filter of the forward pass, ValueError, and nothing has changed. -/
theorem C104_other_variables {w : World α} (wf : WFWorld w) {l : Loc} (hl : l < w.heap.length) {k0 : Nat} {fin : State (PyVal α)}
    {d : ModuleDef α} (hpart : partitionModule k0 w.heap l [] = .ok ([fin], d)) {filt : Filter α} (hf : filt.WellFormed)
    {k : Str} {v : PyVal α} (hk : fin.get k = some v) (hno : ¬ filt.Matches k v) (R : Arrays α) (j : Nat)
    (f : X → C → Loc → World α → World α × Except Err (C × B)) (c : C) (xs : List X) {fuel : Nat} (hfuel : w.heap.length < fuel) :
    handScan R fuel filt j l f c xs w = (w, .error .valueError) := by
  obtain ⟨hs, hd⟩ := partition_nil hpart
  obtain ⟨s1, d1, hb⟩ := partition_budget wf hl
  obtain ⟨_, h2, h3⟩ := hb fuel hfuel
  have hell : ¬ MisplacedEllipsis [filt] := by
    rintro ⟨i, h1, h2⟩
    simp at h1
  have := (C02_partition_fails_iff (getState_obtainable hs) (filters := [filt]) (by simpa using hf) hell).1.2
    ⟨k, v, hk, by simpa using hno⟩
  simp only [handScan, partitionModule, h2, h3, ← getState_det wf.heap hl hs h3, this]

omit [DecidableEq α] in
theorem leafSizes_isSome {R : Arrays α} {a : Int} {s : State (PyVal α)} {sz : List Nat} (h : leafSizes R a s = some sz) {k : Str} {x : PyVal α}
    (hk : s.get k = some x) {ls : List α} (hls : x.leaves = some ls) : ∀ y ∈ ls, (R.size a y).isSome := by
  intro y hy
  rw [leafSizes] at h
  cases h1 : allSome (s.mapping.map fun kv => kv.2.leaves) with
  | none => rw [h1] at h; cases h
  | some lss =>
    rw [h1] at h
    obtain ⟨i, hi⟩ := List.mem_iff_getElem?.1 (dget_mem hk)
    obtain ⟨ls', e, hat⟩ := (allSome_map_spec _ _ h1).2 i _ hi
    have hm : y ∈ lss.flatten := List.mem_flatten.2 ⟨ls, by
      rw [hls] at e; cases e; exact List.mem_of_getElem? hat, hy⟩
    obtain ⟨j, hj⟩ := List.mem_iff_getElem?.1 hm
    obtain ⟨m, e, _⟩ := (allSome_map_spec _ _ h).2 j _ hj
    rw [e]; rfl

/-- **C104, lengths.** If an array of the module does not have one slice for each slice of the argument (or no first axis at all), ValueError, and nothing has
changed. -/
theorem C104_wrong_length {w : World α} (wf : WFWorld w) {l : Loc} (hl : l < w.heap.length) {k0 : Nat} {fin : State (PyVal α)}
    {d : ModuleDef α} (hpart : partitionModule k0 w.heap l [] = .ok ([fin], d)) {filt : Filter α} (hf : filt.WellFormed)
    (hfin : ∀ k v, fin.get k = some v → filt.Matches k v) {R : Arrays α}
    (harr : ∀ k v, fin.get k = some v → AllArrays (fun _ => True) v) {xs : List X}
    {k : Str} {v : PyVal α} (hk : fin.get k = some v) (hno : ¬ AllArrays (fun y => R.size 0 y = some xs.length) v) (j : Nat)
    (f : X → C → Loc → World α → World α × Except Err (C × B)) (c : C) {fuel : Nat} (hfuel : w.heap.length < fuel) :
    handScan R fuel filt j l f c xs w = (w, .error .valueError) := by
  obtain ⟨hs, hd⟩ := partition_nil hpart
  obtain ⟨s1, d1, hb⟩ := partition_budget wf hl
  obtain ⟨h1, h2, h3⟩ := hb fuel hfuel
  rw [← getState_det wf.heap hl hs h3] at h1
  cases hnone : leafSizes R 0 fin with
  | none => simp only [handScan, partitionModule_single h1 hf hfin, hnone]
  | some sz0 =>
  have harr : ∀ k v, fin.get k = some v → AllArrays (fun y => (R.size 0 y).isSome) v := by
    intro k x hx
    obtain ⟨ls, hls, -⟩ := allArrays_iff.1 (harr k x hx)
    exact allArrays_iff.2 ⟨ls, hls, leafSizes_isSome hnone hx hls⟩
  obtain ⟨sz, hsz, hmem⟩ := leafSizes_spec (R := R) (a := 0) (getState_canonical hs) fun k x hx => allArrays_iff.1 (harr k x hx)
  have hall : (sz.all fun m => decide (m = xs.length)) = false := by
    rw [Bool.eq_false_iff]
    intro h
    simp only [List.all_eq_true, decide_eq_true_eq] at h
    refine hno (allArrays_iff.2 ?_)
    obtain ⟨ls, hls, hy⟩ := allArrays_iff.1 (harr k v hk)
    refine ⟨ls, hls, fun y hyl => ?_⟩
    obtain ⟨m, hm⟩ := Option.isSome_iff_exists.1 (hy y hyl)
    rw [hm, h m ((hmem m).2 ⟨k, v, ls, y, hk, hls, hyl, hm⟩)]
  simp only [handScan, partitionModule_single h1 hf hfin, hsz, hall, Bool.false_eq_true, if_false]

/-! ### Examples -/

theorem isStack_of {R : Arrays α} {ss : List (State (PyVal α))} {fin : State (PyVal α)} (h1 : StrictSorted fin.mapping)
    (h2 : ∀ t ∈ ss, t.keys = fin.keys) (h3 : ∀ kv ∈ fin.mapping, stackVals R 0 (ss.filterMap fun t => t.get kv.1) = some kv.2) : IsStack R ss fin := by
  refine ⟨h1, ?_, fun k v hk => stackedVal_iff.2 (h3 _ (dget_mem hk))⟩
  intro t ht k
  rw [Bool.eq_iff_iff]
  simp only [State.get, dget_isSome]
  exact iff_of_eq (congrArg (k ∈ ·) (h2 t ht))

/-- The stacked variables of the three layers, before and after the loop. -/
def exHandFin (v : Int) : State (PyVal Arr) :=
  ⟨[(py! "b", exVar cCache (.vec [10, 10, 10])), (py! "w", exShVar cParam (.vec [v, v + 1, v + 2]) [.str (py! "embed")])]⟩

theorem exHand_stack (v : Nat) : IsStack arrOps [exLayerState v, exLayerState (v + 1), exLayerState (v + 2)] (exHandFin v) := by
  refine isStack_of (strictSorted_of_keys (d := (exHandFin 0).mapping) rfl (by unfold StrictSorted; decide)) ?_ ?_
  · intro t ht
    simp only [List.mem_cons, List.not_mem_nil, or_false] at ht
    rcases ht with rfl | rfl | rfl <;> rfl
  · intro kv hkv
    simp only [exHandFin, List.mem_cons, List.not_mem_nil, or_false] at hkv
    rcases hkv with rfl | rfl <;> rfl

theorem exHand_matches {v : Int} {k : Str} {x : PyVal Arr} (hk : (exHandFin v).get k = some x) : (Filter.ofType cVariable : Filter Arr).Matches k x := by
  have hm := dget_mem hk
  simp only [exHandFin, List.mem_cons, Prod.mk.injEq, List.not_mem_nil, or_false] at hm
  rcases hm with ⟨rfl, rfl⟩ | ⟨rfl, rfl⟩ <;> rfl

/-- The hypotheses hold for the example: three layers made and scanned by hand, with the results of C83's example (there `b` is broadcast). -/
example : ∃ w1 r w' limit, ∀ fuel, limit < fuel →
    handInit arrOps fuel 7 3 (fun i => exLayerInit (some (exInitCtx (130 + i)))) ⟨[], 0, 0, []⟩ = (w1, .ok r) ∧
    handScan arrOps fuel (.ofType cVariable) 9 r (calls exLayerBody) 1 [(none, some 100), (none, some 200), (none, some 300)] w1 =
      (w', .ok (9148, [230, 331, 432])) ∧
    getState fuel w'.heap r = some (exHandFin 131) := by
  obtain ⟨d, hd⟩ : ∃ d, ∀ key, partitionModule 2 (exLayerWorld key).heap 0 [] = .ok ([exLayerState key], d) :=
    ⟨(getModuleDef 2 (exLayerWorld 0).heap 0).get rfl, fun _ => rfl⟩
  obtain ⟨w1, r, w', limit, h⟩ := C104_constructed (w := ⟨[], 0, 0, []⟩) (n := 3) (by decide) (j := 7)
    (ctor := fun i => exLayerInit (some (exInitCtx (130 + i)))) (ws := fun i => exLayerWorld (130 + i)) (ms := fun _ => 0)
    (fun i _ => exLayerInit_run _) (fun i _ => exLayerWorld_wf _) (fun _ _ => Nat.one_pos) (fun i _ => exLayerWorld_valid _)
    (ss := fun i => exLayerState (130 + i)) (fun i _ => hd _) arrOps_laws (exHand_stack 130) (filt := .ofType cVariable) trivial
    (fun k v => exHand_matches) exLayerBody_good exLayersRun
    (by
      intro t ht k y hk
      obtain ⟨key, hkey⟩ : ∃ key, t.1 = exLayerState key := by
        simp only [List.mem_cons, List.not_mem_nil, or_false] at ht
        rcases ht with rfl | rfl | rfl <;> exact ⟨_, rfl⟩
      rw [hkey] at hk
      have hm := dget_mem hk
      simp only [exLayerState, List.mem_cons, Prod.mk.injEq, List.not_mem_nil, or_false] at hm
      rcases hm with ⟨rfl, rfl⟩ | ⟨rfl, rfl⟩ <;> rfl)
    (fin' := exHandFin 131) (exHand_stack 131)
    (by
      intro k hk
      simp only [State.get, dget_isSome] at hk ⊢
      exact hk) 9
  refine ⟨w1, r, w', limit, fun fuel hf => ?_⟩
  obtain ⟨h1, h2, h3⟩ := h fuel hf
  exact ⟨h1, h2, (partition_nil h3).1⟩

theorem exLayer_variables {key : Nat} {k : Str} {x : PyVal Arr} (hk : (exLayerState key).get k = some x) :
    (Filter.ofType cVariable : Filter Arr).Matches k x := by
  have hm := dget_mem hk
  simp only [exLayerState, List.mem_cons, Prod.mk.injEq, List.not_mem_nil, or_false] at hm
  rcases hm with ⟨rfl, rfl⟩ | ⟨rfl, rfl⟩ <;> rfl

/-- The same with `nnx.scan`. -/
example : ∃ w1 r limit, ∀ fuel, limit < fuel → ∃ w' w'',
    handScan arrOps fuel (.ofType cVariable) 9 r (calls exLayerBody) 1 [(none, some 100), (none, some 200), (none, some 300)] w1 =
      (w', .ok (9148, [230, 331, 432])) ∧
    scanApply arrOps exSplit fuel { variableAxes := [(.ofType cVariable, 0)] } 9 r (scanBody (calls exLayerBody)) 1 (some [100, 200, 300]) none w1 =
      (w'', .ok (9148, [230, 331, 432])) ∧
    ∀ k v, (exHandFin 131).get k = some v → observe w'.heap r (splitSlash k) = some (.value v) ∧ observe w''.heap r (splitSlash k) = some (.value v) := by
  obtain ⟨d, hd⟩ : ∃ d, ∀ key, partitionModule 2 (exLayerWorld key).heap 0 [] = .ok ([exLayerState key], d) :=
    ⟨(getModuleDef 2 (exLayerWorld 0).heap 0).get rfl, fun _ => rfl⟩
  obtain ⟨w1, r, limit, h⟩ := C104_hand_written_init (w := ⟨[], 0, 0, []⟩) (n := 3) (by decide) (j := 7)
    (ctor := fun i => exLayerInit (some (exInitCtx (130 + i)))) (ws := fun i => exLayerWorld (130 + i)) (ms := fun _ => 0)
    (fun i _ => exLayerInit_run _) (fun i _ => exLayerWorld_wf _) (fun _ _ => Nat.one_pos)
    (ss := fun i => exLayerState (130 + i)) (fun i _ => hd _) (exHand_stack 130)
  obtain ⟨_, h2, h3, h4, h5, _⟩ := h (limit + 1) (Nat.lt_succ_self _)
  refine ⟨w1, r, C104_as_nnx_scan (A := Int) (κ := Nat) h3 h4 h5 h2 (n := 3) (by decide) (ws := fun i => exLayerWorld (130 + i)) (ms := fun _ => 0)
    (fun i _ => exLayerWorld_wf _) (fun _ _ => Nat.one_pos) (fun i _ => exLayerWorld_valid _) (ss := fun i => exLayerState (130 + i)) (fun i _ => hd _)
    arrOps_laws (exHand_stack 130) (filt := .ofType cVariable) trivial (fun k v => exHand_matches) (fun _ _ _ _ => exLayer_variables)
    (o := { variableAxes := [(.ofType cVariable, 0)] }) rfl rfl rfl (ps := [exLayerState 130, ⟨[]⟩, ⟨[]⟩]) rfl (args := some [100, 200, 300])
    (by intro as h; cases h; rfl) nofun (.inr nofun) (split := exSplit) (p := fun _ => false) (ctx := none) nofun (fun _ => rfl) exLayerBody_good exLayersRun
    (by
      intro t ht k y hk
      obtain ⟨key, hkey⟩ : ∃ key, t.1 = exLayerState key := by
        simp only [List.mem_cons, List.not_mem_nil, or_false] at ht
        rcases ht with rfl | rfl | rfl <;> exact ⟨_, rfl⟩
      rw [hkey] at hk
      exact exLayer_variables hk)
    (fin' := exHandFin 131) (exHand_stack 131) (by
      intro k hk
      simp only [State.get, dget_isSome] at hk ⊢
      exact hk) 9 9⟩

/-- With `partition(nnx.Param)`, the Cache is left over. -/
example : handScan (X := Unit) (C := Unit) (B := Unit) arrOps 5 (.ofType cParam) 9 0 (fun _ _ _ w => (w, .ok ((), ()))) () [()] (exLayerWorld 1) =
    (exLayerWorld 1, .error .valueError) :=
  C104_other_variables (exLayerWorld_wf 1) Nat.one_pos (k0 := 2) (fin := exLayerState 1) (d := (getModuleDef 2 (exLayerWorld 0).heap 0).get rfl) rfl
    (filt := .ofType cParam) trivial (k := py! "b") rfl (by intro h; cases h) _ _ _ _ _ (by decide)

/-- Three layers, two slices. -/
example : ∃ w1 r limit, ∀ fuel, limit < fuel →
    handScan (C := Unit) (B := Unit) arrOps fuel (.ofType cVariable) 9 r (fun _ _ _ w => (w, .ok ((), ()))) () [true, false] w1 = (w1, .error .valueError) := by
  obtain ⟨d, hd⟩ : ∃ d, ∀ key, partitionModule 2 (exLayerWorld key).heap 0 [] = .ok ([exLayerState key], d) :=
    ⟨(getModuleDef 2 (exLayerWorld 0).heap 0).get rfl, fun _ => rfl⟩
  obtain ⟨w1, r, limit, h⟩ := C104_hand_written_init (w := ⟨[], 0, 0, []⟩) (n := 3) (by decide) (j := 7)
    (ctor := fun i => exLayerInit (some (exInitCtx (130 + i)))) (ws := fun i => exLayerWorld (130 + i)) (ms := fun _ => 0)
    (fun i _ => exLayerInit_run _) (fun i _ => exLayerWorld_wf _) (fun _ _ => Nat.one_pos)
    (ss := fun i => exLayerState (130 + i)) (fun i _ => hd _) (exHand_stack 130)
  obtain ⟨_, h2, h3, h4, _, _⟩ := h (limit + 1) (Nat.lt_succ_self _)
  refine ⟨w1, r, w1.heap.length, fun fuel hf => ?_⟩
  refine C104_wrong_length h3 h4 h2 (filt := .ofType cVariable) trivial (fun k v => exHand_matches) ?_ (k := py! "w") rfl ?_ 9 _ _ hf
  · intro k v hk
    have hm := dget_mem hk
    simp only [exHandFin, List.mem_cons, Prod.mk.injEq, List.not_mem_nil, or_false] at hm
    refine allArrays_iff.2 ?_
    rcases hm with ⟨rfl, rfl⟩ | ⟨rfl, rfl⟩
    · exact ⟨[.vec [10, 10, 10]], rfl, fun _ _ => trivial⟩
    · exact ⟨[.vec [130, 131, 132]], rfl, fun _ _ => trivial⟩
  · intro h
    obtain ⟨ls, hls, hy⟩ := allArrays_iff.1 h
    cases hls
    exact absurd (hy _ List.mem_cons_self) (by decide)

end Nnx
