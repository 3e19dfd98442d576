import Verif.Proofs.Congruence
import Verif.Proofs.StackIndex
import Verif.Props.Scan
import Verif.Props.ScanInitMethod
/-
C82 (observationally equal modules are interchangeable) and C83 (a scan over stacked layers is a loop over the layers).
-/
namespace Nnx
variable {α β κ A B C : Type} [DecidableEq α]

/-! ### C82 -/

/-- **C82.** Let `m` and `m'` be modules, in any two worlds, that are observationally equal and may be modified. Any function that gets
`m` or `m'` returns the same or raises the same, and leaves them observationally equal. -/
theorem C82_interchangeable {w w' : World α} (wf : WFWorld w) (wf' : WFWorld w') {m m' : Loc} (hm : m < w.heap.length)
    (hm' : m' < w'.heap.length) (g : SameGraph w.heap m w'.heap m') (hv : AllValid w m) (hv' : AllValid w' m') {p : Prog α β} (hp : p.Good) :
    (p.call m w).2 = (p.call m' w').2 ∧ SameGraph (p.call m w).1.heap m (p.call m' w').1.heap m' :=
  let h := g.run wf wf' hm hm' hv hv' hp
  ⟨h.1, h.2.1⟩

/-- **C82, merged modules.** What `partition` and `merge` (in any world) make of a module behaves as the module. -/
theorem C82_merged {w w0 : World α} (wf : WFWorld w) (wf0 : WFWorld w0) {m : Loc} (hm : m < w.heap.length) (hv : AllValid w m) {k : Nat}
    {ss : List (State (PyVal α))} {d : ModuleDef α} (e : partitionModule k w.heap m [] = .ok (ss, d)) {p : Prog α β} (hp : p.Good) :
    ∃ w1 m1, mergeDef d ss w0 = (w1, .ok m1) ∧ (p.call m w).2 = (p.call m1 w1).2 ∧
      SameGraph (p.call m w).1.heap m (p.call m1 w1).1.heap m1 := by
  obtain ⟨w1, m1, hmerge, g, wf1, _, htr⟩ := C11_partition_merge wf.heap hm e wf0
  obtain ⟨s, rfl⟩ : ∃ s, ss = [s] := by
    simp only [partitionModule] at e
    split at e
    · cases e; exact ⟨_, rfl⟩
    · cases e
  obtain ⟨hs, hd⟩ := partition_nil e
  obtain ⟨w2, f, hm2, sp⟩ := mergeDef_spec wf.heap hm hd hs (pieces_self (getState_canonical hs)) (w := w0) wf0.heap.conts
  rw [hmerge] at hm2
  cases hm2
  have hm1 : w0.heap.length < w1.heap.length := by
    obtain ⟨x, hx, _⟩ := sp.iso.obj m _ ⟨[], .here hm⟩ (List.getElem?_eq_getElem hm)
    rw [sp.iso.root] at hx
    exact (List.getElem?_eq_some_iff.1 hx).1
  have hv1 : AllValid w1 w0.heap.length := by
    intro l o hr ho
    have := (htr l o hr ho).2
    rw [traceValid_eq, this]
    simp only [World.curTrace, sp.jax, sp.stack]
  exact ⟨w1, _, hmerge, C82_interchangeable wf wf1 hm hm1 g hv hv1 hp⟩

/-! ### C83 -/

variable {w : World α} {l : Loc} {fin : State (PyVal α)} {d : ModuleDef α}

/-- A layer that the scanned module can be updated to. -/
structure LayerLike (fin : State (PyVal α)) (d : ModuleDef α) (inp : State (PyVal α)) (w : World α) (m : Loc) : Prop where
  wf : WFWorld w
  lt : m < w.heap.length
  valid : AllValid w m
  state : getState (w.heap.length + 1) w.heap m = some inp
  def_ : getModuleDef (w.heap.length + 1) w.heap m = some d
  paths : ∀ k, (inp.get k).isSome = (fin.get k).isSome
  kind : ∀ k u y, fin.get k = some u → inp.get k = some y → SameKind u y

/-- From a loop over the layers to a loop that updates the scanned module to each of them. -/
theorem loop_of_layers {X : Type} (wf : WFWorld w) (hl : l < w.heap.length) (hv : AllValid w l)
    (hs : getState (w.heap.length + 1) w.heap l = some fin) (hd : getModuleDef (w.heap.length + 1) w.heap l = some d)
    {body : X → C → Prog α (C × B)} (hb : ∀ x c, (body x c).Good) :
    ∀ (ls : List (State (PyVal α) × (World α × Loc) × X)), (∀ e ∈ ls, LayerLike fin d e.1 e.2.1.1 e.2.1.2) →
    ∀ {c c' : C} {outs}, LayersRun (calls body) (ls.map fun e => (e.2.1, e.2.2)) c c' outs →
    (∀ t ∈ outs, ∀ k, fin.get k = none → t.1.get k = none) →
    ∀ {v : World α} {s : State (PyVal α)}, Evolves w v l → getState (v.heap.length + 1) v.heap l = some s →
      (∀ k, fin.get k = none → s.get k = none) →
    ∃ vl sl, LoopRun (calls body) l v c (ls.map fun e => (e.1, e.2.2)) vl c' outs ∧ Evolves w vl l ∧
      getState (vl.heap.length + 1) vl.heap l = some sl ∧ (∀ k, fin.get k = none → sl.get k = none) ∧
      (∀ t ∈ outs, ∀ k x, fin.get k = some x → (t.1.get k).isSome) := by
  intro ls
  induction ls with
  | nil =>
    intro _ c c' outs run _ v s ev hsv hno
    cases run
    exact ⟨v, s, .done, ev, hsv, hno, fun t ht => by cases ht⟩
  | cons e ls ih =>
    obtain ⟨inp, ⟨wi, mi⟩, x⟩ := e
    intro hall c c' outs run hnew v s ev hsv hno
    have L := hall _ List.mem_cons_self
    simp only [List.map_cons] at run
    cases run with
    | @next _ wi' _ _ _ c1 _ y t _ outs hc hn ht run =>
    have hlv := Nat.lt_of_lt_of_le hl ev.keeps.len
    obtain ⟨v1, s1, hu, ev1, hs1, hget, hlen1, _⟩ := ev.update wf hl hv hsv (getState_canonical L.state) (by
      intro k y hk
      obtain ⟨u0, h0⟩ := Option.isSome_iff_exists.1 (by rw [← L.paths, hk]; rfl : (fin.get k).isSome = true)
      obtain ⟨u, h1, h2⟩ := ev.state wf hl hs hsv h0
      obtain ⟨_, _, _, _, hnode⟩ := (state_paths L.wf.heap L.lt L.state).1 k y hk
      exact ⟨u, h1, (getState_good L.wf.heap L.lt L.state k y (dget_mem hk)).1, hnode, h2.symm.trans (L.kind k u0 y h0 hk)⟩)
    have hl1 := Nat.lt_of_lt_of_le hl ev1.keeps.len
    have e1 : s1 = inp := by
      refine State.Canonical.ext (getState_canonical hs1) (getState_canonical L.state) ?_
      intro k
      rw [hget]
      cases hk : inp.get k with
      | some y => rfl
      | none =>
        rw [Option.none_or]
        refine hno k ?_
        cases h : fin.get k with
        | none => rfl
        | some u => have := L.paths k; rw [hk, h] at this; cases this
    subst e1
    have hd1 := ev1.moduleDef wf hl hd (Nat.lt_succ_self _)
    have g : SameGraph v1.heap l wi.heap mi := C24_partition_complete ev1.wf.heap L.wf.heap hl1 L.lt
      (f := v1.heap.length + 1) (f' := wi.heap.length + 1) (ss := [s1]) (d := d)
      (by simp only [partitionModule, hs1, hd1]) (by simp only [partitionModule, L.state, L.def_])
    obtain ⟨r1, r2, r3⟩ := g.run ev1.wf L.wf hl1 L.lt (ev1.valid wf hl hv) L.valid (hb x c)
    dsimp only [calls] at hc
    rw [hc] at r1 r2 r3
    have hcall : (body x c).call l v1 = (((body x c).call l v1).1, .ok (c1, y)) := Prod.ext rfl r1
    have ev2' := Evolves.call ev1.wf hl1 (hb x c).parametric hcall (r3 hn)
    have ev2 := ev1.trans wf hl ev2'
    have hl2 := Nat.lt_of_lt_of_le hl ev2.keeps.len
    have evi := Evolves.call L.wf L.lt (hb x c).parametric hc hn
    obtain ⟨s2, d2, q1, q2⟩ := C24_partition_canonical ev2.wf.heap evi.wf.heap hl2 (Nat.lt_of_lt_of_le L.lt evi.keeps.len) r2
      (Nat.lt_succ_self _) (Nat.lt_succ_self _)
    have h2 := (partition_nil q1).1
    have h2' := (partition_nil q2).1
    rw [ht] at h2'
    cases h2'
    obtain ⟨vl, sl, lrun, evl, hsl, hnl, hall'⟩ := ih (fun e he => hall e (List.mem_cons_of_mem _ he)) run
      (fun t ht => hnew t (List.mem_cons_of_mem _ ht)) ev2 h2 (hnew _ List.mem_cons_self)
    refine ⟨vl, sl, .next hu hcall (r3 hn) h2 lrun, evl, hsl, hnl, ?_⟩
    intro t' ht' k z hz
    rcases List.mem_cons.1 ht' with rfl | h
    · obtain ⟨q, hq, _⟩ := ev2.state wf hl hs h2 hz
      rw [hq]; rfl
    · exact hall' t' h k z hz

/-- What the module with stacked variables has in common with layer `i`. -/
theorem stacked_layer {R : Arrays α} (laws : ArrayLaws R) {o : ScanOptions α} {n : Nat} {ss : Nat → State (PyVal α)} (U : UniformInit o n ss)
    (F : IsInit R o n ss fin) (hname : dget o.metadata kPartitionName = none)
    (hstay : ∀ k x v g, (ss 0).get k = some x → fin.get k = some v → FirstMatch o.filters k x g → FirstMatch o.filters k v g)
    (hcov : ∀ k x g, (ss 0).get k = some x → FirstMatch o.filters k x g → g ≤ o.variableAxes.length)
    {k : Str} {v : PyVal α} (hk : fin.get k = some v) : ∃ g, FirstMatch o.filters k v g ∧ g ≤ o.variableAxes.length ∧
      ∀ i < n, (g = o.variableAxes.length → (ss i).get k = some v) ∧ ∀ f a, o.variableAxes[g]? = some (f, a) →
        (∃ u, v.mapLeaves (R.index a i) = some u ∧ (ss i).get k = some u) ∧
        ∃ ls, v.leaves = some ls ∧ ∀ y ∈ ls, R.size a y = some n := by
  obtain ⟨x, hx⟩ := Option.isSome_iff_exists.1 (F.only k (by rw [hk]; rfl))
  obtain ⟨g, hg⟩ := U.total k x hx
  refine ⟨g, hstay k x v g hx hk hg, hcov k x g hx hg, ?_⟩
  intro i hi
  constructor
  · intro he
    have h1 := F.rest k x g hx hg (Nat.le_of_eq he.symm)
    rw [hk, Option.some.injEq] at h1
    rw [U.common i hi k x g hx hg (Nat.le_of_eq he.symm), h1]
  · intro f a hga
    obtain ⟨v0, v', hv0, hv', hf⟩ := F.axes' k x g f a hx hga hg
    rw [hk, Option.some.injEq] at hf
    subst hf
    have hv' : v = v0 := by
      rcases hv' with ⟨_, h⟩ | ⟨name, h, _⟩
      · exact h
      · rw [hname] at h; cases h
    subst hv'
    -- the values of the layers
    have hall : ∀ j < n, ∃ u, (ss j).get k = some u := by
      intro j hj
      have := U.paths j hj k
      rw [hx] at this
      exact Option.isSome_iff_exists.1 this
    have hmap : ∃ us : List (PyVal α), (List.range n).filterMap (fun i => (ss i).get k) = us ∧ us.length = n ∧
        ∀ j < n, us[j]? = (ss j).get k := by
      refine ⟨_, rfl, ?_⟩
      have hfm : (List.range n).filterMap (fun i => (ss i).get k) = (List.range n).map fun i => ((ss i).get k).getD .none := by
        rw [← List.filterMap_eq_map]
        refine List.filterMap_congr ?_
        intro j hj
        obtain ⟨u, hu⟩ := hall j (List.mem_range.1 hj)
        simp [hu]
      rw [hfm]
      refine ⟨by simp, ?_⟩
      intro j hj
      obtain ⟨u, hu⟩ := hall j hj
      simp [List.getElem?_range hj, hu]
    obtain ⟨us, hus, hlen, hget⟩ := hmap
    rw [hus] at hv0
    obtain ⟨u, hu⟩ := hall i hi
    cases us with
    | nil => cases hv0
    | cons u0 us =>
      refine ⟨⟨u, ?_, hu⟩, ?_⟩
      · exact zipLeaves_index (i := i) (n := n) (fun as z hz hl => laws.index a as z hz i (by rw [hl]; exact hi)) u0 hv0 hlen (by rw [hget i hi, hu])
      · exact zipLeaves_leaves (n := n) (fun as z hz hl => by
          have := laws.size a as z hz (by rw [hl]; exact Nat.zero_lt_of_lt hi)
          rw [hl] at this; exact this) u0 hv0 hlen

/-- **C83.** Let layers `ms 0, ..., ms (n-1)` be modules with equal module definitions, and let the module `l` have that module definition
and the stacked variables of the layers, as `nnx.Scan` makes it. A scan of `body` over `l` returns the carry and the outputs of the loop
that calls `body` with the layers, one after the other; after it, the variables of `l` are the stacked variables of the layers after the
loop. (For collections that are scanned over or broadcast; with a carry collection there are no layers that have it.) -/
theorem C83_scan_of_layers (wf : WFWorld w) (hl : l < w.heap.length) (hv : AllValid w l)
    {fuel : Nat} (hpart : partitionModule fuel w.heap l [] = .ok ([fin], d))
    {n : Nat} (hn : 0 < n) {ws : Nat → World α} {ms : Nat → Loc} (hwf : ∀ i < n, WFWorld (ws i)) (hms : ∀ i < n, ms i < (ws i).heap.length)
    (hvs : ∀ i < n, AllValid (ws i) (ms i)) {ss : Nat → State (PyVal α)}
    (hss : ∀ i < n, partitionModule ((ws i).heap.length + 1) (ws i).heap (ms i) [] = .ok ([ss i], d))
    {o : ScanOptions α} {ps} (hp : (ss 0).partition o.filters = .ok ps) (U : UniformInit o n ss) {R : Arrays α} (laws : ArrayLaws R)
    (F : IsInit R o n ss fin) (hname : dget o.metadata kPartitionName = none) (hrev : o.reverse = false)
    (hstay : ∀ k x v g, (ss 0).get k = some x → fin.get k = some v → FirstMatch o.filters k x g → FirstMatch o.filters k v g)
    (hcov : ∀ k x g, (ss 0).get k = some x → FirstMatch o.filters k x g → g ≤ o.variableAxes.length)
    {xs : Option (List A)} (hxs : ∀ as, xs = some as → as.length = n) (hlen : ∀ m, o.length = some m → m = n)
    (hknown : o.length = some n ∨ xs ≠ none) {split : κ → Nat → Nat → κ} {p : Str → Bool} {ctx : Option (PureContext κ)}
    (hsel : ctx.isSome = true → toRngPredicate o.splitRngs = .ok p)
    {body : Option (PureContext κ) × Option A → C → Prog α (C × B)} (hb : ∀ x c, (body x c).Good) {c c' : C} {outs}
    (run : LayersRun (calls body) ((List.range n).map fun i => ((ws i, ms i), (ctx.map (stepCtx split p n i), xs.bind fun as => as[i]?))) c c' outs)
    (hafter : ∀ t ∈ outs, ∀ k y, t.1.get k = some y → ∃ x, fin.get k = some x ∧ ∀ g, FirstMatch o.filters k x g → FirstMatch o.filters k y g)
    {fin' : State (PyVal α)} (F' : IsStacked R o fin (outs.map (·.1)) fin') (j : Nat) :
    ∃ w',
      scanApply R split fuel o j l (scanBody (calls body)) c xs ctx w = (w', .ok (c', outs.map (·.2))) ∧
      (∀ k, (fin'.get k).isSome = (fin.get k).isSome) ∧ ∀ k v, fin'.get k = some v → observe w'.heap l (splitSlash k) = some (.value v) := by
  obtain ⟨hs, hd⟩ := partition_nil hpart
  obtain ⟨s1, d1, h1⟩ := partition_budget wf hl
  obtain ⟨_, hd1, hs1⟩ := h1 _ (Nat.lt_succ_self _)
  rw [← getModuleDef_det wf.heap hl hd hd1] at hd1
  rw [← getState_det wf.heap hl hs hs1] at hs1
  have hlay := fun k v hk => stacked_layer (k := k) (v := v) laws U F hname hstay hcov hk
  have hdom : ∀ i < n, ∀ k, ((ss i).get k).isSome = (fin.get k).isSome := by
    intro i hi k
    rw [U.paths i hi k]
    cases hk : fin.get k with
    | none => rw [F.domain U hk]
    | some v => exact F.only k (by rw [hk]; rfl)
  obtain ⟨qs, hq⟩ := partition_of_matches (getState_obtainable (partition_nil (hss 0 hn)).1) (getState_obtainable hs) hp
    (fun k v hk => let ⟨g, hg, _⟩ := hlay k v hk; ⟨g, hg⟩)
  have hslice : ∀ i < n, IsSlice R o fin i (ss i) := by
    intro i hi
    refine ⟨getState_canonical (partition_nil (hss i hi)).1, ?_, ?_, ?_⟩
    · intro k x g f a hx hga hfm
      obtain ⟨g', hg', _, h⟩ := hlay k x hx
      cases hfm.unique hg'
      obtain ⟨⟨u, h1, h2⟩, _⟩ := (h i hi).2 f a hga
      exact ⟨u, sliceVal_iff.2 h1, h2⟩
    · intro k x hx hfm
      obtain ⟨g', hg', _, h⟩ := hlay k x hx
      exact (h i hi).1 (hg'.unique hfm)
    · intro k y hk
      have := hdom i hi k
      rw [hk] at this
      obtain ⟨x, hx⟩ := Option.isSome_iff_exists.1 this.symm
      obtain ⟨g', hg', hle, _⟩ := hlay k x hx
      exact ⟨x, g', hx, hg', hle⟩
  have hlike : ∀ i < n, LayerLike fin d (ss i) (ws i) (ms i) := by
    intro i hi
    obtain ⟨h1, h2⟩ := partition_nil (hss i hi)
    refine ⟨hwf i hi, hms i hi, hvs i hi, h1, h2, hdom i hi, ?_⟩
    intro k u y hu hy
    obtain ⟨g, hg, hle, h⟩ := hlay k u hu
    rcases Nat.lt_or_eq_of_le hle with hlt | heq
    · obtain ⟨⟨z, hz, hz'⟩, _⟩ := (h i hi).2 _ _ (List.getElem?_eq_getElem hlt)
      rw [hy, Option.some.injEq] at hz'
      subst hz'
      exact (mapLeaves_like hz).2.2
    · have := (h i hi).1 heq
      rw [hy, Option.some.injEq] at this
      rw [this]; exact .refl _
  have hlength : HasLength R o fin xs n := by
    refine ⟨?_, hxs, hlen, ?_⟩
    · intro k x g f a hx hga hfm
      obtain ⟨g', hg', _, h⟩ := hlay k x hx
      cases hfm.unique hg'
      exact allArrays_iff.2 ((h 0 hn).2 f a hga).2
    · rcases hknown with h | h
      · exact .inl h
      · exact .inr (.inl h)
  have hnew : ∀ t ∈ outs, ∀ k, fin.get k = none → t.1.get k = none := by
    intro t ht k hk
    cases h : t.1.get k with
    | none => rfl
    | some y => obtain ⟨x, hx, _⟩ := hafter t ht k y h; rw [hk] at hx; cases hx
  obtain ⟨vl, sl, lrun, evl, hsl, hnl, hkeep⟩ := loop_of_layers wf hl hv hs1 hd1 hb
    ((List.range n).map fun i => (ss i, (ws i, ms i), (ctx.map (stepCtx split p n i), xs.bind fun as => as[i]?)))
    (by
      intro e he
      obtain ⟨i, hi, rfl⟩ := List.mem_map.1 he
      exact hlike i (List.mem_range.1 hi))
    (by rw [List.map_map]; exact run) hnew (Evolves.refl wf l) hs1 (fun _ h => h)
  rw [List.map_map] at lrun
  have hgroup : ∀ t ∈ outs, ∀ k y, t.1.get k = some y → ∃ g, FirstMatch o.filters k y g ∧ g ≤ o.variableAxes.length := by
    intro t ht k y hy
    obtain ⟨x, hx, h⟩ := hafter t ht k y hy
    obtain ⟨g, hg, hle, _⟩ := hlay k x hx
    exact ⟨g, h g hg, hle⟩
  have hun : Uniform o fin (outs.map (·.1)) := by
    refine ⟨?_, ?_, ?_, ?_, ?_⟩
    · intro t ht t' ht' k
      obtain ⟨e, he, rfl⟩ := List.mem_map.1 ht
      obtain ⟨e', he', rfl⟩ := List.mem_map.1 ht'
      cases hk : fin.get k with
      | none => rw [hnew e he k hk, hnew e' he' k hk]
      | some v => rw [hkeep e he k v hk, hkeep e' he' k v hk]
    · intro t ht k x y g hx hy hfm
      obtain ⟨e, he, rfl⟩ := List.mem_map.1 ht
      obtain ⟨x', hx', h⟩ := hafter e he k y hy
      rw [hx] at hx'; cases hx'
      exact h g hfm
    · intro t ht k y hk hy
      obtain ⟨e, he, rfl⟩ := List.mem_map.1 ht
      rw [hnew e he k hk] at hy; cases hy
    · intro t ht k hk hy
      obtain ⟨e, he, rfl⟩ := List.mem_map.1 ht
      rw [hnew e he k hk] at hy; cases hy
    · intro t _ t' ht' k x y _ hy hfm
      obtain ⟨e, he, rfl⟩ := List.mem_map.1 ht'
      obtain ⟨g, hg, hle⟩ := hgroup e he k y hy
      have := hg.unique hfm
      exact absurd hle (by rw [this]; exact Nat.not_succ_le_self _)
  have hdom' : ∀ k, (fin'.get k).isSome = (fin.get k).isSome := by
    intro k
    cases hk : fin.get k with
    | none =>
      cases h : fin'.get k with
      | none => rfl
      | some y => obtain ⟨x, _, hx, _⟩ := F'.only k y h; rw [hk] at hx; cases hx
    | some v =>
      obtain ⟨g, hg, hle, _⟩ := hlay k v hk
      rcases Nat.lt_or_eq_of_le hle with hlt | heq
      · obtain ⟨y, _, hy⟩ := F'.axes k v g _ _ hk (List.getElem?_eq_getElem hlt) hg
        rw [hy]; rfl
      · rw [heq] at hg
        rw [F'.broadcast k v hk hg]
  have hins : LoopInputs R o fin xs (fun i => ctx.map (stepCtx split p n i)) n
      ((List.range n).map fun i => (ss i, (ctx.map (stepCtx split p n i), xs.bind fun as => as[i]?))) := by
    refine ⟨by simp, ?_⟩
    intro i inp x h
    simp only [List.getElem?_map, Option.map_eq_some_iff] at h
    obtain ⟨i', hi', h⟩ := h
    obtain ⟨hi, rfl⟩ := List.getElem?_eq_some_iff.1 hi'
    simp only [List.getElem_range, Prod.mk.injEq] at h
    simp only [List.length_range] at hi
    obtain ⟨rfl, rfl⟩ := h
    exact ⟨hslice i hi, rfl⟩
  obtain ⟨d', b, c0, S, hsp, hpm⟩ := scan_setup wf hl hv hs hq (by simpa [dhas] using hname)
  obtain ⟨xsS, hm, heq⟩ := scanApply_eq (B := B) (C := C) S hsp hpm hlength hsel hins
  obtain ⟨wd, hu, ⟨wfd, hld, sl', sf, hsl', hsf, hget⟩, hr⟩ := run_forward S (fun x c => (hb x c).parametric) j lrun
    (by simp only [ne_eq, List.map_eq_nil_iff, List.range_eq_nil]; exact Nat.ne_of_gt hn) hm hrev hun F'
  obtain ⟨w', h1, _, h2, _⟩ := hr fuel (by rw [hs]; rfl)
  refine ⟨w', by rw [heq fuel j _ c hs]; exact h1, hdom', ?_⟩
  intro k v hk
  obtain ⟨a, m, ⟨q, hq, hwk⟩, hat, _⟩ := (state_paths wfd.heap hld hsf).1 k v (by rw [hget, hk]; rfl)
  rw [h2.1, hq]
  simp only [observe, access_snoc hwk, hat, Option.bind_some, shown]

/-- **C83, from construction.** The constructor of `nnx.Scan` and a call: the same as to construct the layers in the contexts of the slices
and to call one after the other. -/
theorem C83_constructed_layers {w : World α} {o : ScanOptions α} {n : Nat} (hn : 0 < n) (hlen : o.length = some n)
    {ctx : Option (PureContext κ)} (hmap : ctx.isSome ∨ o.variableAxes ≠ []) (hkeys : ∀ c, ctx = some c → DNodup c.keys)
    (hvalid : o.splitRngs.Valid) {split : κ → Nat → Nat → κ} {ctxs : Nat → Option (PureContext κ)}
    (hctx : ∀ i < n, SliceCtx split o n i ctx (ctxs i)) {j : Nat}
    {ctor : Option (PureContext κ) → World α → World α × Except Err Loc} {ws : Nat → World α} {ms : Nat → Loc}
    (hrun : ∀ i < n, ctor (ctxs i) { w with jaxTrace := j } = (ws i, .ok (ms i)))
    (hwf : ∀ i < n, WFWorld (ws i)) (hms : ∀ i < n, ms i < (ws i).heap.length) (hvs : ∀ i < n, AllValid (ws i) (ms i))
    {ss : Nat → State (PyVal α)} {d : ModuleDef α}
    (hss : ∀ i < n, partitionModule ((ws i).heap.length + 1) (ws i).heap (ms i) [] = .ok ([ss i], d))
    {ps} (hp : (ss 0).partition o.filters = .ok ps) (U : UniformInit o n ss) {R : Arrays α} (laws : ArrayLaws R)
    (F : IsInit R o n ss fin) (hname : dget o.metadata kPartitionName = none) (hrev : o.reverse = false)
    (hstay : ∀ k x v g, (ss 0).get k = some x → fin.get k = some v → FirstMatch o.filters k x g → FirstMatch o.filters k v g)
    (hcov : ∀ k x g, (ss 0).get k = some x → FirstMatch o.filters k x g → g ≤ o.variableAxes.length)
    {xs : Option (List A)} (hxs : ∀ as, xs = some as → as.length = n) {p : Str → Bool} {ctx1 : Option (PureContext κ)}
    (hsel : ctx1.isSome = true → toRngPredicate o.splitRngs = .ok p)
    {body : Option (PureContext κ) × Option A → C → Prog α (C × B)} (hb : ∀ x c, (body x c).Good) {c c' : C} {outs}
    (run : LayersRun (calls body) ((List.range n).map fun i => ((ws i, ms i), (ctx1.map (stepCtx split p n i), xs.bind fun as => as[i]?))) c c' outs)
    (hafter : ∀ t ∈ outs, ∀ k y, t.1.get k = some y → ∃ x, fin.get k = some x ∧ ∀ g, FirstMatch o.filters k x g → FirstMatch o.filters k y g)
    {fin' : State (PyVal α)} (F' : IsStacked R o fin (outs.map (·.1)) fin') :
    ∃ w1 r limit, ∀ fuel, limit < fuel → scanInit R split fuel o j ctor ctx w = (w1, .ok r) ∧ ∃ w',
      scanApply R split fuel o j r (scanBody (calls body)) c xs ctx1 w1 = (w', .ok (c', outs.map (·.2))) ∧
      ∀ k v, fin'.get k = some v → observe w'.heap r (splitSlash k) = some (.value v) := by
  obtain ⟨w1, r, limit, h1, h2, h3, h4, h5, h6, _, h7⟩ := C80_scan_init hn hlen hmap hkeys hvalid hctx hrun hwf hms
    (fun i hi => (partition_nil (hss i hi)).1) (fun i hi => (partition_nil (hss i hi)).2) hp U F
  have hv1 : AllValid w1 r := by
    intro a x ha hx
    rw [traceValid_eq, (h7 a x ha hx).2]
    simp only [World.curTrace, h5, h6]
  refine ⟨w1, r, max limit w1.heap.length, ?_⟩
  intro fuel hf
  obtain ⟨s1, d1, hb1⟩ := partition_budget h3 h4
  rw [(hb1 _ (Nat.lt_succ_self _)).1] at h2
  cases h2
  obtain ⟨w', q1, _, q2⟩ := C83_scan_of_layers h3 h4 hv1 (hb1 fuel (Nat.lt_of_le_of_lt (Nat.le_max_right _ _) hf)).1 hn hwf hms hvs hss hp U laws
    F hname hrev hstay hcov hxs (fun m h => by rw [hlen] at h; cases h; rfl) (.inl hlen) hsel hb run hafter F' j
  exact ⟨h1 fuel (Nat.lt_of_le_of_lt (Nat.le_max_left _ _) hf), w', q1, q2⟩

/-! ### Examples -/

theorem nums_eq : ∀ {xs : List Arr} {vs : List Int}, Arr.nums xs = some vs → xs = vs.map .num
  | [], _, h => by cases h; rfl
  | .num v :: xs, vs, h => by
    simp only [Arr.nums, Option.map_eq_some_iff] at h
    obtain ⟨us, h, rfl⟩ := h
    rw [nums_eq h]; rfl
  | .vec _ :: _, _, h => by cases h

/-- The example's arrays satisfy the laws. -/
theorem arrOps_laws : ArrayLaws arrOps := by
  refine ⟨?_, ?_⟩ <;> intro a xs v h
  · intro i hi
    simp only [arrOps] at h ⊢
    split at h
    · obtain ⟨vs, h1, rfl⟩ := Option.map_eq_some_iff.1 h
      rw [nums_eq h1]
      simp_all
    · cases h
  · intro hx
    simp only [arrOps] at h ⊢
    split at h
    · obtain ⟨vs, h1, rfl⟩ := Option.map_eq_some_iff.1 h
      rw [nums_eq h1]
      simp_all
    · cases h

/-- `w = m.w; m.w = w + 1; return carry * 2 + w * m.b, w + x` -/
def exLayerBody (x : Option (PureContext Nat) × Option Int) (c : Int) : Prog Arr (Int × Int) :=
  .get 0 (py! "w") fun w => .get 0 (py! "b") fun b =>
  .set 0 (py! "w") (.data cArray (.num (numOf w + 1))) fun _ =>
  .ret (c * 2 + numOf w * numOf b, numOf w + x.2.getD 0)

theorem exLayerBody_good (x c) : (exLayerBody x c).Good := by
  intro _ _ _ _
  exact ⟨⟨by unfold NoSlash; decide, by decide⟩, .inl trivial, fun _ => trivial⟩

def exLayerAfter (key : Nat) (y : Int) : State (PyVal Arr) × Int := (exLayerState (key + 1), y)

theorem exLayerWorld_valid (key : Nat) : AllValid (exLayerWorld key) 0 := by
  rintro l o ⟨p, hp⟩ ho
  have := List.mem_of_getElem? ho
  simp only [exLayerWorld, List.mem_cons, List.not_mem_nil, or_false] at this
  subst this; rfl

theorem exLayersRun : LayersRun (calls exLayerBody) ((List.range 3).map fun i =>
      ((exLayerWorld (130 + i), 0), ((none : Option (PureContext Nat)).map (stepCtx exSplit (fun _ => false) 3 i), (some [100, 200, 300]).bind fun as => as[i]?)))
    1 9148 [exLayerAfter 130 230, exLayerAfter 131 331, exLayerAfter 132 432] :=
  .next rfl (nodesOnly_of_check (by decide) (by decide)) rfl (.next rfl (nodesOnly_of_check (by decide) (by decide)) rfl
    (.next rfl (nodesOnly_of_check (by decide) (by decide)) rfl .done))

/-- The stacked variables after the loop. -/
def exMethodFin' : State (PyVal Arr) :=
  ⟨[(py! "b", exVar cCache (.num 10)), (py! "w", exShVar cParam (.vec [131, 132, 133]) [.str (py! "embed")])]⟩

theorem exInitOptsP_wf : ∀ f ∈ exInitOptsP.filters, f.WellFormed := exFilters_wf

theorem exFin_match {k : Str} {v : PyVal Arr} (hk : exMethodFin.get k = some v) :
    (k = py! "b" ∧ v = exVar cCache (.num 10)) ∨ (k = py! "w" ∧ v = exShVar cParam (.vec [130, 131, 132]) [.str (py! "embed")]) := by
  have hm := dget_mem hk
  simpa only [exMethodFin, List.mem_cons, Prod.mk.injEq, List.not_mem_nil, or_false] using hm

/-- The hypotheses of C83 hold for the example: `nnx.Scan` of three layers, called. -/
theorem exConstructed : ∃ w1 r limit, ∀ fuel, limit < fuel →
    scanInit arrOps exSplit fuel exInitOptsP 7 exLayerInit (some (exInitCtx 1)) ⟨[], 0, 0, []⟩ = (w1, .ok r) ∧ ∃ w',
      scanApply arrOps exSplit fuel exInitOptsP 7 r (scanBody (calls exLayerBody)) 1 (some [100, 200, 300]) none w1 = (w', .ok (9148, [230, 331, 432])) ∧
      observe w'.heap r [py! "w"] = some (.value (exShVar cParam (.vec [131, 132, 133]) [.str (py! "embed")])) := by
  obtain ⟨d, hd⟩ : ∃ d, ∀ key, partitionModule 2 (exLayerWorld key).heap 0 [] = .ok ([exLayerState key], d) :=
    ⟨(getModuleDef 2 (exLayerWorld 0).heap 0).get rfl, fun _ => rfl⟩
  obtain ⟨w1, r, limit, h⟩ := C83_constructed_layers (A := Int) (B := Int) (C := Int) (w := ⟨[], 0, 0, []⟩) (o := exInitOptsP) (n := 3) (by decide) rfl
    (ctx := some (exInitCtx 1)) (.inl rfl) exInit_keys (by trivial) (split := exSplit) (ctxs := fun i => some (exInitCtx (130 + i)))
    (fun i hi => by cases exInit_ctx i hi; constructor <;> assumption) (j := 7)
    (ctor := exLayerInit) (ws := fun i => exLayerWorld (130 + i)) (ms := fun _ => 0) (fun i _ => exLayerInit_run _)
    (fun i _ => exLayerWorld_wf _) (fun _ _ => Nat.one_pos) (fun i _ => exLayerWorld_valid _) (ss := fun i => exLayerState (130 + i))
    (fun i _ => hd _) exMethod_part ⟨exInit_uniform.1, exInit_uniform.2, exInit_uniform.3, exInit_uniform.4⟩ arrOps_laws exMethod_fin rfl rfl
    (by
      intro k x v g hx hv hfm
      have hvg : FirstMatch exInitOptsP.filters k v g ↔ _ := firstIdx_iff exInitOptsP_wf
      rcases (exLayer_match hx).1 hfm with ⟨rfl, rfl, rfl⟩ | ⟨rfl, rfl, rfl⟩ <;> cases hv <;> rw [hvg] <;> decide)
    (by
      intro k x g hx hfm
      rcases (exLayer_match hx).1 hfm with ⟨rfl, rfl, rfl⟩ | ⟨rfl, rfl, rfl⟩ <;> decide)
    (xs := some [100, 200, 300]) (by intro as h; cases h; rfl) (p := fun _ => false) (ctx1 := none) nofun exLayerBody_good exLayersRun
    (by
      intro t ht k y hk
      obtain ⟨key, hkey⟩ : ∃ key, t.1 = exLayerState key := by
        simp only [List.mem_cons, List.not_mem_nil, or_false] at ht
        rcases ht with rfl | rfl | rfl <;> exact ⟨_, rfl⟩
      rw [hkey] at hk
      have hm := dget_mem hk
      simp only [exLayerState, List.mem_cons, Prod.mk.injEq, List.not_mem_nil, or_false] at hm
      rcases hm with ⟨rfl, rfl⟩ | ⟨rfl, rfl⟩
      · exact ⟨_, rfl, fun _ h => h⟩
      · refine ⟨_, rfl, ?_⟩
        intro g
        rw [firstIdx_iff exInitOptsP_wf, firstIdx_iff exInitOptsP_wf]
        exact id)
    (fin' := exMethodFin') (isStacked_of_check exInitOptsP_wf (by decide))
  refine ⟨w1, r, limit, ?_⟩
  intro fuel hf
  obtain ⟨h1, w', h2, h3⟩ := h fuel hf
  exact ⟨h1, w', h2, h3 (py! "w") _ rfl⟩

end Nnx
