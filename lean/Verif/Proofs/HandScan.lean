import Verif.Model.HandScan
import Verif.Spec.HandScan
import Verif.Props.ScanLayers
/-
The parts of C104: partition with one filter, stacked States, the merged module of a step.
-/
namespace Nnx
variable {α B C X : Type} [DecidableEq α]

omit [DecidableEq α] in
/-- A partition with one filter that everything matches. -/
theorem partition_single {s : State (PyVal α)} (hs : Obtainable s) {f : Filter α} (hf : f.WellFormed) (hall : ∀ k v, s.get k = some v → f.Matches k v) :
    s.partition [f] = .ok [s] := by
  have hell : ¬ MisplacedEllipsis [f] := by
    rintro ⟨i, h1, h2⟩
    simp at h1
  obtain ⟨h1, h2, _⟩ := C02_partition_fails_iff hs (filters := [f]) (by simpa using hf) hell
  cases hpart : s.partition [f] with
  | error e =>
    have := h2 e hpart
    subst this
    obtain ⟨k, v, hk, hno⟩ := h1.1 hpart
    exact absurd (hall k v hk) (hno f List.mem_cons_self)
  | ok ts =>
    obtain ⟨hlen, hfm⟩ := C01_partition_first_match hs hpart
    match ts, hlen with
    | [t], _ =>
      have : t = s := by
        refine State.Canonical.ext (Obtainable.partition hs hpart List.mem_cons_self).canonical hs.canonical ?_
        intro k
        apply Option.ext
        intro v
        rw [hfm 0 t rfl k v]
        constructor
        · exact fun h => h.1
        · exact fun h => ⟨h, ⟨f, rfl, hall k v h⟩, fun j hj => absurd hj (Nat.not_lt_zero _)⟩
      rw [this]

omit [DecidableEq α] in
theorem partitionModule_single {h : Heap α} {l : Loc} {fuel : Nat} {s : State (PyVal α)} {d : ModuleDef α}
    (hp : partitionModule fuel h l [] = .ok ([s], d)) {f : Filter α} (hf : f.WellFormed) (hall : ∀ k v, s.get k = some v → f.Matches k v) :
    partitionModule fuel h l [f] = .ok ([s], d) := by
  obtain ⟨h1, h2⟩ := partition_nil hp
  simp only [partitionModule, h1, h2, partition_single (getState_obtainable h1) hf hall]

/-! ### Stacked States -/

variable {R : Arrays α} {ss : List (State (PyVal α))} {fin : State (PyVal α)}

omit [DecidableEq α] in
/-- The values at a path that all States have. -/
theorem IsStack.list (F : IsStack R ss fin) {k : Str} (hk : (fin.get k).isSome) :
    (ss.filterMap fun t => t.get k).length = ss.length ∧ ∀ (i : Nat) t, ss[i]? = some t → (ss.filterMap fun t => t.get k)[i]? = t.get k := by
  have hfm : (ss.filterMap fun t => t.get k) = ss.map fun t => (t.get k).getD .none := by
    rw [← List.filterMap_eq_map]
    refine List.filterMap_congr ?_
    intro t ht
    have := F.paths t ht k
    rw [hk] at this
    obtain ⟨u, hu⟩ := Option.isSome_iff_exists.1 this
    simp [hu]
  rw [hfm]
  refine ⟨by simp, ?_⟩
  intro i t ht
  have := F.paths t (List.mem_of_getElem? ht) k
  rw [hk] at this
  obtain ⟨u, hu⟩ := Option.isSome_iff_exists.1 this
  simp [ht, hu]

theorem IsStack.compute (F : IsStack R ss fin) (hne : ss ≠ []) (hc : ∀ t ∈ ss, t.Canonical) : stackStates R 0 ss = some fin := by
  cases ss with
  | nil => exact absurd rfl hne
  | cons s ss =>
    obtain ⟨u, h1, h2, h3⟩ := stackStates_spec (R := R) (axis := 0) hc (fun t ht k => by
      rw [F.paths t (List.mem_cons_of_mem _ ht), F.paths s List.mem_cons_self]) (fun k hk => by
      rw [F.paths s List.mem_cons_self] at hk
      obtain ⟨v, hv⟩ := Option.isSome_iff_exists.1 hk
      rw [stackedVal_iff.1 (F.values k v hv)]; rfl)
    rw [h1]
    congr 1
    refine State.Canonical.ext h2 F.sorted ?_
    intro k
    rw [h3, F.paths s List.mem_cons_self]
    cases hk : fin.get k with
    | none => rfl
    | some v => rw [Option.isSome_some, if_pos rfl, stackedVal_iff.1 (F.values k v hk)]

/-- Slice `i` of the stacked State is State `i`. -/
theorem IsStack.slice (laws : ArrayLaws R) (F : IsStack R ss fin) (hc : ∀ t ∈ ss, t.Canonical) {i : Nat} {t : State (PyVal α)} (ht : ss[i]? = some t) :
    sliceState R 0 i fin = some t := by
  have hi := (List.getElem?_eq_some_iff.1 ht).1
  have hmem := List.mem_of_getElem? ht
  have hval : ∀ k v, fin.get k = some v → v.mapLeaves (R.index 0 i) = t.get k := by
    intro k v hk
    obtain ⟨hlen, hget⟩ := F.list (k := k) (by rw [hk]; rfl)
    have hs := stackedVal_iff.1 (F.values k v hk)
    obtain ⟨u, hu⟩ := Option.isSome_iff_exists.1 (by rw [F.paths t hmem k, hk]; rfl : (t.get k).isSome = true)
    have hg := hget i t ht
    generalize (ss.filterMap fun t => t.get k) = us at *
    cases us with
    | nil => cases hs
    | cons u0 us =>
      rw [hu]
      exact zipLeaves_index (i := i) (n := ss.length) (fun as z hz hl => laws.index 0 as z hz i (by rw [hl]; exact hi)) u0 hs hlen (by rw [hg, hu])
  obtain ⟨u, hu⟩ := mapVals_exists (g := fun v => v.mapLeaves (R.index 0 i)) (s := fin) F.sorted (fun k v hk => by
    rw [hval k v hk, F.paths t hmem k, hk]; rfl)
  obtain ⟨h1, h2⟩ := mapVals_spec F.sorted hu
  rw [sliceState, hu]
  congr 1
  refine State.Canonical.ext h1 (hc t hmem) ?_
  intro k
  rw [h2]
  cases hk : fin.get k with
  | some v => exact hval k v hk
  | none =>
    have := F.paths t hmem k
    rw [hk] at this
    cases h : t.get k with
    | none => rfl
    | some v => rw [h] at this; cases this

/-- The leaves have one slice for each State. -/
theorem IsStack.sizes (laws : ArrayLaws R) (F : IsStack R ss fin) (hne : ss ≠ []) : ∃ sz, leafSizes R 0 fin = some sz ∧ ∀ m ∈ sz, m = ss.length := by
  have hpos := List.length_pos_of_ne_nil hne
  have hl : ∀ k x, fin.get k = some x → ∃ ls, x.leaves = some ls ∧ ∀ y ∈ ls, R.size 0 y = some ss.length := by
    intro k v hk
    obtain ⟨hlen, _⟩ := F.list (k := k) (by rw [hk]; rfl)
    have hs := stackedVal_iff.1 (F.values k v hk)
    generalize (ss.filterMap fun t => t.get k) = us at *
    cases us with
    | nil => cases hs
    | cons u0 us =>
      exact zipLeaves_leaves (n := ss.length) (fun as z hz hl => by
        have := laws.size 0 as z hz (by rw [hl]; exact hpos)
        rw [hl] at this; exact this) u0 hs hlen
  obtain ⟨sz, h1, h2⟩ := leafSizes_spec (R := R) (a := 0) F.sorted (fun k x hk => by
    obtain ⟨ls, h1, h2⟩ := hl k x hk
    exact ⟨ls, h1, fun y hy => by rw [h2 y hy]; rfl⟩)
  refine ⟨sz, h1, ?_⟩
  intro m hm
  obtain ⟨k, x, ls, y, h3, h4, h5, h6⟩ := (h2 m).1 hm
  obtain ⟨ls', h7, h8⟩ := hl k x h3
  rw [h4, Option.some.injEq] at h7
  subst h7
  rw [h8 y h5, Option.some.injEq] at h6
  exact h6.symm

/-- Stacked values are like the values. -/
theorem IsStack.like (F : IsStack R ss fin) {t : State (PyVal α)} (ht : ss[0]? = some t) {k : Str} {v u : PyVal α} (hk : fin.get k = some v)
    (hu : t.get k = some u) (hw : WFVal u) (hn : u.isNode = true) : WFVal v ∧ v.isNode = true ∧ SameKind u v := by
  obtain ⟨_, hget⟩ := F.list (k := k) (by rw [hk]; rfl)
  have hs := stackedVal_iff.1 (F.values k v hk)
  have hg := hget 0 t ht
  rw [hu] at hg
  generalize (ss.filterMap fun t => t.get k) = us at *
  cases us with
  | nil => cases hs
  | cons u0 us =>
    simp only [List.getElem?_cons_zero, Option.some.injEq] at hg
    subst hg
    exact stackVals_like hs hw hn

/-! ### The loop -/

omit [DecidableEq α] in
theorem MergeSpec.keeps {h : Heap α} {root : Loc} {w w' : World α} {f : Loc → Loc} (sp : MergeSpec h root w w' f) : Keeps w w' := by
  refine ⟨sp.jax, sp.stack, sp.len, ?_⟩
  intro l hl
  simp only [objInfo, sp.old l hl]

/-- One step: the merged module behaves as the layer, and nothing else changes. -/
theorem hand_step {d : ModuleDef α} {wi : World α} {mi : Loc} {s : State (PyVal α)} (wfi : WFWorld wi) (hmi : mi < wi.heap.length) (hvi : AllValid wi mi)
    (hsi : partitionModule (wi.heap.length + 1) wi.heap mi [] = .ok ([s], d)) {body : X → C → Prog α (C × B)} (hb : ∀ x c, (body x c).Good)
    {x : X} {c c1 : C} {y : B} {wi' : World α} (hc : calls body x c mi wi = (wi', .ok (c1, y))) (hn : NodesOnly wi wi' mi) {t : State (PyVal α)}
    (ht : getState (wi'.heap.length + 1) wi'.heap mi = some t) {filt : Filter α} (hf : filt.WellFormed)
    (hm : ∀ k v, t.get k = some v → filt.Matches k v) {u : World α} (wfu : WFWorld u) :
    ∃ u' limit, WFWorld u' ∧ Keeps u u' ∧ (∀ a : Loc, a < u.heap.length → u'.heap[a]? = u.heap[a]?) ∧
      ∀ fuel, limit < fuel → handStep fuel filt d (calls body) c s x u = (u', .ok (c1, t, y)) := by
  obtain ⟨w1, m1, hmerge, g, wf1, hold, htr⟩ := C11_partition_merge wfi.heap hmi hsi wfu
  obtain ⟨hs, hd⟩ := partition_nil hsi
  obtain ⟨w2, f, hm2, sp⟩ := mergeDef_spec wfi.heap hmi hd hs (pieces_self (getState_canonical hs)) (w := u) wfu.heap.conts
  rw [hmerge] at hm2
  cases hm2
  have hm1 : u.heap.length < w1.heap.length := by
    obtain ⟨x, hx, _⟩ := sp.iso.obj mi _ ⟨[], .here hmi⟩ (List.getElem?_eq_getElem hmi)
    rw [sp.iso.root] at hx
    exact (List.getElem?_eq_some_iff.1 hx).1
  have hv1 : AllValid w1 u.heap.length := by
    intro l o hr ho
    have := (htr l o hr ho).2
    rw [traceValid_eq, this]
    simp only [World.curTrace, sp.jax, sp.stack]
  obtain ⟨r1, r2, r3⟩ := g.symm.run wf1 wfi hm1 hmi hv1 hvi (hb x c)
  dsimp only [calls] at hc
  rw [hc] at r1 r2 r3
  have hcall : (body x c).call u.heap.length w1 = (((body x c).call u.heap.length w1).1, .ok (c1, y)) := Prod.ext rfl r1
  have ev := Evolves.call wf1 hm1 (hb x c).parametric hcall (r3 hn)
  have evi := Evolves.call wfi hmi (hb x c).parametric hc hn
  refine ⟨((body x c).call u.heap.length w1).1, ((body x c).call u.heap.length w1).1.heap.length, ev.wf, sp.keeps.trans ev.keeps, ?_, ?_⟩
  · intro a ha
    rw [ev.others a (Nat.lt_trans ha hm1), hold a ha]
    rintro ⟨p, hp⟩
    obtain ⟨o, ho⟩ : ∃ o, w1.heap[a]? = some o := ⟨_, List.getElem?_eq_getElem (Nat.lt_trans ha hm1)⟩
    exact absurd (htr a o ⟨p, hp⟩ ho).1 (Nat.not_le_of_lt ha)
  · intro fuel hfuel
    obtain ⟨s2, d2, q1, q2⟩ := C24_partition_canonical ev.wf.heap evi.wf.heap (Nat.lt_of_lt_of_le hm1 ev.keeps.len)
      (Nat.lt_of_lt_of_le hmi evi.keeps.len) r2 hfuel (Nat.lt_succ_self _)
    have h2 := (partition_nil q2).1
    rw [ht] at h2
    cases h2
    simp only [handStep, mergeAndRun, hmerge, calls]
    rw [hcall]
    simp only [partitionModule_single q1 hf hm]

theorem hand_loop {d : ModuleDef α} {body : X → C → Prog α (C × B)} (hb : ∀ x c, (body x c).Good) {filt : Filter α} (hf : filt.WellFormed) :
    ∀ (ls : List (State (PyVal α) × (World α × Loc) × X)), (∀ e ∈ ls, WFWorld e.2.1.1 ∧ e.2.1.2 < e.2.1.1.heap.length ∧ AllValid e.2.1.1 e.2.1.2 ∧
      partitionModule (e.2.1.1.heap.length + 1) e.2.1.1.heap e.2.1.2 [] = .ok ([e.1], d)) →
    ∀ {c c' : C} {outs}, LayersRun (calls body) (ls.map fun e => (e.2.1, e.2.2)) c c' outs →
    (∀ t ∈ outs, ∀ k v, t.1.get k = some v → filt.Matches k v) →
    ∀ {u : World α}, WFWorld u → ∃ u' limit, WFWorld u' ∧ Keeps u u' ∧ (∀ a : Loc, a < u.heap.length → u'.heap[a]? = u.heap[a]?) ∧
      ∀ fuel, limit < fuel → handLoop fuel filt d (calls body) c (ls.map fun e => (e.1, e.2.2)) u = (u', .ok (c', outs)) := by
  intro ls
  induction ls with
  | nil =>
    intro _ c c' outs run _ u wfu
    cases run
    exact ⟨u, 0, wfu, .refl u, fun _ _ => rfl, fun _ _ => rfl⟩
  | cons e ls ih =>
    obtain ⟨s, ⟨wi, mi⟩, x⟩ := e
    intro hall c c' outs run hm u wfu
    obtain ⟨L1, L2, L3, L4⟩ := hall _ List.mem_cons_self
    simp only [List.map_cons] at run
    cases run with
    | @next _ wi' _ _ _ c1 _ y t _ outs hc hn ht run =>
    obtain ⟨u1, limit1, wf1, k1, o1, h1⟩ := hand_step L1 L2 L3 L4 hb hc hn ht hf (hm _ List.mem_cons_self) wfu
    obtain ⟨u2, limit2, wf2, k2, o2, h2⟩ := ih (fun e he => hall e (List.mem_cons_of_mem _ he)) run (fun t ht => hm t (List.mem_cons_of_mem _ ht)) wf1
    refine ⟨u2, max limit1 limit2, wf2, k1.trans k2, ?_, ?_⟩
    · intro a ha
      rw [o2 a (Nat.lt_of_lt_of_le ha k1.len), o1 a ha]
    · intro fuel hfuel
      simp only [List.map_cons, handLoop, h1 fuel (Nat.lt_of_le_of_lt (Nat.le_max_left _ _) hfuel),
        h2 fuel (Nat.lt_of_le_of_lt (Nat.le_max_right _ _) hfuel)]

end Nnx
