import Verif.Props.ScanInit
/-
C81: nnx.scan on an __init__ method.
-/
namespace Nnx
variable {α κ : Type} [DecidableEq α]

omit [DecidableEq α] in
/-- More objects do not change a module. -/
theorem graphIso_more {h h' : Heap α} {l : Loc} (hold : ∀ a : Loc, a < h.length → h'[a]? = h[a]?) : GraphIso h l h' l id := by
  refine ⟨rfl, fun a b _ _ e => e, ?_, ?_⟩
  · rintro a o ⟨p, hp⟩ ho
    exact ⟨o, by rw [id, hold a hp.lt, ho], rfl, rfl⟩
  · rintro a ⟨p, hp⟩ n
    have : attrAt h' a n = attrAt h a n := by simp only [attrAt, hold a hp.lt]
    rw [id, this]
    cases attrAt h a n with
    | none => rfl
    | some x => cases x <;> rfl

omit [DecidableEq α] in
theorem partition_nil {h : Heap α} {l : Loc} {f : Nat} {s : State (PyVal α)} {d : ModuleDef α}
    (e : partitionModule f h l [] = .ok ([s], d)) : getState f h l = some s ∧ getModuleDef f h l = some d := by
  simp only [partitionModule] at e
  split at e
  · next h1 h2 => cases e; exact ⟨h2, h1⟩
  · cases e

/-- The update at the end of `init_wrapper`. -/
theorem method_setup {w : World α} {o : ScanOptions α} {n : Nat} (hn : 0 < n) (hlen : o.length = some n)
    {ctx : Option (PureContext κ)} (hmap : ctx.isSome ∨ o.variableAxes ≠ []) (hkeys : ∀ c, ctx = some c → DNodup c.keys)
    (hvalid : o.splitRngs.Valid) {split : κ → Nat → Nat → κ} {ctxs : Nat → Option (PureContext κ)}
    (hctx : ∀ i < n, SliceCtx split o n i ctx (ctxs i)) {j : Nat} {self : Loc}
    {f : Option (PureContext κ) → World α → World α × Option Err} {ws : Nat → World α}
    (hrun : ∀ i < n, f (ctxs i) { w with jaxTrace := j } = (ws i, none))
    (hwf : ∀ i < n, WFWorld (ws i)) (hms : ∀ i < n, self < (ws i).heap.length) {ss : Nat → State (PyVal α)}
    (hss : ∀ i < n, getState ((ws i).heap.length + 1) (ws i).heap self = some (ss i)) {d : ModuleDef α}
    (hd : ∀ i < n, getModuleDef ((ws i).heap.length + 1) (ws i).heap self = some d)
    {ps} (hp : (ss 0).partition o.filters = .ok ps) (U : UniformInit o n ss) {R : Arrays α} {fin : State (PyVal α)} (F : IsInit R o n ss fin) :
    ∃ w1 limit, (∀ fuel, limit < fuel → scanInitMethod R split fuel o j f self ctx w = updateState (w1.heap.length + 1) self [fin] w1) ∧
      WFWorld w1 ∧ self < w1.heap.length ∧ getState (w1.heap.length + 1) w1.heap self = some (ss 0) ∧
      getModuleDef (w1.heap.length + 1) w1.heap self = some d ∧ w1.jaxTrace = w.jaxTrace ∧ w1.nnxStack = w.nnxStack ∧
      (∀ a : Loc, a < (ws 0).heap.length → w1.heap[a]? = (ws 0).heap[a]?) ∧ GoodUpdates [fin] := by
  obtain ⟨w1, r, limit, hinit, hpart, wf1, hr, hj, hst, hold, _⟩ := C80_scan_init (w := w) hn hlen hmap hkeys hvalid hctx (j := j)
    (ctor := methodCtor f self) (ms := fun _ => self) (fun i hi => by simp only [methodCtor, hrun i hi]) hwf hms hss hd hp U F
  have wf0 := hwf 0 hn
  have hl := hms 0 hn
  have iso := graphIso_more (l := self) hold
  have hlen1 : (ws 0).heap.length ≤ w1.heap.length := by
    by_contra hlt
    have hlt := Nat.lt_of_not_le hlt
    have := hold _ hlt
    rw [List.getElem?_eq_none (Nat.le_refl _), List.getElem?_eq_getElem hlt] at this
    cases this
  have hl1 : self < w1.heap.length := Nat.lt_of_lt_of_le hl hlen1
  obtain ⟨s1, d1, e0, e1⟩ := C24_partition_canonical wf0.heap wf1.heap hl hl1 (iso.sameGraph wf0.heap hl) (Nat.lt_succ_self _) (Nat.lt_succ_self _)
  obtain ⟨e2, e3⟩ := partition_nil e0
  rw [hss 0 hn] at e2; cases e2
  rw [hd 0 hn] at e3; cases e3
  obtain ⟨hs1, hd1⟩ := partition_nil e1
  obtain ⟨hsr, _⟩ := partition_nil hpart
  refine ⟨w1, max limit w1.heap.length, ?_, wf1, hl1, hs1, hd1, hj, hst, hold, ?_⟩
  · intro fuel hf
    have h1 := hinit fuel (Nat.lt_of_le_of_lt (Nat.le_max_left _ _) hf)
    have h2 := Nat.lt_of_le_of_lt (Nat.le_max_right limit w1.heap.length) hf
    obtain ⟨sa, hsa⟩ := getState_exists wf1.heap hl1 h2
    obtain ⟨sb, hsb⟩ := getState_exists wf1.heap hr h2
    have := getState_det wf1.heap hl1 hsa hs1; subst this
    have := getState_det wf1.heap hr hsb hsr; subst this
    simp only [scanInitMethod, h1, hsa, hsb]
    rw [updateState, hs1]
  · intro t ht k v hk
    rw [List.mem_singleton.1 ht] at hk
    exact getState_good wf1.heap hr hsr k v hk

omit [DecidableEq α] in
theorem IsInit.domain [DecidableEq α] {R : Arrays α} {o : ScanOptions α} {n : Nat} {ss : Nat → State (PyVal α)} {fin : State (PyVal α)}
    (F : IsInit R o n ss fin) (U : UniformInit o n ss) {k : Str} (hk : fin.get k = none) : (ss 0).get k = none := by
  cases hx : (ss 0).get k with
  | none => rfl
  | some x =>
    obtain ⟨g, hg⟩ := U.total k x hx
    by_cases hlt : g < o.variableAxes.length
    · obtain ⟨v1, v2, _, _, h3⟩ := F.axes' k x g _ _ hx (List.getElem?_eq_getElem hlt) hg
      rw [hk] at h3; cases h3
    · have := F.rest k x g hx hg (by omega)
      rw [hk] at this; cases this

/-- **C81.** An `__init__` method decorated with `nnx.scan(..., length=n)` leaves the module (`self`) with the stacked variables: as if
the method had been run once for each slice and the values stacked (as for C80). The method is any function; the modules it makes must
belong to the trace of the caller (`jax.vmap` has no trace of its own). Modules that `self` does not reach are as after one run of the
method. -/
theorem C81_scan_init_method {w : World α} {o : ScanOptions α} {n : Nat} (hn : 0 < n) (hlen : o.length = some n)
    {ctx : Option (PureContext κ)} (hmap : ctx.isSome ∨ o.variableAxes ≠ []) (hkeys : ∀ c, ctx = some c → DNodup c.keys)
    (hvalid : o.splitRngs.Valid) {split : κ → Nat → Nat → κ} {ctxs : Nat → Option (PureContext κ)}
    (hctx : ∀ i < n, SliceCtx split o n i ctx (ctxs i)) {j : Nat} {self : Loc}
    {f : Option (PureContext κ) → World α → World α × Option Err} {ws : Nat → World α}
    (hrun : ∀ i < n, f (ctxs i) { w with jaxTrace := j } = (ws i, none))
    (hwf : ∀ i < n, WFWorld (ws i)) (hms : ∀ i < n, self < (ws i).heap.length) {ss : Nat → State (PyVal α)}
    (hss : ∀ i < n, getState ((ws i).heap.length + 1) (ws i).heap self = some (ss i)) {d : ModuleDef α}
    (hd : ∀ i < n, getModuleDef ((ws i).heap.length + 1) (ws i).heap self = some d)
    {ps} (hp : (ss 0).partition o.filters = .ok ps) (U : UniformInit o n ss) {R : Arrays α} {fin : State (PyVal α)} (F : IsInit R o n ss fin)
    (hname : dget o.metadata kPartitionName = none)
    (hown : ∀ (l : Loc) (x : ModObj α), Reaches (ws 0).heap self l → (ws 0).heap[l]? = some x → w.traceValid x.trace = true) :
    ∃ w' limit, (∀ fuel, limit < fuel → scanInitMethod R split fuel o j f self ctx w = (w', none)) ∧
      partitionModule (w'.heap.length + 1) w'.heap self [] = .ok ([fin], d) ∧ WFWorld w' ∧
      w'.jaxTrace = w.jaxTrace ∧ w'.nnxStack = w.nnxStack ∧
      ∀ a : Loc, a < (ws 0).heap.length → ¬ Reaches (ws 0).heap self a → w'.heap[a]? = (ws 0).heap[a]? := by
  obtain ⟨w1, limit, hrun', wf1, hl1, hs1, hd1, hj, hst, hold, _⟩ := method_setup hn hlen hmap hkeys hvalid hctx hrun hwf hms hss hd hp U F
  have wf0 := hwf 0 hn
  have hl := hms 0 hn
  have iso := graphIso_more (l := self) hold
  have M : Made o n ws (fun _ => self) ss d := ⟨hwf, hms, hss, hd⟩
  have hlike : ∀ k v, fin.get k = some v → ∃ u, (ss 0).get k = some u ∧ LikeVal u v := by
    intro k v hk
    obtain ⟨x, hx⟩ := Option.isSome_iff_exists.1 (F.only k (by rw [hk]; rfl))
    obtain ⟨g, hg⟩ := U.total k x hx
    obtain ⟨hw, hnd⟩ := M.good hn hx
    refine ⟨x, hx, ?_⟩
    by_cases hlt : g < o.variableAxes.length
    · obtain ⟨v1, v2, h1, h2, h3⟩ := F.axes' k x g _ _ hx (List.getElem?_eq_getElem hlt) hg
      rw [hk] at h3; cases h3
      rcases h2 with ⟨_, rfl⟩ | ⟨nm, h2, _⟩
      · obtain ⟨m, rfl⟩ : ∃ m, n = m + 1 := ⟨n - 1, by omega⟩
        rw [List.range_succ_eq_map, List.filterMap_cons, hx] at h1
        obtain ⟨q1, q2, q3⟩ := stackVals_like h1 hw hnd
        exact ⟨q1, q2, q3.1⟩
      · rw [hname] at h2; cases h2
    · have := F.rest k x g hx hg (by omega)
      rw [hk] at this; cases this
      exact ⟨hw, hnd, fun c y m e => ⟨y, e⟩⟩
  have hback : ∀ a, Reaches w1.heap self a → Reaches (ws 0).heap self a := by
    rintro a ⟨p, hp⟩
    obtain ⟨b, rfl, hb⟩ := iso.walk_back wf0.heap ⟨[], .here hl⟩ hp
    exact ⟨p, hb⟩
  have hv1 : AllValid w1 self := by
    intro a x ha hx
    obtain ⟨p, hb⟩ := hback a ha
    rw [hold a hb.lt] at hx
    have := hown a x ⟨p, hb⟩ hx
    rw [← this]
    simp only [World.traceValid, World.curTrace, hj, hst]
    rfl
  obtain ⟨w', hu, wf', so, _, _, _, _, hfr, hfin⟩ := update_like_full wf1 hl1 hv1 hs1 F.sorted hlike (Nat.lt_succ_self _)
  obtain ⟨d2, s2, f1, f2, f3, f4⟩ := hfin (w1.heap.length + 1) (w'.heap.length + 1) (Nat.lt_succ_self _) (by rw [so.len]; exact Nat.lt_succ_self _)
  rw [hd1] at f1; cases f1
  refine ⟨w', limit, fun fuel hf => by rw [hrun' fuel hf]; exact hu, ?_, wf', by rw [so.jax, hj], by rw [so.stack, hst], ?_⟩
  · simp only [partitionModule, f2, f3]
    have : s2 = fin := by
      refine State.Canonical.ext (getState_canonical f3) F.sorted ?_
      intro k
      rw [f4]
      cases hk : fin.get k with
      | some v => rfl
      | none => exact F.domain U hk
    rw [this]
  · intro a ha hno
    rw [hfr a fun h => hno (hback a h), hold a ha]

/-- **C81, errors.** An exception of the method is raised again by the decorated method. -/
theorem C81_method_raises {w w1 : World α} {o : ScanOptions α} {n : Nat} (hn : 0 < n) (hlen : o.length = some n)
    {ctx : Option (PureContext κ)} (hmap : ctx.isSome ∨ o.variableAxes ≠ []) (hkeys : ∀ c, ctx = some c → DNodup c.keys)
    (hvalid : o.splitRngs.Valid) {split : κ → Nat → Nat → κ} {ctxs : Nat → Option (PureContext κ)}
    (hctx : ∀ i < n, SliceCtx split o n i ctx (ctxs i)) {j : Nat} {self : Loc} {e : Err}
    {f : Option (PureContext κ) → World α → World α × Option Err}
    (hrun : f (ctxs 0) { w with jaxTrace := j } = (w1, some e)) (R : Arrays α) (fuel : Nat) :
    scanInitMethod R split fuel o j f self ctx w = ({ w1 with jaxTrace := w.jaxTrace, nnxStack := w.nnxStack }, some e) := by
  rw [scanInitMethod, C80_constructor_raises hn hlen hmap hkeys hvalid hctx (e := e) (w1 := w1)
    (by simp only [methodCtor, hrun]) R fuel]

/-- **C81, errors.** So is the ValueError for a missing length. -/
theorem C81_needs_length {w : World α} {o : ScanOptions α} (hlen : o.length = none) {ctx : Option (PureContext κ)}
    (hvalid : o.splitRngs.Valid) (hmap : ctx.isSome ∨ o.variableAxes ≠ []) (R : Arrays α) (split : κ → Nat → Nat → κ) (fuel j : Nat)
    (f : Option (PureContext κ) → World α → World α × Option Err) (self : Loc) :
    scanInitMethod R split fuel o j f self ctx w = (w, some .valueError) := by
  rw [scanInitMethod, C80_needs_length hlen hvalid hmap]

/-- **C81, errors.** And the ValueError for a variable in no `variable_axes` collection whose value depends on the slice. -/
theorem C81_must_agree {w : World α} {o : ScanOptions α} {n : Nat} (hlen : o.length = some n)
    {ctx : Option (PureContext κ)} (hmap : ctx.isSome ∨ o.variableAxes ≠ []) (hkeys : ∀ c, ctx = some c → DNodup c.keys)
    (hvalid : o.splitRngs.Valid) {split : κ → Nat → Nat → κ} {ctxs : Nat → Option (PureContext κ)}
    (hctx : ∀ i < n, SliceCtx split o n i ctx (ctxs i)) {j : Nat} {self : Loc}
    {f : Option (PureContext κ) → World α → World α × Option Err} {ws : Nat → World α}
    (hrun : ∀ i < n, f (ctxs i) { w with jaxTrace := j } = (ws i, none))
    (hwf : ∀ i < n, WFWorld (ws i)) (hms : ∀ i < n, self < (ws i).heap.length) {ss : Nat → State (PyVal α)}
    (hss : ∀ i < n, getState ((ws i).heap.length + 1) (ws i).heap self = some (ss i)) {d : ModuleDef α}
    (hd : ∀ i < n, getModuleDef ((ws i).heap.length + 1) (ws i).heap self = some d)
    (hp : ∀ i < n, ∃ ps, (ss i).partition o.filters = .ok ps) {i i' : Nat} (hi : i < n) (hi' : i' < n) {k : Str} {x : PyVal α} {g : Nat}
    (hk : (ss i).get k = some x) (hfm : FirstMatch o.filters k x g) (hg : o.variableAxes.length ≤ g) (hne : (ss i').get k ≠ some x)
    (R : Arrays α) :
    ∃ limit, ∀ fuel, limit < fuel → (scanInitMethod R split fuel o j f self ctx w).2 = some .valueError := by
  obtain ⟨limit, h⟩ := C80_must_agree (w := w) (j := j) hlen hmap hkeys hvalid hctx (ctor := methodCtor f self) (ws := ws) (ms := fun _ => self)
    (fun i hi => by simp only [methodCtor, hrun i hi]) hwf hms hss hd hp hi hi' hk hfm hg hne R
  refine ⟨limit, fun fuel hf => ?_⟩
  have := h fuel hf
  rw [scanInitMethod]
  generalize scanInit R split fuel o j (methodCtor f self) ctx w = q at this
  obtain ⟨w', r⟩ := q
  simp only at this
  subst this
  rfl

/-- **C81, partition names.** With a `partition_name`, and a variable of the axes collections that has a sharding, the decorated method
raises: the metadata of the stacked variable is another one. -/
theorem C81_partition_name_raises {w : World α} {o : ScanOptions α} {n : Nat} (hn : 0 < n) (hlen : o.length = some n)
    {ctx : Option (PureContext κ)} (hmap : ctx.isSome ∨ o.variableAxes ≠ []) (hkeys : ∀ c, ctx = some c → DNodup c.keys)
    (hvalid : o.splitRngs.Valid) {split : κ → Nat → Nat → κ} {ctxs : Nat → Option (PureContext κ)}
    (hctx : ∀ i < n, SliceCtx split o n i ctx (ctxs i)) {j : Nat} {self : Loc}
    {f : Option (PureContext κ) → World α → World α × Option Err} {ws : Nat → World α}
    (hrun : ∀ i < n, f (ctxs i) { w with jaxTrace := j } = (ws i, none))
    (hwf : ∀ i < n, WFWorld (ws i)) (hms : ∀ i < n, self < (ws i).heap.length) {ss : Nat → State (PyVal α)}
    (hss : ∀ i < n, getState ((ws i).heap.length + 1) (ws i).heap self = some (ss i)) {d : ModuleDef α}
    (hd : ∀ i < n, getModuleDef ((ws i).heap.length + 1) (ws i).heap self = some d)
    {ps} (hp : (ss 0).partition o.filters = .ok ps) (U : UniformInit o n ss) {R : Arrays α} {fin : State (PyVal α)} (F : IsInit R o n ss fin)
    {name : PyVal α} (hname : dget o.metadata kPartitionName = some name) {k : Str} {x : PyVal α} {g : Nat}
    (hx : (ss 0).get k = some x)
    (hg : FirstMatch o.filters k x g) (hlt : g < o.variableAxes.length) (hsh : shardingOf x ≠ none) :
    ∃ limit, ∀ fuel, limit < fuel → (scanInitMethod R split fuel o j f self ctx w).2 ≠ none := by
  obtain ⟨w1, limit, hrun', wf1, hl1, hs1, hd1, hj, hst, hold, hgood⟩ := method_setup hn hlen hmap hkeys hvalid hctx hrun hwf hms hss hd hp U F
  have M : Made o n ws (fun _ => self) ss d := ⟨hwf, hms, hss, hd⟩
  refine ⟨limit, ?_⟩
  intro fuel hf
  rw [hrun' fuel hf]
  intro hnone
  obtain ⟨p1, p2, p3⟩ := state_paths wf1.heap hl1 hs1
  obtain ⟨hw, hnd⟩ := M.good hn hx
  -- the new value
  obtain ⟨v, v', h1, h2, h3⟩ := F.axes' k x g _ _ hx (List.getElem?_eq_getElem hlt) hg
  obtain ⟨m, rfl⟩ : ∃ m, n = m + 1 := ⟨n - 1, by omega⟩
  rw [List.range_succ_eq_map, List.filterMap_cons, hx] at h1
  obtain ⟨_, _, q3⟩ := stackVals_like h1 hw hnd
  obtain ⟨xs, hxs⟩ := Option.ne_none_iff_exists'.1 hsh
  have hxc : ∃ c z md, x = .cont c z md ∧ dget md kSharding = some (.tup xs) ∧ c.isSub cNode = true := by
    unfold shardingOf at hxs
    split at hxs
    · next c z md =>
      split at hxs
      · next hc =>
        split at hxs
        · next ys h => cases hxs; exact ⟨c, z, md, rfl, h, hc⟩
        · cases hxs
      · cases hxs
    · cases hxs
  obtain ⟨c, z, md, rfl, hmd, hcn⟩ := hxc
  obtain ⟨y, rfl⟩ := q3.1 c z md rfl
  have hsv : shardingOf (.cont c y md) = some xs := by simp only [shardingOf, hcn, if_true, hmd]
  obtain ⟨i, hv'⟩ : ∃ i, v' = .cont c y (dset md kSharding (.tup (grow i name xs))) := by
    rcases h2 with ⟨h2, _⟩ | ⟨nm, h2, h4⟩
    · rw [hname] at h2; cases h2
    · rw [hname] at h2; cases h2
      rcases h4 with ⟨h4, _⟩ | ⟨ys, i, h4, _, h5⟩
      · rw [hsv] at h4; cases h4
      · rw [hsv] at h4; cases h4
        exact ⟨i, h5⟩
  subst hv'
  obtain ⟨a, nm, ha, hattr, _⟩ := p1 k _ hx
  have hgrow : (grow i name xs).length ≠ xs.length := by
    simp only [grow, List.length_append, List.length_take, List.length_replicate, List.length_cons, List.length_drop]
    omega
  refine C16_mismatch_rejected (w' := (updateState (w1.heap.length + 1) self [fin] w1).1) wf1 hl1 (fun t ht => by rw [List.mem_singleton.1 ht]; exact F.sorted) hgood ?_
    (by rw [given_single]; exact h3) ha hattr (.inr ?_) (Prod.ext rfl hnone)
  · intro k' v' hk' a' n' ha' b hb
    rw [given_single] at hk'
    obtain ⟨u, hu⟩ := Option.isSome_iff_exists.1 (F.only k' (by rw [hk']; rfl))
    obtain ⟨a2, n2, h4, h5, _⟩ := p1 k' u hu
    obtain ⟨rfl, rfl⟩ := h4.functional ha'
    rw [h5] at hb; cases hb
  · intro hs
    have := hs kSharding
    rw [hmd, dget_dset_self] at this
    simp only [Option.some.injEq, PyVal.tup.injEq] at this
    exact hgrow (by rw [← this])

/- Examples. -/

/-- The `__init__` of a layer: `w` is made from the key of the stream "params". -/
def exLayerMethod (c : Option (PureContext Nat)) (w : World Arr) : World Arr × Option Err :=
  match c.bind fun c => dget c.keys (py! "params") with
  | none => (w, some .valueError)
  | some key =>
    match Prog.run (.set 0 (py! "w") (exShVar cParam (.num key) [.str (py! "embed")]) fun _ => .set 0 (py! "b") (exVar cCache (.num 10)) fun _ => .ret 0) [0] w with
    | (w, .ok _) => (w, none)
    | (w, .error e) => (w, some e)

/-- A new module, before `__init__`. -/
def exNewLayer : World Arr := ⟨[⟨exLayerCls, [], 1, false, ⟨0, 0⟩⟩], 1, 0, []⟩

def exMethodWorld (key : Nat) : World Arr :=
  ⟨[⟨exLayerCls, [(py! "w", .val (exShVar cParam (.num key) [.str (py! "embed")])), (py! "b", .val (exVar cCache (.num 10)))], 1, false, ⟨0, 0⟩⟩], 1, 0, []⟩

theorem exLayerMethod_run (key : Nat) : exLayerMethod (some (exInitCtx key)) exNewLayer = (exMethodWorld key, none) := rfl

theorem exMethodWorld_wf (key : Nat) : WFWorld (exMethodWorld key) := by
  refine ⟨wfHeap_of_forall (by unfold exMethodWorld; exact List.nodup_singleton _) ?_, ?_⟩
  · intro o ho
    simp only [exMethodWorld, List.mem_cons, List.not_mem_nil, or_false] at ho
    subst ho
    refine ⟨by unfold DNodup dkeys; simp only [List.map_cons, List.map_nil]; decide, ?_⟩
    intro na hna
    simp only [List.mem_cons, List.not_mem_nil, or_false] at hna
    rcases hna with rfl | rfl <;> refine ⟨by unfold NoSlash; dsimp only; decide, by dsimp only; decide, ?_, ?_⟩ <;>
      intros <;> rename_i h <;> try cases h
    · exact .mk (by simp [PyVal.Plain]) (by simp [DNodup, dkeys]) (by simp [kSharding]) (by simp [kSharding]; decide) (fun _ _ => ⟨_, _, rfl⟩)
    all_goals exact exVar_wf _ (by simp)
  · intro l o ho
    have := List.mem_of_getElem? ho
    simp only [exMethodWorld, List.mem_cons, List.not_mem_nil, or_false] at this ⊢
    subst this; simp

/-- Without the partition name. -/
def exInitOptsP : ScanOptions Arr := { exInitOpts with metadata := [] }

def exMethodFin : State (PyVal Arr) :=
  ⟨[(py! "b", exVar cCache (.num 10)), (py! "w", exShVar cParam (.vec [130, 131, 132]) [.str (py! "embed")])]⟩

theorem exMethod_fin : IsInit arrOps exInitOptsP 3 (fun i => exLayerState (130 + i)) exMethodFin :=
  ⟨by unfold StrictSorted; decide, by
    intro k x g f a hx hga hfm
    rcases (exLayer_match hx).1 hfm with ⟨rfl, rfl, rfl⟩ | ⟨rfl, rfl, rfl⟩
    · cases hga
    · cases hga
      exact ⟨exShVar cParam (.vec [130, 131, 132]) [.str (py! "embed")], _, stackedVal_iff.2 rfl, .inl ⟨rfl, rfl⟩, rfl⟩, by
    intro k x g hx hfm hg
    rcases (exLayer_match hx).1 hfm with ⟨rfl, rfl, rfl⟩ | ⟨rfl, rfl, rfl⟩
    · rfl
    · exact absurd hg (by decide), by
    intro k hk
    obtain ⟨v, hv⟩ := Option.isSome_iff_exists.1 hk
    have hm := dget_mem hv
    simp only [exMethodFin, List.mem_cons, Prod.mk.injEq, List.not_mem_nil, or_false] at hm
    rcases hm with ⟨rfl, _⟩ | ⟨rfl, _⟩ <;> rfl⟩

theorem exMethod_part : (exLayerState 130).partition exInitOpts.filters = .ok [⟨[(py! "w", exShVar cParam (.num 130) [.str (py! "embed")])]⟩,
    ⟨[(py! "b", exVar cCache (.num 10))]⟩, ⟨[]⟩] := rfl

/-- The hypotheses of `C81_scan_init_method` hold for the example. -/
theorem exScanInitMethod : ∃ limit w' d, (∀ fuel, limit < fuel →
      scanInitMethod arrOps exSplit fuel exInitOptsP 0 exLayerMethod 0 (some (exInitCtx 1)) exNewLayer = (w', none)) ∧
    partitionModule (w'.heap.length + 1) w'.heap 0 [] = .ok ([exMethodFin], d) := by
  obtain ⟨d, hd⟩ : ∃ d, ∀ key, getModuleDef 2 (exMethodWorld key).heap 0 = some d :=
    ⟨(getModuleDef 2 (exMethodWorld 0).heap 0).get rfl, fun _ => rfl⟩
  obtain ⟨w', limit, h1, h2, _⟩ := C81_scan_init_method (w := exNewLayer) (o := exInitOptsP) (n := 3) (by decide) rfl
    (ctx := some (exInitCtx 1)) (.inl rfl) exInit_keys (by trivial) (split := exSplit) (ctxs := fun i => some (exInitCtx (130 + i)))
    (fun i hi => by cases exInit_ctx i hi; constructor <;> assumption) (j := 0) (self := 0)
    (f := exLayerMethod) (ws := fun i => exMethodWorld (130 + i)) (fun i _ => exLayerMethod_run _)
    (fun i _ => exMethodWorld_wf _) (fun _ _ => Nat.one_pos) (ss := fun i => exLayerState (130 + i)) (fun _ _ => rfl) (fun i _ => hd _)
    exMethod_part ⟨exInit_uniform.1, exInit_uniform.2, exInit_uniform.3, exInit_uniform.4⟩ exMethod_fin rfl (by
      rintro l x - hx
      have := List.mem_of_getElem? hx
      simp only [exMethodWorld, List.mem_cons, List.not_mem_nil, or_false] at this
      subst this; decide)
  exact ⟨limit, w', d, h1, h2⟩

/-- The hypotheses of `C81_partition_name_raises` hold for the example with the partition name. -/
theorem exScanInitMethod_raises : ∃ limit, ∀ fuel, limit < fuel →
    (scanInitMethod arrOps exSplit fuel exInitOpts 0 exLayerMethod 0 (some (exInitCtx 1)) exNewLayer).2 ≠ none := by
  obtain ⟨d, hd⟩ : ∃ d, ∀ key, getModuleDef 2 (exMethodWorld key).heap 0 = some d :=
    ⟨(getModuleDef 2 (exMethodWorld 0).heap 0).get rfl, fun _ => rfl⟩
  exact C81_partition_name_raises (w := exNewLayer) (o := exInitOpts) (n := 3) (by decide) rfl
    (ctx := some (exInitCtx 1)) (.inl rfl) exInit_keys (by trivial) exInit_ctx (j := 0) (self := 0)
    (f := exLayerMethod) (ws := fun i => exMethodWorld (130 + i)) (fun i _ => exLayerMethod_run _)
    (fun i _ => exMethodWorld_wf _) (fun _ _ => Nat.one_pos) (ss := fun i => exLayerState (130 + i)) (fun _ _ => rfl) (fun i _ => hd _)
    exMethod_part exInit_uniform exInit_fin (name := exLayerName) rfl (k := py! "w") (x := exShVar cParam (.num 130) [.str (py! "embed")]) (g := 0)
    rfl ((exLayer_match rfl).2 (.inr ⟨rfl, rfl, rfl⟩)) (by decide) (by decide)

/-- Run. -/
example : ∃ w', scanInitMethod arrOps exSplit 9 exInitOptsP 0 exLayerMethod 0 (some (exInitCtx 1)) exNewLayer = (w', none) ∧
    observe w'.heap 0 [py! "w"] = some (.value (exShVar cParam (.vec [130, 131, 132]) [.str (py! "embed")])) := ⟨_, rfl, by decide⟩

example : (scanInitMethod arrOps exSplit 9 exInitOpts 0 exLayerMethod 0 (some (exInitCtx 1)) exNewLayer).2 = some .valueError := by decide +kernel

/-- A method that raises, and a missing length. -/
example : (scanInitMethod arrOps exSplit 9 exInitOptsP 0 (fun _ w => (w, some .typeError)) 0 (some (exInitCtx 1)) exNewLayer).2 =
    some .typeError := by
  rw [C81_method_raises (n := 3) (e := .typeError) (by decide) rfl (.inl rfl) exInit_keys (by trivial)
    (ctxs := fun i => some (exInitCtx (130 + i))) (fun i hi => by cases exInit_ctx i hi; constructor <;> assumption) rfl]
example : (scanInitMethod arrOps exSplit 9 { exInitOptsP with length := none } 0 exLayerMethod 0 (some (exInitCtx 1)) exNewLayer).2 =
    some .valueError := by
  rw [C81_needs_length rfl (by trivial) (.inl rfl)]

end Nnx
