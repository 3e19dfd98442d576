import Verif.Proofs.ScanInit
import Verif.Props.ScanNamed
/-
C80: the constructor of nnx.Scan.
-/
namespace Nnx
variable {α κ : Type} [DecidableEq α]

omit [DecidableEq α] in
theorem splitGroups_drop {m : Nat} {ss : List (State (PyVal α))} (h : ss.length = m + 2) :
    ∃ b c, splitGroups m ss = some (ss.take m, b, c) ∧ ss.drop m = [b, c] := by
  have h0 : m < ss.length := by omega
  have h1 : m + 1 < ss.length := by omega
  refine ⟨ss[m], ss[m + 1], ?_, ?_⟩
  · simp only [splitGroups, List.getElem?_eq_getElem h0, List.getElem?_eq_getElem h1]
  · rw [List.drop_eq_getElem_cons h0, List.drop_eq_getElem_cons h1, List.drop_eq_nil_of_le (by omega)]

omit [DecidableEq α] in
/-- The last two States of a partition are determined by their entries. -/
theorem last_groups {o : ScanOptions α} {n : Nat} {ss : Nat → State (PyVal α)} {ps : Nat → List (State (PyVal α))}
    (hps : ∀ i < n, (ps i).length = o.variableAxes.length + 2 ∧ ∀ (g : Nat) t, (ps i)[g]? = some t → IsGroup o (ss i) g t)
    (U : UniformInit o n ss) (hn : 0 < n) {i : Nat} (hi : i < n) :
    (ps i).drop o.variableAxes.length = (ps 0).drop o.variableAxes.length := by
  obtain ⟨l0, g0⟩ := hps 0 hn
  obtain ⟨li, gi⟩ := hps i hi
  refine List.ext_getElem? ?_
  intro j
  rw [List.getElem?_drop, List.getElem?_drop]
  by_cases hj : o.variableAxes.length + j < o.variableAxes.length + 2
  swap
  · rw [List.getElem?_eq_none (by omega), List.getElem?_eq_none (by omega)]
  have e0 : (ps 0)[o.variableAxes.length + j]? = some ((ps 0)[o.variableAxes.length + j]'(by omega)) := List.getElem?_eq_getElem _
  have ei : (ps i)[o.variableAxes.length + j]? = some ((ps i)[o.variableAxes.length + j]'(by omega)) := List.getElem?_eq_getElem _
  rw [e0, ei]
  obtain ⟨c0, G0⟩ := g0 _ _ e0
  obtain ⟨ci, Gi⟩ := gi _ _ ei
  congr 1
  refine State.Canonical.ext ci c0 ?_
  intro k
  refine Option.ext ?_
  intro y
  rw [Gi, G0]
  constructor
  · rintro ⟨h1, h2⟩
    have := U.paths i hi k
    rw [h1] at this
    obtain ⟨x, hx⟩ := Option.isSome_iff_exists.1 this.symm
    obtain ⟨g, hg⟩ := U.total k x hx
    have hgg := (U.stays i hi k x y g hx h1 hg).unique h2
    have := U.common i hi k x g hx hg (by omega)
    rw [h1] at this; cases this
    exact ⟨hx, h2⟩
  · rintro ⟨h1, h2⟩
    exact ⟨U.common i hi k y _ h1 h2 (by omega), h2⟩

omit [DecidableEq α] in
/-- The contexts of the slices. -/
theorem slice_ctxs {o : ScanOptions α} {n : Nat} {ctx : Option (PureContext κ)} (hkeys : ∀ c, ctx = some c → DNodup c.keys)
    (hvalid : o.splitRngs.Valid) {split : κ → Nat → Nat → κ} {ctxs : Nat → Option (PureContext κ)}
    (hctx : ∀ i < n, SliceCtx split o n i ctx (ctxs i)) :
    ∃ p', (if ctx.isSome then toRngPredicate o.splitRngs else .ok fun _ => false) = .ok p' ∧
      ∀ i < n, ctx.map (initCtx split p' n i) = ctxs i := by
  obtain ⟨p, hpe, hsel⟩ := (toRngPredicate_spec o.splitRngs).1 hvalid
  cases ctx with
  | none =>
    refine ⟨_, rfl, ?_⟩
    intro i hi
    have h := hctx i hi
    generalize ctxs i = c at h ⊢
    cases h; rfl
  | some c0 =>
    refine ⟨p, by rw [Option.isSome_some, if_pos rfl, hpe], ?_⟩
    intro i hi
    exact (hctx i hi).eq hsel hkeys

/-- **C80.** `nnx.Scan(constructor, ...)(*args, ctx=ctx)` with `length=n` makes a module as if the constructor had been called once for
each slice, all from the same world: with the keys of the selected streams split, and the same keys for the others. The result is a new
module with the ModuleDef that all these modules have. Its variables of the `variable_axes` collections hold the stacked values, with
the axis name in their sharding if there is a partition name; all other variables hold the common value. It belongs to the trace in
which `nnx.Scan` was called, although the constructor ran in another one, and no module is changed by making it. -/
theorem C80_scan_init {w : World α} {o : ScanOptions α} {n : Nat} (hn : 0 < n) (hlen : o.length = some n)
    {ctx : Option (PureContext κ)} (hmap : ctx.isSome ∨ o.variableAxes ≠ []) (hkeys : ∀ c, ctx = some c → DNodup c.keys)
    (hvalid : o.splitRngs.Valid) {split : κ → Nat → Nat → κ} {ctxs : Nat → Option (PureContext κ)}
    (hctx : ∀ i < n, SliceCtx split o n i ctx (ctxs i)) {j : Nat}
    {ctor : Option (PureContext κ) → World α → World α × Except Err Loc} {ws : Nat → World α} {ms : Nat → Loc}
    (hrun : ∀ i < n, ctor (ctxs i) { w with jaxTrace := j } = (ws i, .ok (ms i)))
    (hwf : ∀ i < n, WFWorld (ws i)) (hms : ∀ i < n, ms i < (ws i).heap.length) {ss : Nat → State (PyVal α)}
    (hss : ∀ i < n, getState ((ws i).heap.length + 1) (ws i).heap (ms i) = some (ss i)) {d : ModuleDef α}
    (hd : ∀ i < n, getModuleDef ((ws i).heap.length + 1) (ws i).heap (ms i) = some d)
    {ps} (hp : (ss 0).partition o.filters = .ok ps) (U : UniformInit o n ss) {R : Arrays α} {fin : State (PyVal α)} (F : IsInit R o n ss fin) :
    ∃ w' r limit, (∀ fuel, limit < fuel → scanInit R split fuel o j ctor ctx w = (w', .ok r)) ∧
      partitionModule (w'.heap.length + 1) w'.heap r [] = .ok ([fin], d) ∧ WFWorld w' ∧ r < w'.heap.length ∧
      w'.jaxTrace = w.jaxTrace ∧ w'.nnxStack = w.nnxStack ∧ (∀ a : Loc, a < (ws 0).heap.length → w'.heap[a]? = (ws 0).heap[a]?) ∧
      ∀ (a : Loc) (x : ModObj α), Reaches w'.heap r a → w'.heap[a]? = some x → (ws 0).heap.length ≤ a ∧ x.trace = w.curTrace := by
  have M : Made o n ws ms ss d := ⟨hwf, hms, hss, hd⟩
  obtain ⟨qs, rfl, hqs⟩ := M.parts hn U hp
  have hqs' : ∀ i < n, (qs i).length = o.variableAxes.length + 2 ∧ ∀ (g : Nat) t, (qs i)[g]? = some t → IsGroup o (ss i) g t :=
    fun i hi => ⟨(hqs i hi).1, (hqs i hi).2.1⟩
  obtain ⟨axes, axes', hax, hna, hsub, hall⟩ := M.axes hn U hqs' F
  obtain ⟨b, c, hsp, hdrop⟩ := splitGroups_drop (hqs 0 hn).1
  obtain ⟨limit, hlim⟩ := le_sum (fun i => (ws i).heap.length) n
  obtain ⟨p', hp', hpc⟩ := slice_ctxs hkeys hvalid hctx
  -- the merge
  have hb : (qs 0)[o.variableAxes.length]? = some b ∧ (qs 0)[o.variableAxes.length + 1]? = some c := by
    have h0 := congrArg (·[0]?) hdrop
    have h1 := congrArg (·[1]?) hdrop
    simpa [List.getElem?_drop] using And.intro h0 h1
  have hgood : ∀ k v, fin.get k = some v → v.isNode = true ∧ WFVal v := by
    intro k v hk
    obtain ⟨x, hx⟩ := Option.isSome_iff_exists.1 (F.only k (by rw [hk]; rfl))
    obtain ⟨g, hg⟩ := U.total k x hx
    obtain ⟨hw, hnd⟩ := M.good hn hx
    by_cases hlt : g < o.variableAxes.length
    · obtain ⟨v1, v2, h1, h2, h3⟩ := F.axes' k x g _ _ hx (List.getElem?_eq_getElem hlt) hg
      rw [hk] at h3; cases h3
      obtain ⟨m, rfl⟩ : ∃ m, n = m + 1 := ⟨n - 1, by omega⟩
      rw [List.range_succ_eq_map, List.filterMap_cons, hx] at h1
      obtain ⟨q1, q2, _⟩ := stackVals_like h1 hw hnd
      exact (h2.good q1 q2).symm
    · have := F.rest k x g hx hg (by omega)
      rw [hk] at this; cases this
      exact ⟨hnd, hw⟩
  have hdom : ∀ k, (fin.get k).isSome = ((ss 0).get k).isSome := by
    intro k
    rw [Bool.eq_iff_iff]
    refine ⟨F.only k, ?_⟩
    intro h
    obtain ⟨x, hx⟩ := Option.isSome_iff_exists.1 h
    obtain ⟨g, hg⟩ := U.total k x hx
    by_cases hlt : g < o.variableAxes.length
    · obtain ⟨v1, v2, _, _, h3⟩ := F.axes' k x g _ _ hx (List.getElem?_eq_getElem hlt) hg
      rw [h3]; rfl
    · rw [F.rest k x g hx hg (by omega)]; rfl
  have hpieces : Pieces fin (axes' ++ [b, c]) := by
    have hbc : ∀ t ∈ [b, c], ∃ g, o.variableAxes.length ≤ g ∧ IsGroup o (ss 0) g t := by
      intro t ht
      simp only [List.mem_cons, List.not_mem_nil, or_false] at ht
      rcases ht with rfl | rfl
      · exact ⟨_, Nat.le_refl _, (hqs' 0 hn).2 _ _ hb.1⟩
      · exact ⟨_, Nat.le_succ _, (hqs' 0 hn).2 _ _ hb.2⟩
    refine ⟨?_, ?_, ?_⟩
    · intro t ht
      rcases List.mem_append.1 ht with h | h
      · exact (hsub t h).1
      · obtain ⟨g, _, hg⟩ := hbc t h; exact hg.1
    · intro t ht k v hk
      rcases List.mem_append.1 ht with h | h
      · exact (hsub t h).2 k v hk
      · obtain ⟨g, hge, hg⟩ := hbc t h
        obtain ⟨h1, h2⟩ := (hg.2 k v).1 hk
        exact F.rest k v g h1 h2 hge
    · intro k v hk
      obtain ⟨x, hx⟩ := Option.isSome_iff_exists.1 (F.only k (by rw [hk]; rfl))
      obtain ⟨g, hg⟩ := U.total k x hx
      by_cases hlt : g < o.variableAxes.length
      · obtain ⟨t, ht, htk⟩ := hall k x g hx hg hlt
        obtain ⟨y, hy⟩ := Option.isSome_iff_exists.1 htk
        have := (hsub t ht).2 k y hy
        rw [hk] at this; cases this
        exact ⟨t, List.mem_append_left _ ht, hy⟩
      · have := F.rest k x g hx hg (by omega)
        rw [hk] at this; cases this
        have hgl := hg.lt
        rw [filters_length] at hgl
        have hgc : g = o.variableAxes.length ∨ g = o.variableAxes.length + 1 := by omega
        rcases hgc with rfl | rfl
        · exact ⟨b, by simp, (((hqs' 0 hn).2 _ _ hb.1).2 k v).2 ⟨hx, hg⟩⟩
        · exact ⟨c, by simp, (((hqs' 0 hn).2 _ _ hb.2).2 k v).2 ⟨hx, hg⟩⟩
  obtain ⟨w', r, hm, hpart, wf', hr, hj, hst, hold, hfresh⟩ := merge_revalued (w := { ws 0 with jaxTrace := w.jaxTrace, nnxStack := w.nnxStack })
    (hwf 0 hn) (hms 0 hn) (hss 0 hn) (hd 0 hn) F.sorted hdom hgood hpieces ⟨(hwf 0 hn).heap, (hwf 0 hn).ids⟩
  refine ⟨w', r, limit, ?_, hpart _ (Nat.lt_succ_self _), wf', hr, hj, hst, hold, hfresh⟩
  intro fuel hf
  -- the States of the slices
  have hrun' : ∀ i < n, insideTrace j none (initState fuel o ctor (ctx.map (initCtx split p' n i))) w =
      ({ ws i with jaxTrace := w.jaxTrace, nnxStack := w.nnxStack }, .ok (qs i, d)) := by
    intro i hi
    have := (hqs i hi).2.2 fuel (Nat.lt_of_le_of_lt (hlim i hi) hf)
    simp only [insideTrace, Option.toList_none, List.append_nil, initState, hpc i hi, hrun i hi, this]
  have hvm : vmapInit R fuel o j n ctor (fun i => ctx.map (initCtx split p' n i)) w =
      ({ ws 0 with jaxTrace := w.jaxTrace, nnxStack := w.nnxStack }, .ok ((axes, b, c), d)) := by
    have h1 : mapExcept (fun i => (insideTrace j none (initState fuel o ctor (ctx.map (initCtx split p' n i))) w).2) (List.range n) =
        .ok ((List.range n).map fun i => (qs i, d)) := mapExcept_map fun i hi => by rw [hrun' i (List.mem_range.1 hi)]
    have hout : vmapOut R o ((List.range n).map qs) = .ok (axes, b, c) := by
      have hhead : ((List.range n).map qs).head? = some (qs 0) := by
        obtain ⟨m, rfl⟩ : ∃ m, n = m + 1 := ⟨n - 1, by omega⟩
        rw [List.range_succ_eq_map]; rfl
      have hagree : (((List.range n).map qs).all fun ss' =>
          decide (ss'.drop o.variableAxes.length = (qs 0).drop o.variableAxes.length)) = true := by
        simp only [List.all_eq_true, decide_eq_true_eq]
        intro t ht
        obtain ⟨i, hi, rfl⟩ := List.mem_map.1 ht
        exact last_groups hqs' U hn (List.mem_range.1 hi)
      simp only [vmapOut, hhead, hagree, if_true, hsp, hax]
    obtain ⟨m, rfl⟩ : ∃ m, n = m + 1 := ⟨n - 1, by omega⟩
    simp only [vmapInit, h1]
    have hcons : (List.range (m + 1)).map (fun i => (qs i, d)) = (qs 0, d) :: ((List.range m).map Nat.succ).map fun i => (qs i, d) := by
      rw [List.range_succ_eq_map, List.map_cons]
    have hall2 : ((((List.range m).map Nat.succ).map fun i => (qs i, d)).all fun r => decide (r.2 = d)) = true := by
      simp
    have hfst : ((qs 0, d) :: ((List.range m).map Nat.succ).map fun i => (qs i, d)).map (·.1) = (List.range (m + 1)).map qs := by
      rw [← hcons, List.map_map]; rfl
    rw [hcons]
    simp only [hall2, if_true, hfst, hout, hrun' 0 hn]
  have hmap' : ctx.isSome = true ∨ o.variableAxes.length ≠ 0 := hmap.imp id fun h e => h (List.length_eq_zero_iff.1 e)
  simp only [scanInit, hlen, hp', reduceCtorEq, and_false, false_and, if_false]
  rw [if_pos hmap']
  simp only [hvm, scanInitEnd, hna, hm]

/-- **C80, errors.** Without a length there is nothing to stack or split into: ValueError, and the constructor is not called. -/
theorem C80_needs_length {w : World α} {o : ScanOptions α} (hlen : o.length = none) {ctx : Option (PureContext κ)}
    (hvalid : o.splitRngs.Valid) (hmap : ctx.isSome ∨ o.variableAxes ≠ []) (R : Arrays α) (split : κ → Nat → Nat → κ) (fuel j : Nat)
    (ctor : Option (PureContext κ) → World α → World α × Except Err Loc) :
    scanInit R split fuel o j ctor ctx w = (w, .error .valueError) := by
  obtain ⟨p, hpe, hsel⟩ := (toRngPredicate_spec o.splitRngs).1 hvalid
  unfold scanInit
  split
  · rfl
  next h =>
  have h0 : o.variableAxes = [] := by
    by_contra hne
    exact h ⟨fun e => hne (List.length_eq_zero_iff.1 e), hlen⟩
  have hs : ctx.isSome = true := hmap.resolve_right fun h => h h0
  simp only [hs, if_true, hpe, hlen, true_and, true_or]
  split <;> rfl

/-- **C80, errors.** A variable that is in no `variable_axes` collection must have the same value for all slices, as when it is
initialized from a stream that is split: otherwise ValueError. -/
theorem C80_must_agree {w : World α} {o : ScanOptions α} {n : Nat} (hlen : o.length = some n)
    {ctx : Option (PureContext κ)} (hmap : ctx.isSome ∨ o.variableAxes ≠ []) (hkeys : ∀ c, ctx = some c → DNodup c.keys)
    (hvalid : o.splitRngs.Valid) {split : κ → Nat → Nat → κ} {ctxs : Nat → Option (PureContext κ)}
    (hctx : ∀ i < n, SliceCtx split o n i ctx (ctxs i)) {j : Nat}
    {ctor : Option (PureContext κ) → World α → World α × Except Err Loc} {ws : Nat → World α} {ms : Nat → Loc}
    (hrun : ∀ i < n, ctor (ctxs i) { w with jaxTrace := j } = (ws i, .ok (ms i)))
    (hwf : ∀ i < n, WFWorld (ws i)) (hms : ∀ i < n, ms i < (ws i).heap.length) {ss : Nat → State (PyVal α)}
    (hss : ∀ i < n, getState ((ws i).heap.length + 1) (ws i).heap (ms i) = some (ss i)) {d : ModuleDef α}
    (hd : ∀ i < n, getModuleDef ((ws i).heap.length + 1) (ws i).heap (ms i) = some d)
    (hp : ∀ i < n, ∃ ps, (ss i).partition o.filters = .ok ps) {i i' : Nat} (hi : i < n) (hi' : i' < n) {k : Str} {x : PyVal α} {g : Nat}
    (hk : (ss i).get k = some x) (hfm : FirstMatch o.filters k x g) (hg : o.variableAxes.length ≤ g) (hne : (ss i').get k ≠ some x)
    (R : Arrays α) :
    ∃ limit, ∀ fuel, limit < fuel → (scanInit R split fuel o j ctor ctx w).2 = .error .valueError := by
  have M : Made o n ws ms ss d := ⟨hwf, hms, hss, hd⟩
  have hn : 0 < n := by omega
  have hex : ∀ i, ∃ ts, i < n → (ss i).partition o.filters = .ok ts := by
    intro i
    by_cases hi : i < n
    · obtain ⟨ts, hts⟩ := hp i hi; exact ⟨ts, fun _ => hts⟩
    · exact ⟨[], fun h => absurd h hi⟩
  choose qs hqs0 using hex
  have hqs := fun i hi => M.part hi (hqs0 i hi)
  obtain ⟨limit, hlim⟩ := le_sum (fun i => (ws i).heap.length) n
  obtain ⟨p', hp', hpc⟩ := slice_ctxs hkeys hvalid hctx
  refine ⟨limit, ?_⟩
  intro fuel hf
  have hrun' : ∀ i < n, insideTrace j none (initState fuel o ctor (ctx.map (initCtx split p' n i))) w =
      ({ ws i with jaxTrace := w.jaxTrace, nnxStack := w.nnxStack }, .ok (qs i, d)) := by
    intro i hi
    have := (hqs i hi).2.2 fuel (Nat.lt_of_le_of_lt (hlim i hi) hf)
    simp only [insideTrace, Option.toList_none, List.append_nil, initState, hpc i hi, hrun i hi, this]
  have hvm : (vmapInit R fuel o j n ctor (fun i => ctx.map (initCtx split p' n i)) w).2 = .error .valueError := by
    have h1 : mapExcept (fun i => (insideTrace j none (initState fuel o ctor (ctx.map (initCtx split p' n i))) w).2) (List.range n) =
        .ok ((List.range n).map fun i => (qs i, d)) := mapExcept_map fun i hi => by rw [hrun' i (List.mem_range.1 hi)]
    have hout : vmapOut R o ((List.range n).map qs) = .error .valueError := by
      have hhead : ((List.range n).map qs).head? = some (qs 0) := by
        obtain ⟨m, rfl⟩ : ∃ m, n = m + 1 := ⟨n - 1, by omega⟩
        rw [List.range_succ_eq_map]; rfl
      have hagree : ¬ (((List.range n).map qs).all fun ss' =>
          decide (ss'.drop o.variableAxes.length = (qs 0).drop o.variableAxes.length)) = true := by
        simp only [List.all_eq_true, decide_eq_true_eq]
        intro hall
        have e1 := hall (qs i) (List.mem_map.2 ⟨i, List.mem_range.2 hi, rfl⟩)
        have e2 := hall (qs i') (List.mem_map.2 ⟨i', List.mem_range.2 hi', rfl⟩)
        have e : (qs i)[g]? = (qs i')[g]? := by
          have := congrArg (·[g - o.variableAxes.length]?) (e1.trans e2.symm)
          simpa only [List.getElem?_drop, Nat.add_sub_cancel' hg] using this
        have hgl : g < (qs i).length := by
          have := hfm.lt
          rw [filters_length] at this
          rw [(hqs i hi).1]; exact this
        have hgi : (qs i)[g]? = some (qs i)[g] := List.getElem?_eq_getElem hgl
        have h3 := (((hqs i hi).2.1 g _ hgi).2 k x).2 ⟨hk, hfm⟩
        rw [hgi] at e
        exact hne ((((hqs i' hi').2.1 g _ e.symm).2 k x).1 h3).1
      simp only [vmapOut, hhead, hagree, if_false, Bool.false_eq_true]
    obtain ⟨m, rfl⟩ : ∃ m, n = m + 1 := ⟨n - 1, by omega⟩
    simp only [vmapInit, h1]
    have hcons : (List.range (m + 1)).map (fun i => (qs i, d)) = (qs 0, d) :: ((List.range m).map Nat.succ).map fun i => (qs i, d) := by
      rw [List.range_succ_eq_map, List.map_cons]
    have hall2 : ((((List.range m).map Nat.succ).map fun i => (qs i, d)).all fun r => decide (r.2 = d)) = true := by
      simp
    have hfst : ((qs 0, d) :: ((List.range m).map Nat.succ).map fun i => (qs i, d)).map (·.1) = (List.range (m + 1)).map qs := by
      rw [← hcons, List.map_map]; rfl
    rw [hcons]
    simp only [hall2, if_true, hfst, hout]
  have hmap' : ctx.isSome = true ∨ o.variableAxes.length ≠ 0 := hmap.imp id fun h e => h (List.length_eq_zero_iff.1 e)
  simp only [scanInit, hlen, hp', reduceCtorEq, and_false, false_and, if_false]
  rw [if_pos hmap']
  generalize vmapInit R fuel o j n ctor (fun i => ctx.map (initCtx split p' n i)) w = q at hvm
  obtain ⟨_, _ | _⟩ := q
  · cases hvm; rfl
  · cases hvm

/-- **C80, errors.** An exception of the constructor is raised again; the trace is the one before. -/
theorem C80_constructor_raises {w w1 : World α} {o : ScanOptions α} {n : Nat} (hn : 0 < n) (hlen : o.length = some n)
    {ctx : Option (PureContext κ)} (hmap : ctx.isSome ∨ o.variableAxes ≠ []) (hkeys : ∀ c, ctx = some c → DNodup c.keys)
    (hvalid : o.splitRngs.Valid) {split : κ → Nat → Nat → κ} {ctxs : Nat → Option (PureContext κ)}
    (hctx : ∀ i < n, SliceCtx split o n i ctx (ctxs i)) {j : Nat} {e : Err}
    {ctor : Option (PureContext κ) → World α → World α × Except Err Loc}
    (hrun : ctor (ctxs 0) { w with jaxTrace := j } = (w1, .error e)) (R : Arrays α) (fuel : Nat) :
    scanInit R split fuel o j ctor ctx w = ({ w1 with jaxTrace := w.jaxTrace, nnxStack := w.nnxStack }, .error e) := by
  obtain ⟨p', hp', hpc⟩ := slice_ctxs hkeys hvalid hctx
  have hrun' : insideTrace j none (initState fuel o ctor (ctx.map (initCtx split p' n 0))) w =
      ({ w1 with jaxTrace := w.jaxTrace, nnxStack := w.nnxStack }, .error e) := by
    simp only [insideTrace, Option.toList_none, List.append_nil, initState, hpc 0 hn, hrun]
  have hmap' : ctx.isSome = true ∨ o.variableAxes.length ≠ 0 := hmap.imp id fun h e => h (List.length_eq_zero_iff.1 e)
  simp only [scanInit, hlen, hp', reduceCtorEq, and_false, false_and, if_false]
  rw [if_pos hmap']
  obtain ⟨m, rfl⟩ : ∃ m, n = m + 1 := ⟨n - 1, by omega⟩
  simp only [vmapInit, List.range_succ_eq_map, mapExcept, hrun']

/-- **C80, plain.** Without a context and without `variable_axes` the constructor is called once, in the current trace, and the result
is a copy of the module it made. -/
theorem C80_plain {w w1 : World α} {o : ScanOptions α} (hax : o.variableAxes = [])
    {ctor : Option (PureContext κ) → World α → World α × Except Err Loc} {m : Loc} (hrun : ctor none w = (w1, .ok m))
    (wf : WFWorld w1) (hm : m < w1.heap.length) {s : State (PyVal α)} (hs : getState (w1.heap.length + 1) w1.heap m = some s)
    {d : ModuleDef α} (hd : getModuleDef (w1.heap.length + 1) w1.heap m = some d) {ps} (hp : s.partition o.filters = .ok ps)
    (R : Arrays α) (split : κ → Nat → Nat → κ) (j : Nat) {fuel : Nat} (hf : w1.heap.length < fuel) :
    ∃ w' r, scanInit R split fuel o j ctor none w = (w', .ok r) ∧
      partitionModule (w'.heap.length + 1) w'.heap r [] = .ok ([s], d) ∧ WFWorld w' ∧ r < w'.heap.length ∧
      (∀ a : Loc, a < w1.heap.length → w'.heap[a]? = w1.heap[a]?) ∧
      ∀ (a : Loc) (x : ModObj α), Reaches w'.heap r a → w'.heap[a]? = some x → w1.heap.length ≤ a ∧ x.trace = w1.curTrace := by
  have M : Made o 1 (fun _ => w1) (fun _ => m) (fun _ => s) d := ⟨fun _ _ => wf, fun _ _ => hm, fun _ _ => hs, fun _ _ => hd⟩
  obtain ⟨hl, hg, hpart⟩ := M.part Nat.one_pos hp
  rw [hax] at hl
  obtain ⟨b, c, hsp, hdrop⟩ := splitGroups_drop (m := 0) hl
  have hob := getState_obtainable hs
  rw [List.drop_zero] at hdrop
  subst hdrop
  obtain ⟨w', r, h1, h2, h3, h4, _, _, h5, h6⟩ := merge_revalued (ts := [b, c]) wf hm hs hd hob.canonical (fun _ => rfl)
    (fun k v h => (M.good Nat.one_pos h).symm) ⟨fun t ht => (Obtainable.partition hob hp ht).canonical,
      fun t ht k v hk => by
        obtain ⟨g, hg'⟩ := List.getElem?_of_mem ht
        exact (((hg g t hg').2 k v).1 hk).1,
      fun k v hk => by
        obtain ⟨g, ⟨t, ht, htk⟩, _⟩ := C01_partition_exactly_one hob hp hk
        exact ⟨t, List.mem_of_getElem? ht, htk⟩⟩ wf
  refine ⟨w', r, ?_, h2 _ (Nat.lt_succ_self _), h3, h4, h5, h6⟩
  have hna : onAxes addAxis o ([] : List (State (PyVal α))) = .ok [] := by
    unfold onAxes
    split <;> simp [hax, mapExcept]
  simp only [scanInit, hax, List.length_nil, ne_eq, not_true_eq_false, false_and, if_false, Option.isSome_none, Bool.false_eq_true, Option.any_none,
    and_false, or_false, initState, hrun, hpart fuel hf, hsp, List.take_zero, scanInitEnd, hna, List.nil_append, h1]

/-! ### Examples -/

/-- The example's layer: `self.w = Param(key of "params")`, `self.b = Cache(10)`. The constructor needs the stream "params". -/
def exLayerCls : Cls := { name := py! "Layer", ancestors := [py! "Module"] }

def exLayerInit (c : Option (PureContext Nat)) (w : World Arr) : World Arr × Except Err Loc :=
  match c.bind fun c => dget c.keys (py! "params") with
  | none => (w, .error .valueError)
  | some key =>
    let (w, l) := newModule exLayerCls w
    Prog.run (.set 0 (py! "w") (exShVar cParam (.num key) [.str (py! "embed")]) fun _ => .set 0 (py! "b") (exVar cCache (.num 10)) fun _ => .ret l) [l] w

/-- The world with one layer made in trace 7. -/
def exLayerWorld (key : Nat) : World Arr :=
  ⟨[⟨exLayerCls, [(py! "w", .val (exShVar cParam (.num key) [.str (py! "embed")])), (py! "b", .val (exVar cCache (.num 10)))], 1, false, ⟨7, 0⟩⟩], 1, 7, []⟩

def exLayerState (key : Nat) : State (PyVal Arr) :=
  ⟨[(py! "b", exVar cCache (.num 10)), (py! "w", exShVar cParam (.num key) [.str (py! "embed")])]⟩

/-- Three layers; the stream "params" is split, "dropout" is not. -/
def exInitOpts : ScanOptions Arr := { exOptsN with length := some 3, splitRngs := .str (py! "params") }

def exInitCtx (key : Nat) : PureContext Nat := ⟨[(py! "params", key), (py! "dropout", 2)], [(py! "params", [0]), (py! "dropout", [0])], []⟩

theorem exLayerInit_run (key : Nat) : exLayerInit (some (exInitCtx key)) ⟨[], 0, 7, []⟩ = (exLayerWorld key, .ok 0) := rfl

/-- Which collection an entry of the example is in. -/
theorem exLayer_match {key : Nat} {k : Str} {x : PyVal Arr} {g : Nat} (hk : (exLayerState key).get k = some x) :
    FirstMatch exInitOpts.filters k x g ↔
      (k = py! "b" ∧ x = exVar cCache (.num 10) ∧ g = 1) ∨ (k = py! "w" ∧ x = exShVar cParam (.num key) [.str (py! "embed")] ∧ g = 0) := by
  have hf : ∀ f ∈ exInitOpts.filters, f.WellFormed := exFilters_wf
  rw [firstIdx_iff hf]
  have hm := dget_mem hk
  simp only [exLayerState, List.mem_cons, Prod.mk.injEq, List.not_mem_nil, or_false] at hm
  have hb : firstIdx exInitOpts.filters (py! "b") (exVar cCache (.num 10)) = some 1 := by decide
  have hw : firstIdx exInitOpts.filters (py! "w") (exShVar cParam (.num key) [.str (py! "embed")]) = some 0 := rfl
  have hbw : (py! "b") ≠ (py! "w") := by decide
  rcases hm with ⟨rfl, rfl⟩ | ⟨rfl, rfl⟩
  · rw [hb]; simp [hbw, eq_comm]
  · rw [hw]; simp [hbw.symm, eq_comm]

theorem exLayer_get {key : Nat} {k : Str} : (exLayerState key).get k =
    if py! "b" = k then some (exVar cCache (.num 10)) else if py! "w" = k then some (exShVar cParam (.num key) [.str (py! "embed")]) else none := rfl

theorem exLayerWorld_wf (key : Nat) : WFWorld (exLayerWorld key) := by
  refine ⟨wfHeap_of_forall (by unfold exLayerWorld; exact List.nodup_singleton _) ?_, ?_⟩
  · intro o ho
    simp only [exLayerWorld, List.mem_cons, List.not_mem_nil, or_false] at ho
    subst ho
    refine ⟨by unfold DNodup dkeys; simp only [List.map_cons, List.map_nil]; decide, ?_⟩
    intro na hna
    simp only [List.mem_cons, List.not_mem_nil, or_false] at hna
    rcases hna with rfl | rfl <;> refine ⟨by unfold NoSlash; dsimp only; decide, by dsimp only; decide, ?_, ?_⟩ <;>
      intros <;> rename_i h <;> try cases h
    · exact .mk (by simp [PyVal.Plain]) (by simp [DNodup, dkeys]) (by simp [kSharding]) (by simp [kSharding]; decide) (fun _ _ => ⟨_, _, rfl⟩)
    all_goals exact exVar_wf _ (by simp)
  · intro l o ho
    have := List.mem_of_getElem? ho
    simp only [exLayerWorld, List.mem_cons, List.not_mem_nil, or_false] at this ⊢
    subst this; simp

/-- The stacked layers: `w` has the three keys and the sharding `("layers", "embed")`. -/
def exInitFin : State (PyVal Arr) :=
  ⟨[(py! "b", exVar cCache (.num 10)), (py! "w", exShVar cParam (.vec [130, 131, 132]) [exLayerName, .str (py! "embed")])]⟩

theorem exInit_keys : ∀ c, some (exInitCtx 1) = some c → DNodup c.keys := by intro c h; cases h; decide

theorem exInit_ctx : ∀ i < 3, SliceCtx exSplit exInitOpts 3 i (some (exInitCtx 1)) (some (exInitCtx (130 + i))) := by
  intro i hi
  have hbw : (py! "params") ≠ (py! "dropout") := by decide
  refine .some rfl ?_ ?_ rfl rfl
  · intro name key hk hs
    have : name = py! "params" := hs
    subst this
    cases hk
    rfl
  · intro name key hk hs
    have hne : ¬ (py! "params" = name) := fun e => hs e.symm
    simp only [exInitCtx, dget, hne, if_false] at hk ⊢
    exact hk

theorem exInit_uniform : UniformInit exInitOpts 3 fun i => exLayerState (130 + i) :=
  ⟨by
    intro i _ k
    simp only [exLayer_get]; split <;> [rfl; (split <;> rfl)], by
    intro k x hk
    have hm := dget_mem hk
    simp only [exLayerState, List.mem_cons, Prod.mk.injEq, List.not_mem_nil, or_false] at hm
    rcases hm with ⟨rfl, rfl⟩ | ⟨rfl, rfl⟩
    · exact ⟨1, (exLayer_match hk).2 (.inl ⟨rfl, rfl, rfl⟩)⟩
    · exact ⟨0, (exLayer_match hk).2 (.inr ⟨rfl, rfl, rfl⟩)⟩, by
    intro i _ k x y g hx hy hfm
    rw [exLayer_match hy]
    rcases (exLayer_match hx).1 hfm with ⟨rfl, rfl, rfl⟩ | ⟨rfl, rfl, rfl⟩
    · cases hy; exact .inl ⟨rfl, rfl, rfl⟩
    · cases hy; exact .inr ⟨rfl, rfl, rfl⟩, by
    intro i _ k x g hx hfm hg
    rcases (exLayer_match hx).1 hfm with ⟨rfl, rfl, rfl⟩ | ⟨rfl, rfl, rfl⟩
    · rfl
    · exact absurd hg (by decide)⟩

theorem exInit_fin : IsInit arrOps exInitOpts 3 (fun i => exLayerState (130 + i)) exInitFin :=
  ⟨by unfold StrictSorted; decide, by
    intro k x g f a hx hga hfm
    rcases (exLayer_match hx).1 hfm with ⟨rfl, rfl, rfl⟩ | ⟨rfl, rfl, rfl⟩
    · cases hga
    · cases hga
      exact ⟨exShVar cParam (.vec [130, 131, 132]) [.str (py! "embed")], _, stackedVal_iff.2 rfl,
        .inr ⟨exLayerName, rfl, .inr ⟨[.str (py! "embed")], 0, rfl, rfl, rfl⟩⟩, rfl⟩, by
    intro k x g hx hfm hg
    rcases (exLayer_match hx).1 hfm with ⟨rfl, rfl, rfl⟩ | ⟨rfl, rfl, rfl⟩
    · rfl
    · exact absurd hg (by decide), by
    intro k hk
    obtain ⟨v, hv⟩ := Option.isSome_iff_exists.1 hk
    have hm := dget_mem hv
    simp only [exInitFin, List.mem_cons, Prod.mk.injEq, List.not_mem_nil, or_false] at hm
    rcases hm with ⟨rfl, _⟩ | ⟨rfl, _⟩ <;> rfl⟩

/-- The hypotheses of C80 hold for the example. -/
theorem exScanInit : ∃ limit w' r d, (∀ fuel, limit < fuel →
      scanInit arrOps exSplit fuel exInitOpts 7 exLayerInit (some (exInitCtx 1)) ⟨[], 0, 0, []⟩ = (w', .ok r)) ∧
    partitionModule (w'.heap.length + 1) w'.heap r [] = .ok ([exInitFin], d) := by
  have hpart : (exLayerState 130).partition exInitOpts.filters = .ok [⟨[(py! "w", exShVar cParam (.num 130) [.str (py! "embed")])]⟩,
      ⟨[(py! "b", exVar cCache (.num 10))]⟩, ⟨[]⟩] := rfl
  obtain ⟨d, hd⟩ : ∃ d, ∀ key, getModuleDef 2 (exLayerWorld key).heap 0 = some d :=
    ⟨(getModuleDef 2 (exLayerWorld 0).heap 0).get rfl, fun _ => rfl⟩
  obtain ⟨w', r, limit, h1, h2, _⟩ := C80_scan_init (w := ⟨[], 0, 0, []⟩) (o := exInitOpts) (n := 3) (by decide) rfl (ctx := some (exInitCtx 1)) (.inl rfl)
    exInit_keys (by trivial) exInit_ctx (j := 7) (ctor := exLayerInit) (ws := fun i => exLayerWorld (130 + i)) (ms := fun _ => 0) (fun i _ => exLayerInit_run _)
    (fun i _ => exLayerWorld_wf _) (fun _ _ => Nat.one_pos) (ss := fun i => exLayerState (130 + i)) (fun _ _ => rfl) (fun i _ => hd _)
    hpart exInit_uniform exInit_fin
  exact ⟨limit, w', r, d, h1, h2⟩

/-- Run: the result belongs to the trace of the call, trace 0, and the sharding has the new name. -/
example : ∃ w', scanInit arrOps exSplit 9 exInitOpts 7 exLayerInit (some (exInitCtx 1)) ⟨[], 0, 0, []⟩ = (w', .ok 1) ∧
    observe w'.heap 1 [py! "w"] = some (.value (exShVar cParam (.vec [130, 131, 132]) [exLayerName, .str (py! "embed")])) ∧
    (w'.heap[1]?.map (·.trace)) = some ⟨0, 0⟩ := ⟨_, rfl, by decide, by decide⟩

/-- No length: ValueError, also if nothing is to be split and no variable to be stacked. -/
example : scanInit arrOps exSplit 9 { exInitOpts with length := none } 7 exLayerInit (some (exInitCtx 1)) ⟨[], 0, 0, []⟩ =
      (⟨[], 0, 0, []⟩, .error .valueError) ∧
    scanInit arrOps exSplit 9 ({} : ScanOptions Arr) 7 exLayerInit (some (exInitCtx 1)) ⟨[], 0, 0, []⟩ =
      (⟨[], 0, 0, []⟩, .error .valueError) := ⟨rfl, rfl⟩

/-- `w` is not in the axes collections although its stream is split: ValueError. -/
example : (scanInit arrOps exSplit 9 { exInitOpts with variableAxes := [] } 7 exLayerInit (some (exInitCtx 1)) ⟨[], 0, 0, []⟩).2 =
    .error .valueError := rfl

/-- The constructor raises without the stream. -/
example : scanInit arrOps exSplit 9 exInitOpts 7 exLayerInit none ⟨[], 0, 0, []⟩ = (⟨[], 0, 0, []⟩, .error .valueError) := rfl

/-- No context and nothing to stack: one call. -/
example : ∃ w', scanInit (κ := Nat) arrOps exSplit 9 ({} : ScanOptions Arr) 7 (fun _ => exLayerInit (some (exInitCtx 5))) none ⟨[], 0, 0, []⟩ =
    (w', .ok 1) ∧ observe w'.heap 1 [py! "w"] = some (.value (exShVar cParam (.num 5) [.str (py! "embed")])) := ⟨_, rfl, by decide⟩

end Nnx
