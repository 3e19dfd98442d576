import Verif.Proofs.Lifted
/-
C101: the Module classes `nnx.Remat` and `nnx.Scan`.
-/
namespace Nnx
variable {α κ A B C L β : Type} [DecidableEq α]

theorem kOptions_good : GoodName kOptions := ⟨by unfold NoSlash; decide, by decide⟩
theorem kConstructor_good : GoodName kConstructor := ⟨by unfold NoSlash; decide, by decide⟩
theorem kRematModule_good : GoodName kRematModule := ⟨by unfold NoSlash; decide, by decide⟩
theorem kScanModule_good : GoodName kScanModule := ⟨by unfold NoSlash; decide, by decide⟩

omit [DecidableEq α] in
theorem innerModule_of {h : Heap α} {r l : Loc} {n : Str} (hat : attrAt h r n = some (.ref l)) : innerModule h r n = .ok l := by
  simp only [attrAt] at hat
  split at hat
  · next o ho => simp only [innerModule, varsGet, ho, hat]
  · cases hat

/-- **C101, nnx.Remat.** `nnx.Remat(constructor, ...)(...)` makes a Module with three attributes: the options, the constructor and a Module `remat_module`, which is the result of
the constructor. The constructor runs while the first two are assigned already. Nothing else is changed, and the state of the Module is the state of the Module
that was constructed, under "remat_module/". (Options and constructor are static values.) -/
theorem C101_remat_new {options constructor : PyVal α} {ctor : World α → World α × Except Err Loc} {w w1 : World α} {l : Loc}
    (ho : options.Plain ∧ options.isNode = false) (hc : constructor.Plain ∧ constructor.isNode = false)
    (hrun : ctor { w with
      heap := w.heap ++ [⟨cRemat, [(kOptions, .val options), (kConstructor, .val constructor)], w.nextId + 1, false, w.curTrace⟩]
      nextId := w.nextId + 1 } = (w1, .ok l))
    (wf1 : WFWorld w1) (hl : l < w1.heap.length) (ht : w1.jaxTrace = w.jaxTrace ∧ w1.nnxStack = w.nnxStack)
    (hr : w1.heap[w.heap.length]? = some ⟨cRemat, [(kOptions, .val options), (kConstructor, .val constructor)], w.nextId + 1, false, w.curTrace⟩)
    (hnr : ¬ Reaches w1.heap l w.heap.length) :
    ∃ w2 r, rematNew options constructor ctor w = (w2, .ok r) ∧ r = w.heap.length ∧ WFWorld w2 ∧ w2.jaxTrace = w.jaxTrace ∧ w2.nnxStack = w.nnxStack ∧
      w2.heap.length = w1.heap.length ∧ (∀ a : Loc, a ≠ r → w2.heap[a]? = w1.heap[a]?) ∧
      w2.heap[r]? = some ⟨cRemat, [(kOptions, .val options), (kConstructor, .val constructor), (kRematModule, .ref l)], w.nextId + 1, false, w.curTrace⟩ ∧
      ∀ f f' s s1, getState f w2.heap r = some s → getState f' w1.heap l = some s1 →
        ∀ k v, s.get k = some v ↔ ∃ k', k = py! "remat_module/" ++ k' ∧ s1.get k' = some v := by
  obtain ⟨w2, h1, h2, h3, h4, h5, h6, h7, _, _, h10⟩ := wrapNew_spec (c := cRemat) (steps := [(kOptions, options), (kConstructor, constructor)]) (inner := kRematModule)
    (make := ctor) (w := w) (by decide : [kOptions, kConstructor].Nodup) (by
      intro s hs
      simp only [List.mem_cons, List.not_mem_nil, or_false] at hs
      rcases hs with rfl | rfl
      · exact ⟨kOptions_good, ho⟩
      · exact ⟨kConstructor_good, hc⟩)
    kRematModule_good (by decide : kRematModule ∉ [kOptions, kConstructor]) hrun wf1 hl (by simp only [World.curTrace, ht]) hr hnr
  refine ⟨w2, _, h1, rfl, h2, h4.trans ht.1, h5.trans ht.2, h3, h6, h7, ?_⟩
  intro f f' s s1 hs hs1 k v
  rw [h10 f f' s s1 hs hs1 k v]
  have : ∀ k', kRematModule ++ '/' :: k' = py! "remat_module/" ++ k' := fun k' => rfl
  simp only [this]

/-- **C101, calls of nnx.Remat.** Let `r` be a Module whose attribute `remat_module` is the Module `l`. `r(...)`, or `r.call.m(...)` for the method that the accesses give, returns or
raises what the direct call of the method on `l` does, and all Modules that can be reached from `r` have the same graphs as after the direct call and are at the same places. Other
Modules and the traces are not changed. `method` may itself call functions through transforms: `Direct` is its run without these. The effect of the direct call has to be node writes. -/
theorem C101_remat_call {J : Jax α κ L} (hlaw : GradLaw J.gradOf) {w : World α} (wf : WFWorld w) {r l : Loc} (hr : r < w.heap.length) (hv : AllValid w r)
    (hat : attrAt w.heap r kRematModule = some (.ref l)) {method : Option Access → Routine α κ L β} {chain : List Access} {acc : Option Access} (hacc : accessorOf chain = .ok acc) (hp : (method acc).Good)
    {wd : World α} {res : Except Err β} (hd : (method acc).Direct J [l] w wd res) (hn : ∀ b, res = .ok b → NodeWrites w wd l) (j : Nat) :
    ∃ wt, unlimited (fun fuel => rematModuleCall fuel j r chain fun acc l w => (method acc).run J [l] w) w = (wt, res) ∧
      (∀ b, res = .ok b → (∀ a, Reaches w.heap r a → SameGraph wd.heap a wt.heap a) ∧
        ∀ a a' q, Reaches w.heap r a → Reaches w.heap r a' → (Walk wd.heap a q a' ↔ Walk wt.heap a q a')) ∧
      (∀ a : Loc, a < w.heap.length → ¬ Reaches w.heap r a → wt.heap[a]? = w.heap[a]?) ∧
      WFWorld wt ∧ wt.jaxTrace = w.jaxTrace ∧ wt.nnxStack = w.nnxStack := by
  have hop : (Op.get 0 kRematModule : Op α).run [r] w = .ok (.attr (shown w.heap (.ref l)), [r, l], w) := by
    simp only [Op.run, List.getElem?_cons_zero, hat]; rfl
  have hin : innerModule w.heap r kRematModule = .ok l := innerModule_of hat
  have hdir : (Routine.op (.get 0 kRematModule) fun _ => .call (.remat j) 1 (method acc) .ret).Direct J [r] w wd res := by
    refine .inr ⟨_, _, _, hop, l, rfl, ?_⟩
    cases res with
    | error e => exact .inl ⟨e, hd, rfl⟩
    | ok b => exact .inr ⟨wd, b, hd, fun _ _ => hn b rfl, rfl, rfl⟩
  obtain ⟨wt, h1, h2⟩ := C92_without_transforms hlaw wf hr hv (p := .op (.get 0 kRematModule) fun _ => .call (.remat j) 1 (method acc) .ret)
    ⟨trivial, fun _ _ => ⟨hp, fun _ => trivial⟩⟩ hdir
  refine ⟨wt, ?_, h2⟩
  simp only [Routine.run, hop, List.getElem?_cons_succ, List.getElem?_cons_zero, How.call] at h1
  have he : (fun fuel => rematModuleCall fuel j r chain fun acc l w => (method acc).run J [l] w) =
      (fun fuel w => match innerModule w.heap r kRematModule with
        | .error e => (w, .error e)
        | .ok l => rematCall fuel j l (fun l w => (method acc).run J [l] w) w) := by
    funext fuel w
    simp only [rematModuleCall, hacc]
    rfl
  rw [he]
  simp only [unlimited, hin] at h1 ⊢
  rw [← h1]
  split <;> simp_all

open Classical in
/-- **C101, calls of nnx.Scan.** Let `r` be a Module whose attribute `scan_module` is the Module `l`. `r(carry, xs, ctx=ctx)`, or `r.call.m(...)` for the method that the accesses
give, returns or raises what the loop does that calls the method on `l` with the slices, and all Modules that can be reached from `r` have the same graphs as after the loop
and are at the same places. Other Modules and the traces are not changed. -/
theorem C101_scan_call {J : Jax α κ L} (hlaw : GradLaw J.gradOf) {w : World α} (wf : WFWorld w) {r l : Loc} (hr : r < w.heap.length) (hv : AllValid w r)
    (hat : attrAt w.heap r kScanModule = some (.ref l)) {method : Option Access → Option (PureContext κ) → β → Option β → Routine α κ L β} {chain : List Access} {acc : Option Access} (hacc : accessorOf chain = .ok acc)
    (hp : ∀ ctx c x, (method acc ctx c x).Good) {fuel : Nat} {o : ScanOptions α} {out : β → β × β} {c : β} {xs : Option (List β)} {ctx : Option (PureContext κ)}
    {wd : World α} {res : Except Err (β × List β)}
    (hd : ScanLoop J fuel o l xs ctx (fun x c w w' r => ∃ b, (method acc x.1 c x.2).Direct J [l] w w' b ∧ r = b.map out) w c wd res) (j : Nat) :
    ∃ wt, scanModuleCall J.arrays J.split fuel o j r chain (fun acc => withOut out fun ctx c x l w => (method acc ctx c x).run J [l] w) c xs ctx w = (wt, res) ∧
      (∀ b, res = .ok b → (∀ a, Reaches w.heap r a → SameGraph wd.heap a wt.heap a) ∧
        ∀ a a' q, Reaches w.heap r a → Reaches w.heap r a' → (Walk wd.heap a q a' ↔ Walk wt.heap a q a')) ∧
      (∀ a : Loc, a < w.heap.length → ¬ Reaches w.heap r a → wt.heap[a]? = w.heap[a]?) ∧
      WFWorld wt ∧ wt.jaxTrace = w.jaxTrace ∧ wt.nnxStack = w.nnxStack := by
  have hop : (Op.get 0 kScanModule : Op α).run [r] w = .ok (.attr (shown w.heap (.ref l)), [r, l], w) := by
    simp only [Op.run, List.getElem?_cons_zero, hat]; rfl
  have hin : innerModule w.heap r kScanModule = .ok l := innerModule_of hat
  obtain ⟨k, res', hk⟩ : ∃ k : β → List β → Routine α κ L β, ∃ res' : Except Err β, (∀ c ys, (k c ys).Good) ∧ ((∃ b, res = .ok b) ↔ ∃ b, res' = .ok b) ∧
      (∀ w1 c ys, res = .ok (c, ys) → (k c ys).Direct J [r, l] w1 w1 res') ∧ (∀ e, res = .error e → res' = .error e) ∧
      ∀ w1 x w2, (match x with | Except.error e => (w2, .error e) | .ok (c, ys) => (k c ys).run J [r, l] w2) = (w1, res') → w2 = w1 ∧ x = res := by
    cases res with
    | error e =>
      refine ⟨fun c _ => .ret c, .error e, fun _ _ => trivial, by simp, nofun, fun e' h => by cases h; rfl, ?_⟩
      intro w1 x w2 h
      cases x with
      | error e' => cases h; exact ⟨rfl, rfl⟩
      | ok b => cases h
    | ok b =>
      obtain ⟨c', ys'⟩ := b
      refine ⟨fun c ys => if c = c' ∧ ys = ys' then .ret c' else .fail .unmodelled, .ok c', ?_, by simp, ?_, nofun, ?_⟩
      · intro c ys
        show Routine.Good (if _ then _ else _)
        split <;> trivial
      · intro w1 c ys h
        cases h
        simp [Routine.Direct]
      · intro w1 x w2 h
        cases x with
        | error e' => cases h
        | ok b =>
          obtain ⟨c, ys⟩ := b
          simp only at h
          split at h
          · next he => cases h; rw [he.1, he.2]; exact ⟨rfl, rfl⟩
          · cases h
  obtain ⟨hk0, hk1, hk2, hk3, hk4⟩ := hk
  have hdir : (Routine.op (.get 0 kScanModule) fun _ => .scan fuel j o out 1 c xs ctx (method acc) k).Direct J [r] w wd res' := by
    refine .inr ⟨_, _, _, hop, l, rfl, ?_⟩
    cases res with
    | error e => exact .inl ⟨e, hd, hk3 e rfl⟩
    | ok b => exact .inr ⟨wd, b.1, b.2, hd, hk2 _ _ _ rfl⟩
  obtain ⟨wt, h1, h2, h3⟩ := C92_without_transforms hlaw wf hr hv (p := .op (.get 0 kScanModule) fun _ => .scan fuel j o out 1 c xs ctx (method acc) k)
    ⟨trivial, fun _ _ => ⟨hp, hk0⟩⟩ hdir
  refine ⟨wt, ?_, ?_, h3⟩
  · simp only [Routine.run, hop, List.getElem?_cons_succ, List.getElem?_cons_zero] at h1
    simp only [scanModuleCall, hacc, hin]
    generalize hs : scanApply J.arrays J.split fuel o j l (withOut out fun ctx c x l w => (method acc ctx c x).run J [l] w) c xs ctx w = z at h1
    obtain ⟨w2, x⟩ := z
    obtain ⟨rfl, rfl⟩ := hk4 wt x w2 (by rw [← h1]; cases x <;> rfl)
    rfl
  · intro b hb
    obtain ⟨b', hb'⟩ := hk1.1 ⟨b, hb⟩
    exact h2 b' hb'

/-- **C101, nnx.Scan.** `nnx.Scan(constructor, ...)(...)` followed by a call, or a call of a method: the same as to construct `n` layers separately, in the contexts of the slices, and to call them
one after the other. The new Module has three attributes, the constructor, the options and a Module `scan_module`. Its state is the stacked state of the layers under "scan_module/"; after the
call its variables are the stacked variables of the layers after the loop. -/
theorem C101_scan_layers {options constructor : PyVal α} (ho : options.Plain ∧ options.isNode = false) (hc : constructor.Plain ∧ constructor.isNode = false)
    {w w0 : World α} {x0 : ModObj α} (hx0 : x0 = ⟨cScan, [(kConstructor, .val constructor), (kOptions, .val options)], w.nextId + 1, false, w.curTrace⟩)
    (hw0 : w0 = { w with heap := w.heap ++ [x0], nextId := w.nextId + 1 })
    {o : ScanOptions α} {n : Nat} (hn : 0 < n) (hlen : o.length = some n)
    {ctx : Option (PureContext κ)} (hmap : ctx.isSome ∨ o.variableAxes ≠ []) (hkeys : ∀ c, ctx = some c → DNodup c.keys)
    (hvalid : o.splitRngs.Valid) {split : κ → Nat → Nat → κ} {ctxs : Nat → Option (PureContext κ)}
    (hctx : ∀ i < n, SliceCtx split o n i ctx (ctxs i)) {j : Nat}
    {ctor : Option (PureContext κ) → World α → World α × Except Err Loc} {ws : Nat → World α} {ms : Nat → Loc}
    (hrun : ∀ i < n, ctor (ctxs i) { w0 with jaxTrace := j } = (ws i, .ok (ms i)))
    (hkeep : (ws 0).heap[w.heap.length]? = some x0)
    (hwf : ∀ i < n, WFWorld (ws i)) (hms : ∀ i < n, ms i < (ws i).heap.length) (hvs : ∀ i < n, AllValid (ws i) (ms i))
    {ss : Nat → State (PyVal α)} {d : ModuleDef α}
    (hss : ∀ i < n, partitionModule ((ws i).heap.length + 1) (ws i).heap (ms i) [] = .ok ([ss i], d))
    {ps} (hp : (ss 0).partition o.filters = .ok ps) (U : UniformInit o n ss) {R : Arrays α} (laws : ArrayLaws R)
    {fin : State (PyVal α)} (F : IsInit R o n ss fin) (hname : dget o.metadata kPartitionName = none) (hrev : o.reverse = false)
    (hstay : ∀ k x v g, (ss 0).get k = some x → fin.get k = some v → FirstMatch o.filters k x g → FirstMatch o.filters k v g)
    (hcov : ∀ k x g, (ss 0).get k = some x → FirstMatch o.filters k x g → g ≤ o.variableAxes.length)
    {xs : Option (List A)} (hxs : ∀ as, xs = some as → as.length = n) {p : Str → Bool} {ctx1 : Option (PureContext κ)}
    (hsel : ctx1.isSome = true → toRngPredicate o.splitRngs = .ok p)
    {method : Option Access → Option (PureContext κ) × Option A → C → Prog α (C × B)} {chain : List Access} {acc : Option Access} (hacc : accessorOf chain = .ok acc) (hb : ∀ x c, (method acc x c).Good) {c c' : C} {outs}
    (run : LayersRun (calls (method acc)) ((List.range n).map fun i => ((ws i, ms i), (ctx1.map (stepCtx split p n i), xs.bind fun as => as[i]?))) c c' outs)
    (hafter : ∀ t ∈ outs, ∀ k y, t.1.get k = some y → ∃ x, fin.get k = some x ∧ ∀ g, FirstMatch o.filters k x g → FirstMatch o.filters k y g)
    {fin' : State (PyVal α)} (F' : IsStacked R o fin (outs.map (·.1)) fin') :
    ∃ limit, ∀ fuel, limit < fuel → ∃ w2 r l, scanNew R split fuel o options constructor j ctor ctx w = (w2, .ok r) ∧
      w2.heap[r]? = some { x0 with attrs := x0.attrs ++ [(kScanModule, .ref l)] } ∧
      (∀ f s, getState f w2.heap r = some s → ∀ k v, s.get k = some v ↔ ∃ k', k = py! "scan_module/" ++ k' ∧ fin.get k' = some v) ∧
      ∃ w', scanModuleCall R split fuel o j r chain (fun acc => scanBody (calls (method acc))) c xs ctx1 w2 = (w', .ok (c', outs.map (·.2))) ∧
        w'.heap[r]? = w2.heap[r]? ∧
        ∀ k v, fin'.get k = some v → observe w'.heap r (kScanModule :: splitSlash k) = some (.value v) := by
  obtain ⟨w1, l, limit, h1, h2, h3, h4, h5, h6, h7, h8⟩ := C80_scan_init hn hlen hmap hkeys hvalid hctx hrun hwf hms
    (fun i hi => (partition_nil (hss i hi)).1) (fun i hi => (partition_nil (hss i hi)).2) hp U F
  have hr0 : w.heap.length < (ws 0).heap.length := (List.getElem?_eq_some_iff.1 hkeep).1
  have hnr : ¬ Reaches w1.heap l w.heap.length := by
    intro h
    have := (h8 _ x0 h (by rw [h7 _ hr0]; exact hkeep)).1
    exact absurd this (Nat.not_le.2 hr0)
  refine ⟨max limit w1.heap.length, ?_⟩
  intro fuel hf
  have hf1 : limit < fuel := Nat.lt_of_le_of_lt (Nat.le_max_left _ _) hf
  have hf2 : w1.heap.length < fuel := Nat.lt_of_le_of_lt (Nat.le_max_right _ _) hf
  subst hx0
  obtain ⟨w2, g1, g2, g3, g4, g5, g6, g7, g8, g9, g10⟩ := wrapNew_spec (c := cScan) (steps := [(kConstructor, constructor), (kOptions, options)]) (inner := kScanModule)
    (make := scanInit R split fuel o j ctor ctx) (w := w) (by decide : [kConstructor, kOptions].Nodup) (by
      intro s hs
      simp only [List.mem_cons, List.not_mem_nil, or_false] at hs
      rcases hs with rfl | rfl
      · exact ⟨kConstructor_good, hc⟩
      · exact ⟨kOptions_good, ho⟩)
    kScanModule_good (by decide : kScanModule ∉ [kConstructor, kOptions]) (by rw [← h1 fuel hf1, hw0]; rfl) h3 h4
      (by simp only [World.curTrace, h5, h6, hw0]) (by rw [h7 _ hr0]; exact hkeep) hnr
  have hl2 : l < w2.heap.length := g3 ▸ h4
  have iso : GraphIso w1.heap l w2.heap l id := by
    have hne : ∀ a, Reaches w1.heap l a → a ≠ w.heap.length := fun a ha e => hnr (e ▸ ha)
    refine ⟨rfl, fun _ _ _ _ h => h, ?_, ?_⟩
    · intro a x ha hx
      exact ⟨x, by rw [id, g6 a (hne a ha)]; exact hx, rfl, rfl⟩
    · intro a ha m
      simp only [id, attrAt, g6 a (hne a ha)]
      cases hx : w1.heap[a]? with
      | none => rfl
      | some x =>
        show dget x.attrs m = (dget x.attrs m).map (Attr.redirect id)
        cases dget x.attrs m with
        | none => rfl
        | some y => cases y <;> rfl
  have hval : AllValid w2 l := by
    intro a x ha hx
    have ha1 := (g9 a).1 ha
    rw [g6 a (fun e => hnr (e ▸ ha1))] at hx
    rw [traceValid_eq, (h8 a x ha1 hx).2]
    simp only [World.curTrace, g4, g5, h5, h6]
  obtain ⟨s1, d1, q1, q2⟩ := C24_partition_canonical h3.heap g2.heap h4 hl2 (iso.sameGraph h3.heap h4) (Nat.lt_succ_self _) (g3 ▸ hf2 : w2.heap.length < fuel)
  rw [h2] at q1
  cases q1
  obtain ⟨w', u1, _, u2⟩ := C83_scan_of_layers g2 hl2 hval q2 hn hwf hms hvs hss hp U laws
    F hname hrev hstay hcov hxs (fun m h => by rw [hlen] at h; cases h; rfl) (.inl hlen) hsel hb run hafter F' j
  have hin : attrAt w2.heap w.heap.length kScanModule = some (.ref l) := by rw [attrAt, g7]; rfl
  have cf := (scanApply_confined (R := R) (split := split) (fuel := fuel) (o := o) (j := j) (F := scanBody (calls (method acc))) hl2 g2
    (fun ctx c x => ((hb (ctx, x) c).parametric).bodySim _) c xs ctx1).2 (Reaches w2.heap l) (fun a m b ha e => ha.step g2.heap e) (.refl hl2)
  rw [u1] at cf
  have hr2 : w.heap.length < w2.heap.length := (List.getElem?_eq_some_iff.1 g7).1
  have hsame := cf.same w.heap.length hr2 (fun h => hnr ((g9 _).1 h))
  refine ⟨w2, w.heap.length, l, g1, g7, ?_, w', ?_, hsame, ?_⟩
  · intro f s hs k v
    rw [g10 f _ s fin hs (partition_nil h2).1 k v]
    rfl
  · simp only [scanModuleCall, hacc, innerModule_of hin]
    exact u1
  · intro k v hk
    have := u2 k v hk
    simp only [observe, access] at this ⊢
    have hin' : attrAt w'.heap w.heap.length kScanModule = some (.ref l) := by rw [attrAt, hsame]; exact hin
    rw [hin']
    exact this

/-! ### Examples -/

/-- A wrapper with two static attributes and a layer made in trace `j`. -/
def exWrapWorld (c : Cls) (n1 n2 : Str) (j key : Nat) : World Arr :=
  ⟨[⟨c, [(n1, .val (.str (py! "Layer"))), (n2, .val (.str (py! "Layer")))], 1, false, ⟨0, 0⟩⟩,
    ⟨exLayerCls, [(py! "w", .val (exShVar cParam (.num key) [.str (py! "embed")])), (py! "b", .val (exVar cCache (.num 10)))], 2, false, ⟨j, 0⟩⟩], 2, j, []⟩

theorem exWrapWorld_wf (c : Cls) {n1 n2 : Str} (h1 : GoodName n1) (h2 : GoodName n2) (hne : n1 ≠ n2) (j key : Nat) : WFWorld (exWrapWorld c n1 n2 j key) := by
  refine ⟨wfHeap_of_forall (show [1, 2].Nodup by decide) ?_, ?_⟩
  · intro o ho
    simp only [exWrapWorld, List.mem_cons, List.not_mem_nil, or_false] at ho
    rcases ho with rfl | rfl
    · refine ⟨by simp [DNodup, dkeys, hne], ?_⟩
      intro na hna
      simp only [List.mem_cons, List.not_mem_nil, or_false] at hna
      rcases hna with rfl | rfl
      · exact ⟨h1.1, h1.2, nofun, nofun⟩
      · exact ⟨h2.1, h2.2, nofun, nofun⟩
    refine ⟨by unfold DNodup dkeys; simp only [List.map_cons, List.map_nil]; decide, ?_⟩
    intro na hna
    simp only [List.mem_cons, List.not_mem_nil, or_false] at hna
    rcases hna with rfl | rfl <;> refine ⟨by unfold NoSlash; dsimp only; decide, by dsimp only; decide, ?_, ?_⟩ <;>
      intros <;> rename_i h <;> try cases h
    · exact .mk (by simp [PyVal.Plain]) (by simp [DNodup, dkeys]) (by simp [kSharding]) (by simp [kSharding]; decide) (fun _ _ => ⟨_, _, rfl⟩)
    all_goals exact exVar_wf _ (by simp)
  · intro l o ho
    have := List.mem_of_getElem? ho
    simp only [exWrapWorld, List.mem_cons, List.not_mem_nil, or_false] at this ⊢
    rcases this with rfl | rfl <;> simp

theorem exWrapWorld_reach {c : Cls} {n1 n2 : Str} {j key : Nat} {a : Loc} (h : Reaches (exWrapWorld c n1 n2 j key).heap 1 a) : a = 1 := by
  obtain ⟨p, hp⟩ := h
  cases hp with
  | here _ => rfl
  | step e _ =>
    have := dget_mem e
    simp at this

/-- `nnx.Remat(Layer)(ctx=ctx)` -/
example : ∃ w2 r, rematNew (.str (py! "Layer")) (.str (py! "Layer")) (exLayerInit (some (exInitCtx 5))) ⟨[], 0, 0, []⟩ = (w2, .ok r) ∧
    ∀ f s, getState f w2.heap r = some s → s.get (py! "remat_module/b") = some (exVar cCache (.num 10)) := by
  obtain ⟨w2, r, h1, _, _, _, _, _, _, _, h2⟩ := C101_remat_new (options := .str (py! "Layer")) (constructor := .str (py! "Layer")) (w := (⟨[], 0, 0, []⟩ : World Arr))
    (ctor := exLayerInit (some (exInitCtx 5))) (w1 := exWrapWorld cRemat kOptions kConstructor 0 5) (l := 1) ⟨trivial, rfl⟩ ⟨trivial, rfl⟩ rfl
    (exWrapWorld_wf _ kOptions_good kConstructor_good (by decide) _ _) (by decide) ⟨rfl, rfl⟩ rfl (fun h => absurd (exWrapWorld_reach h) (by decide))
  refine ⟨w2, r, h1, ?_⟩
  intro f s hs
  exact (h2 f 3 s _ hs rfl _ _).2 ⟨py! "b", rfl, rfl⟩

/-- A Module with the layers of C92 as its `remat_module` and its `scan_module`. -/
def exLiftedAt (n : Option Int) (s : Int) (w : Arr) : World Arr :=
  { exLayersAt n s w with heap := (exLayersAt n s w).heap ++ [⟨cScan, [(kRematModule, .ref 0), (kScanModule, .ref 0)], 4, false, ⟨0, 0⟩⟩] }

theorem exLiftedAt_wf (w : Arr) : WFWorld (exLiftedAt none 1 w) := by
  refine ⟨wfHeap_of_forall (show [3, 4].Nodup by decide) ?_, ?_⟩
  · intro o ho
    simp only [exLiftedAt, exLayersAt, List.cons_append, List.nil_append, List.append_nil, List.mem_cons, List.not_mem_nil, or_false] at ho
    rcases ho with rfl | rfl
    · refine ⟨show [py! "w", py! "s", py! "b"].Nodup by decide, ?_⟩
      intro na hna
      simp only [List.mem_cons, List.not_mem_nil, or_false] at hna
      rcases hna with rfl | rfl | rfl <;> refine ⟨by unfold NoSlash; dsimp only; decide, by dsimp only; decide, nofun, ?_⟩ <;> intros <;> rename_i h <;> cases h <;> exact exVar_wf _ (by simp)
    · refine ⟨by unfold DNodup; decide, ?_⟩
      intro na hna
      simp only [List.mem_cons, List.not_mem_nil, or_false] at hna
      rcases hna with rfl | rfl <;> refine ⟨by unfold NoSlash; decide, by decide, ?_, nofun⟩ <;> intro l h <;> cases h <;> exact Nat.succ_pos _
  · intro l o ho
    have := List.mem_of_getElem? ho
    simp only [exLiftedAt, exLayersAt, List.cons_append, List.nil_append, List.append_nil, List.mem_cons, List.not_mem_nil, or_false] at this ⊢
    rcases this with rfl | rfl <;> simp

theorem exLiftedAt_valid (w : Arr) : AllValid (exLiftedAt none 1 w) 1 := by
  intro l o _ ho
  have := List.mem_of_getElem? ho
  simp only [exLiftedAt, exLayersAt, List.cons_append, List.nil_append, List.append_nil, List.mem_cons, List.not_mem_nil, or_false] at this ⊢
  rcases this with rfl | rfl <;> rfl

theorem exLiftedUpdate (n : Option Int) (s : Int) (v w : Arr) : updateState 3 0 [exFinAt w] (exLiftedAt n s v) = (exLiftedAt n s w, none) := by
  cases n <;> rfl

theorem exLiftedInner (n : Option Int) (s w c x : Int) : (exInner c (some x)).plain arrJax [0] (exLiftedAt n s (.num w)) =
    (exLiftedAt (some (n.getD 0 + 1)) (s + w * 10 + x) (.num (w + 1)), .ok (c * 2 + w)) := by
  cases n <;> rfl

theorem exLiftedState (n : Option Int) (s : Int) (w : Arr) {fuel : Nat} (h : 0 < fuel) : getState fuel (exLiftedAt n s w).heap 0 = some (exAt n s w) := by
  cases n <;> cases fuel <;> first | rfl | cases h

/-- One iteration of the loop. -/
theorem exLiftedIter (n : Option Int) (s a c x : Int) (v : Arr)
    (h1 : NodeWrites (exLiftedAt n s (.num a)) (exLiftedAt (some (n.getD 0 + 1)) (s + a * 10 + x) (.num (a + 1))) 0)
    (h2 : NodesOnly (exLiftedAt n s (.num a)) (exLiftedAt (some (n.getD 0 + 1)) (s + a * 10 + x) (.num (a + 1))) 0) :
    updateState ((exLiftedAt n s v).heap.length + 1) 0 [exFinAt (.num a)] (exLiftedAt n s v) = (exLiftedAt n s (.num a), none) ∧
    exRuns (none, some x) c (exLiftedAt n s (.num a)) (exLiftedAt (some (n.getD 0 + 1)) (s + a * 10 + x) (.num (a + 1)))
      (.ok (c * 2 + a, c * 2 + a + 1000)) ∧
    NodesOnly (exLiftedAt n s (.num a)) (exLiftedAt (some (n.getD 0 + 1)) (s + a * 10 + x) (.num (a + 1))) 0 ∧
    getState ((exLiftedAt (some (n.getD 0 + 1)) (s + a * 10 + x) (.num (a + 1))).heap.length + 1)
      (exLiftedAt (some (n.getD 0 + 1)) (s + a * 10 + x) (.num (a + 1))).heap 0 = some (exAt (some (n.getD 0 + 1)) (s + a * 10 + x) (.num (a + 1))) :=
  ⟨exLiftedUpdate n s v (.num a), exStep_direct (exLiftedInner n s a c x) h1, h2, exLiftedState _ _ _ (Nat.succ_pos _)⟩

theorem exLiftedLoop : ScanLoop arrJax 3 exOpts 0 (some [100, 101, 102]) none exRuns (exLiftedAt none 1 (.vec [5, 6, 7])) 1
    (exLiftedAt (some 3) 484 (.vec [6, 7, 8])) (.ok (47, [1007, 1020, 1047])) := by
  obtain ⟨a0, b0, c0, d0⟩ := exLiftedIter none 1 5 1 100 _ (nodeWrites_of_check (by decide) (by decide)) (nodesOnly_of_check (by decide) (by decide))
  obtain ⟨a1, b1, c1, d1⟩ := exLiftedIter (some 1) 151 6 7 101 _ (nodeWrites_of_check (by decide) (by decide)) (nodesOnly_of_check (by decide) (by decide))
  obtain ⟨a2, b2, c2, d2⟩ := exLiftedIter (some 2) 312 7 20 102 _ (nodeWrites_of_check (by decide) (by decide)) (nodesOnly_of_check (by decide) (by decide))
  refine .done (s0 := exAt none 1 (.vec [5, 6, 7]))
    (ss := [⟨[(py! "w", exVar cParam (.vec [5, 6, 7]))]⟩, ⟨[(py! "b", exVar cCache (.num 10))]⟩, ⟨[(py! "s", exVar cBatchStat (.num 1))]⟩])
    (n := 3) (p := fun _ => false)
    (ins := [(exFinAt (.num 5), none, some 100), (exFinAt (.num 6), none, some 101), (exFinAt (.num 7), none, some 102)])
    (outs := [(exAt (some 1) 151 (.num 6), 1007), (exAt (some 2) 312 (.num 7), 1020), (exAt (some 3) 484 (.num 8), 1047)])
    (fin := exFinAt (.vec [6, 7, 8])) (exLiftedState _ _ _ (Nat.succ_pos _)) rfl rfl
    (hasLength_of_check exFilters_wf (by decide) (by intro as h; cases h; rfl) nofun (.inr nofun)) (by decide) nofun ?_
    (.next a0 b0 c0 d0 (.next a1 b1 c1 d1 (.next a2 b2 c2 d2 .done)))
    (uniform_of_check exFilters_wf (by decide) (by decide) (by decide) (by decide)) nofun
    (isStacked_of_check exFilters_wf (by decide)) (exLiftedUpdate _ _ _ _)
  refine ⟨rfl, ?_⟩
  intro i inp x hi
  have hlt : i < 3 := (List.getElem?_eq_some_iff.1 hi).1
  match i, hlt with
  | 0, _ => cases hi; exact ⟨isSlice_of_check exFilters_wf (by decide), rfl⟩
  | 1, _ => cases hi; exact ⟨isSlice_of_check exFilters_wf (by decide), rfl⟩
  | 2, _ => cases hi; exact ⟨isSlice_of_check exFilters_wf (by decide), rfl⟩

/-- Which function is called for which access. -/
def exMethods (acc : Option Access) (ctx : Option (PureContext Nat)) (c : Int) (x : Option Int) : Routine Arr Nat Int Int :=
  if acc = some (.attr (py! "step")) then exStep ctx c x else .fail .attributeError

/-- `scan.call.step(1, [100, 101, 102])`: the hypotheses of C101_scan_call hold. -/
example : ∃ wt, scanModuleCall arrOps arrJax.split 3 exOpts 7 1 [.attr (py! "step")]
      (fun acc => withOut (fun b => (b, b + 1000)) fun ctx c x l w => (exMethods acc ctx c x).run arrJax [l] w) 1 (some [100, 101, 102]) none
      (exLiftedAt none 1 (.vec [5, 6, 7])) = (wt, .ok (47, [1007, 1020, 1047])) ∧
    observe wt.heap 1 [kScanModule, py! "w"] = some (.value (exVar cParam (.vec [6, 7, 8]))) := by
  obtain ⟨wt, h1, h2, _⟩ := C101_scan_call (method := exMethods) (chain := [.attr (py! "step")]) arrJax_law (exLiftedAt_wf _) (r := 1) (l := 0) (by decide) (exLiftedAt_valid _) rfl
    (acc := some (.attr (py! "step"))) rfl exStep_good exLiftedLoop 7
  refine ⟨wt, h1, ?_⟩
  rw [((h2 _ rfl).1 1 ⟨[], .here (by decide)⟩).1]
  rfl

/-- `remat.call.step(1, 100)`: the hypotheses of C101_remat_call hold. -/
example : ∃ wt, unlimited (fun fuel => rematModuleCall fuel 9 1 [.attr (py! "step")] fun acc l w => (exMethods acc none 1 (some 100)).run arrJax [l] w)
      (exLiftedAt none 1 (.num 5)) = (wt, .ok 7) ∧
    observe wt.heap 1 [kRematModule, py! "w"] = some (.value (exVar cParam (.num 6))) := by
  have hw : NodeWrites (exLiftedAt none 1 (.num 5)) (exLiftedAt (some 1) 151 (.num 6)) 0 := nodeWrites_of_check (by decide) (by decide)
  obtain ⟨b, hb, he⟩ := exStep_direct (ctx := none) (exLiftedInner none 1 5 1 100) hw
  have : b = .ok 7 := by
    cases b with
    | error e => cases he
    | ok b => cases he; rfl
  subst this
  obtain ⟨wt, h1, h2, _⟩ := C101_remat_call (method := fun acc => exMethods acc none 1 (some 100)) (chain := [.attr (py! "step")]) arrJax_law (exLiftedAt_wf (.num 5))
    (r := 1) (l := 0) (by decide) (exLiftedAt_valid _) rfl (acc := some (.attr (py! "step"))) rfl (exStep_good none 1 (some 100)) hb (fun _ _ => hw) 9
  refine ⟨wt, h1, ?_⟩
  rw [((h2 _ rfl).1 1 ⟨[], .here (by decide)⟩).1]
  rfl

/-- `nnx.Scan(Layer, ...)(ctx=ctx)`, called: the hypotheses of C101_scan_layers hold. -/
example : ∃ limit, ∀ fuel, limit < fuel → ∃ w2 r w',
    scanNew arrOps exSplit fuel exInitOptsP (.str (py! "Layer")) (.str (py! "Layer")) 7 exLayerInit (some (exInitCtx 1)) ⟨[], 0, 0, []⟩ = (w2, .ok r) ∧
      scanModuleCall arrOps exSplit fuel exInitOptsP 7 r [] (fun _ => scanBody (calls exLayerBody)) 1 (some [100, 200, 300]) none w2 = (w', .ok (9148, [230, 331, 432])) ∧
      observe w'.heap r [kScanModule, py! "w"] = some (.value (exShVar cParam (.vec [131, 132, 133]) [.str (py! "embed")])) := by
  obtain ⟨d, hd⟩ : ∃ d, ∀ key, partitionModule 3 (exWrapWorld cScan kConstructor kOptions 7 key).heap 1 [] = .ok ([exLayerState key], d) :=
    ⟨(getModuleDef 3 (exWrapWorld cScan kConstructor kOptions 7 0).heap 1).get rfl, fun _ => rfl⟩
  obtain ⟨limit, h⟩ := C101_scan_layers (A := Int) (B := Int) (C := Int) (options := .str (py! "Layer")) (constructor := .str (py! "Layer")) ⟨trivial, rfl⟩ ⟨trivial, rfl⟩
    (w := ⟨[], 0, 0, []⟩) rfl rfl (o := exInitOptsP) (n := 3) (by decide) rfl
    (ctx := some (exInitCtx 1)) (.inl rfl) exInit_keys (by trivial) (split := exSplit) (ctxs := fun i => some (exInitCtx (130 + i)))
    (fun i hi => by cases exInit_ctx i hi; constructor <;> assumption) (j := 7)
    (ctor := exLayerInit) (ws := fun i => exWrapWorld cScan kConstructor kOptions 7 (130 + i)) (ms := fun _ => 1) (fun i _ => rfl) rfl
    (fun i _ => exWrapWorld_wf _ kConstructor_good kOptions_good (by decide) _ _) (fun _ _ => Nat.lt_succ_self 1) (fun i _ a x ha hx => by
      have := exWrapWorld_reach ha
      subst this
      cases hx
      rfl) (ss := fun i => exLayerState (130 + i))
    (fun i _ => hd _) exMethod_part ⟨exInit_uniform.1, exInit_uniform.2, exInit_uniform.3, exInit_uniform.4⟩ arrOps_laws exMethod_fin rfl rfl
    (by
      intro k x v g hx hv hfm
      have hvg : FirstMatch exInitOptsP.filters k v g ↔ _ := firstIdx_iff exInitOptsP_wf
      rcases (exLayer_match hx).1 hfm with ⟨rfl, rfl, rfl⟩ | ⟨rfl, rfl, rfl⟩ <;> cases hv <;> rw [hvg] <;> decide)
    (by
      intro k x g hx hfm
      rcases (exLayer_match hx).1 hfm with ⟨rfl, rfl, rfl⟩ | ⟨rfl, rfl, rfl⟩ <;> decide)
    (xs := some [100, 200, 300]) (by intro as h; cases h; rfl) (p := fun _ => false) (ctx1 := none) nofun (method := fun _ => exLayerBody) (chain := []) rfl exLayerBody_good
    (c := 1) (c' := 9148) (outs := [exLayerAfter 130 230, exLayerAfter 131 331, exLayerAfter 132 432])
    (.next rfl (nodesOnly_of_check (by decide) (by decide)) rfl (.next rfl (nodesOnly_of_check (by decide) (by decide)) rfl
      (.next rfl (nodesOnly_of_check (by decide) (by decide)) rfl .done)))
    (by
      intro t ht k y hk
      obtain ⟨key, hkey⟩ : ∃ key, t.1 = exLayerState key := by
        simp only [List.mem_cons, List.not_mem_nil, or_false] at ht
        rcases ht with rfl | rfl | rfl <;> exact ⟨_, rfl⟩
      rw [hkey] at hk
      have hm := dget_mem hk
      simp only [exLayerState, List.mem_cons, Prod.mk.injEq, List.not_mem_nil, or_false] at hm
      rcases hm with ⟨rfl, rfl⟩ | ⟨rfl, rfl⟩
      · exact ⟨_, rfl, fun _ h => h⟩
      · refine ⟨_, rfl, ?_⟩
        intro g
        rw [firstIdx_iff exInitOptsP_wf, firstIdx_iff exInitOptsP_wf]
        exact id)
    (fin' := exMethodFin') (isStacked_of_check exInitOptsP_wf (by decide))
  refine ⟨limit, ?_⟩
  intro fuel hf
  obtain ⟨w2, r, _, h1, _, _, w', h2, _, h3⟩ := h fuel hf
  exact ⟨w2, r, w', h1, h2, h3 (py! "w") _ rfl⟩

/-- **C101, without the inner Module.** If the Module has lost the attribute `remat_module` or `scan_module`, a call raises AttributeError and changes nothing. -/
theorem C101_missing_inner {w : World α} {r : Loc} (hr : r < w.heap.length) :
    (attrAt w.heap r kRematModule = none → ∀ fuel j chain acc, accessorOf chain = .ok acc → ∀ (method : Option Access → Loc → World α → World α × Except Err β),
      rematModuleCall fuel j r chain method w = (w, .error .attributeError)) ∧
    (attrAt w.heap r kScanModule = none → ∀ R (split : κ → Nat → Nat → κ) fuel o j chain acc, accessorOf chain = .ok acc → ∀
      (method : Option Access → Option (PureContext κ) → C → Option A → Loc → World α → World α × Except Err (C × B)) c xs ctx,
      scanModuleCall R split fuel o j r chain method c xs ctx w = (w, .error .attributeError)) := by
  have key : ∀ n, attrAt w.heap r n = none → innerModule w.heap r n = .error .attributeError := by
    intro n e
    simp only [attrAt, List.getElem?_eq_getElem hr] at e
    simp only [innerModule, varsGet, List.getElem?_eq_getElem hr, e]
  constructor
  · intro e fuel j chain acc hacc method
    simp only [rematModuleCall, hacc, key _ e]
  · intro e R split fuel o j chain acc hacc method c xs ctx
    simp only [scanModuleCall, hacc, key _ e]

example : attrAt exWorld.heap 0 kRematModule = none ∧ attrAt exWorld.heap 0 kScanModule = none := by decide

end Nnx
