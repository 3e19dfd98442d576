import Verif.Proofs.NestedLoop
import Verif.Props.ModuleDef
import Verif.Props.NestedScan
/-
C92: functions with transforms, scans included, do what they would do without any transforms.
-/
namespace Nnx
variable {α κ L β : Type} [DecidableEq α] {J : Jax α κ L}

/-- **C92.** Take a function `p` that calls other functions on its Modules through `jit`, `remat`, `grad` and `scan`, nested in any way, and
suppose it has a run without transforms: with direct calls instead of `jit` and `remat`, gradients of direct calls instead of `grad`, and loops
instead of `scan`. Then `p` with its transforms returns or raises the same. If it returns, all Modules that could be reached from its argument
have the same graphs as after the run without transforms and are at the same places. All other Modules, and the traces, are as before in any
case. -/
theorem C92_without_transforms (hlaw : GradLaw J.gradOf) {w : World α} (wf : WFWorld w) {l : Loc} (hl : l < w.heap.length) (hv : AllValid w l)
    {p : Routine α κ L β} (hp : p.Good) {wd : World α} {r : Except Err β} (hd : p.Direct J [l] w wd r) :
    ∃ wt, p.run J [l] w = (wt, r) ∧
    (∀ b, r = .ok b → (∀ a, Reaches w.heap l a → SameGraph wd.heap a wt.heap a) ∧
      ∀ a a' q, Reaches w.heap l a → Reaches w.heap l a' → (Walk wd.heap a q a' ↔ Walk wt.heap a q a')) ∧
    (∀ a : Loc, a < w.heap.length → ¬ Reaches w.heap l a → wt.heap[a]? = w.heap[a]?) ∧
    WFWorld wt ∧ wt.jaxTrace = w.jaxTrace ∧ wt.nnxStack = w.nnxStack := by
  have hr : Reaches w.heap l l := ⟨[], .here hl⟩
  obtain ⟨hc, wp, hpl, hB⟩ := Routine.Direct.sim hlaw p hp _ id [l] w w wd r (bisim_self wf hv) wf wf (by simpa using hr) hd
  simp only [List.map_id] at hc hpl
  obtain ⟨e, h1, h2⟩ := C90_nested hlaw wf hl hv hp hc (wt := (p.run J [l] w).1) (rt := (p.run J [l] w).2) rfl hpl
  refine ⟨_, Prod.ext rfl e, ?_, h2⟩
  intro b hb
  obtain ⟨S, f, hS, B⟩ := hB b hb
  obtain ⟨g1, g2⟩ := h1 b (e.trans hb)
  have wfd := Routine.Direct.wf hlaw hp hd wf hl
  refine ⟨?_, ?_⟩
  · intro a ha
    have := (B.iso (hS a ha).1).sameGraph wfd.heap (B.lt (hS a ha).1).1
    rw [(hS a ha).2] at this
    exact this.trans (g1 a ha)
  · intro a a' q ha ha'
    exact (B.walk_iff (hS a ha).1 (hS a' ha').1 (hS a ha).2 (hS a' ha').2 q).trans (g2 a a' q ha ha')

/-- **C92, the run is determined.** A function has at most one outcome without transforms. -/
theorem C92_deterministic (hlaw : GradLaw J.gradOf) {w : World α} (wf : WFWorld w) {l : Loc} (hl : l < w.heap.length) (hv : AllValid w l)
    {p : Routine α κ L β} (hp : p.Good) {wd wd' : World α} {r r' : Except Err β} (hd : p.Direct J [l] w wd r) (hd' : p.Direct J [l] w wd' r') :
    r = r' ∧ ∀ b, r = .ok b → ∀ a, Reaches w.heap l a → SameGraph wd.heap a wd'.heap a := by
  obtain ⟨wt, h1, h2, _⟩ := C92_without_transforms hlaw wf hl hv hp hd
  obtain ⟨wt', h1', h2', _⟩ := C92_without_transforms hlaw wf hl hv hp hd'
  rw [h1] at h1'
  cases h1'
  exact ⟨rfl, fun b hb a ha => ((h2 b hb).1 a ha).trans ((h2' b hb).1 a ha).symm⟩

/-! ### An example: training steps that scan over layers -/

/-- The loop over the steps: everything but the shared number is carried. -/
def exStepsOpts : ScanOptions Arr := { variableAxes := [], variableBroadcast := .ofType cCache, variableCarry := .ellipsis }

/-- `nnx.jit(nnx.scan(lambda m, c, x: nnx.scan(nnx.remat(f))(m, c, [x, x + 1, x + 2])))` on the steps 100 and 200. -/
def exSteps : Routine Arr Nat Int Int :=
  .call (.jit true 5 6) 0 (.scan 3 7 exStepsOpts (fun b => (b, b + 1)) 0 1 (some [100, 200]) none
    (fun _ c x => .scan 3 8 exOpts (fun b => (b, b + 1000)) 0 c (some [x.getD 0, x.getD 0 + 1, x.getD 0 + 2]) none exStep fun c ys => .ret (c + ys.sum))
    fun c ys => .ret (c + ys.sum)) .ret

theorem exSteps_good : exSteps.Good := ⟨⟨fun _ _ _ => ⟨exStep_good, fun _ _ => trivial⟩, fun _ _ => trivial⟩, fun _ => trivial⟩

/-- A function without transforms has its own run. -/
theorem direct_op {o : Op α} {k : Seen α → Routine α κ L β} (h : ∀ x K w, (k x).Direct J K w ((k x).plain J K w).1 ((k x).plain J K w).2)
    (K : List Loc) (w : World α) : (Routine.op o k).Direct J K w ((Routine.op o k).plain J K w).1 ((Routine.op o k).plain J K w).2 := by
  simp only [Routine.plain]
  cases ho : o.run K w with
  | error e => exact .inl ⟨e, ho, rfl, rfl⟩
  | ok y => exact .inr ⟨y.1, y.2.1, y.2.2, ho, h _ _ _⟩

theorem exInner_direct (c : Int) (x : Option Int) : ∀ (K : List Loc) (w : World Arr),
    (exInner c x).Direct arrJax K w ((exInner c x).plain arrJax K w).1 ((exInner c x).plain arrJax K w).2 :=
  direct_op fun _ => direct_op fun _ => direct_op fun _ => direct_op fun _ => direct_op fun _ => direct_op fun _ => direct_op fun _ =>
    fun _ _ => ⟨rfl, rfl⟩

theorem exStep_direct {ctx : Option (PureContext Nat)} {c : Int} {x : Option Int} {w w' : World Arr} {b : Int}
    (h : (exInner c x).plain arrJax [0] w = (w', .ok b)) (hn : NodeWrites w w' 0) :
    ∃ r, (exStep ctx c x).Direct arrJax [0] w w' r ∧ Except.ok (b, b + 1000) = r.map (fun b => (b, b + 1000)) := by
  refine ⟨.ok b, ⟨0, rfl, .inr ⟨w', b, ?_, fun _ _ => hn, rfl, rfl⟩⟩, rfl⟩
  have := exInner_direct c x [0] w
  rwa [h] at this

/-- The state of the layers: the counter, the statistic and the parameters. -/
def exAt (n : Option Int) (s : Int) (w : Arr) : State (PyVal Arr) :=
  ⟨(py! "b", exVar cCache (.num 10)) :: (match n with | none => [] | some n => [(py! "n", .data cArray (.num n))]) ++
    [(py! "s", exVar cBatchStat (.num s)), (py! "w", exVar cParam w)]⟩

/-- An update of the parameters and the shared number. -/
def exFinAt (w : Arr) : State (PyVal Arr) := ⟨[(py! "b", exVar cCache (.num 10)), (py! "w", exVar cParam w)]⟩

/-- The layers. -/
def exLayersAt (n : Option Int) (s : Int) (w : Arr) : World Arr :=
  ⟨[⟨{ name := py! "Layer", ancestors := [py! "Module"] }, [(py! "w", .val (exVar cParam w)), (py! "s", .val (exVar cBatchStat (.num s))),
    (py! "b", .val (exVar cCache (.num 10)))] ++ (match n with | none => [] | some n => [(py! "n", .val (.data cArray (.num n)))]),
    3, false, ⟨0, 0⟩⟩], 9, 0, []⟩

theorem exUpdate (n : Option Int) (s : Int) (v w : Arr) : updateState 2 0 [exFinAt w] (exLayersAt n s v) = (exLayersAt n s w, none) := by
  cases n <;> rfl

theorem exInner_at (n : Option Int) (s w c x : Int) : (exInner c (some x)).plain arrJax [0] (exLayersAt n s (.num w)) =
    (exLayersAt (some (n.getD 0 + 1)) (s + w * 10 + x) (.num (w + 1)), .ok (c * 2 + w)) := by
  cases n <;> rfl

theorem exAt_state (n : Option Int) (s : Int) (w : Arr) {fuel : Nat} (h : 0 < fuel) : getState fuel (exLayersAt n s w).heap 0 = some (exAt n s w) := by
  cases n <;> cases fuel <;> first | rfl | cases h

/-- The runs of the body of the inner scan. -/
def exRuns (x : Option (PureContext Nat) × Option Int) (c : Int) (w w' : World Arr) (r : Except Err (Int × Int)) : Prop :=
  ∃ b, (exStep x.1 c x.2).Direct arrJax [0] w w' b ∧ r = b.map fun b => (b, b + 1000)

/-- One iteration of the inner loop. -/
theorem exIter (n : Option Int) (s a c x : Int) (v : Arr)
    (h1 : NodeWrites (exLayersAt n s (.num a)) (exLayersAt (some (n.getD 0 + 1)) (s + a * 10 + x) (.num (a + 1))) 0)
    (h2 : NodesOnly (exLayersAt n s (.num a)) (exLayersAt (some (n.getD 0 + 1)) (s + a * 10 + x) (.num (a + 1))) 0) :
    updateState ((exLayersAt n s v).heap.length + 1) 0 [exFinAt (.num a)] (exLayersAt n s v) = (exLayersAt n s (.num a), none) ∧
    exRuns (none, some x) c (exLayersAt n s (.num a)) (exLayersAt (some (n.getD 0 + 1)) (s + a * 10 + x) (.num (a + 1)))
      (.ok (c * 2 + a, c * 2 + a + 1000)) ∧
    NodesOnly (exLayersAt n s (.num a)) (exLayersAt (some (n.getD 0 + 1)) (s + a * 10 + x) (.num (a + 1))) 0 ∧
    getState ((exLayersAt (some (n.getD 0 + 1)) (s + a * 10 + x) (.num (a + 1))).heap.length + 1)
      (exLayersAt (some (n.getD 0 + 1)) (s + a * 10 + x) (.num (a + 1))).heap 0 = some (exAt (some (n.getD 0 + 1)) (s + a * 10 + x) (.num (a + 1))) :=
  ⟨exUpdate n s v (.num a), exStep_direct (exInner_at n s a c x) h1, h2, exAt_state _ _ _ (Nat.succ_pos _)⟩

/-- The first step, which creates the counter. -/
theorem exFirst : ScanLoop arrJax 3 exOpts 0 (some [100, 101, 102]) none exRuns (exLayersAt none 1 (.vec [5, 6, 7])) 1
    (exLayersAt (some 3) 484 (.vec [6, 7, 8])) (.ok (47, [1007, 1020, 1047])) := by
  obtain ⟨a0, b0, c0, d0⟩ := exIter none 1 5 1 100 _ (nodeWrites_of_check (by decide) (by decide)) (nodesOnly_of_check (by decide) (by decide))
  obtain ⟨a1, b1, c1, d1⟩ := exIter (some 1) 151 6 7 101 _ (nodeWrites_of_check (by decide) (by decide)) (nodesOnly_of_check (by decide) (by decide))
  obtain ⟨a2, b2, c2, d2⟩ := exIter (some 2) 312 7 20 102 _ (nodeWrites_of_check (by decide) (by decide)) (nodesOnly_of_check (by decide) (by decide))
  refine .done (s0 := exAt none 1 (.vec [5, 6, 7]))
    (ss := [⟨[(py! "w", exVar cParam (.vec [5, 6, 7]))]⟩, ⟨[(py! "b", exVar cCache (.num 10))]⟩, ⟨[(py! "s", exVar cBatchStat (.num 1))]⟩])
    (n := 3) (p := fun _ => false)
    (ins := [(exFinAt (.num 5), none, some 100), (exFinAt (.num 6), none, some 101), (exFinAt (.num 7), none, some 102)])
    (outs := [(exAt (some 1) 151 (.num 6), 1007), (exAt (some 2) 312 (.num 7), 1020), (exAt (some 3) 484 (.num 8), 1047)])
    (fin := exFinAt (.vec [6, 7, 8])) (exAt_state _ _ _ (Nat.succ_pos _)) rfl rfl
    (hasLength_of_check exFilters_wf (by decide) (by intro as h; cases h; rfl) nofun (.inr nofun)) (by decide) nofun ?_
    (.next a0 b0 c0 d0 (.next a1 b1 c1 d1 (.next a2 b2 c2 d2 .done)))
    (uniform_of_check exFilters_wf (by decide) (by decide) (by decide) (by decide)) nofun
    (isStacked_of_check exFilters_wf (by decide)) (exUpdate _ _ _ _)
  refine ⟨rfl, ?_⟩
  intro i inp x hi
  have hlt : i < 3 := (List.getElem?_eq_some_iff.1 hi).1
  match i, hlt with
  | 0, _ => cases hi; exact ⟨isSlice_of_check exFilters_wf (by decide), rfl⟩
  | 1, _ => cases hi; exact ⟨isSlice_of_check exFilters_wf (by decide), rfl⟩
  | 2, _ => cases hi; exact ⟨isSlice_of_check exFilters_wf (by decide), rfl⟩

/-- The second step. -/
theorem exSecond : ScanLoop arrJax 3 exOpts 0 (some [200, 201, 202]) none exRuns (exLayersAt (some 3) 484 (.vec [6, 7, 8])) 3121
    (exLayersAt (some 6) 1297 (.vec [7, 8, 9])) (.ok (25014, [7248, 13503, 26014])) := by
  obtain ⟨a0, b0, c0, d0⟩ := exIter (some 3) 484 6 3121 200 _ (nodeWrites_of_check (by decide) (by decide)) (nodesOnly_of_check (by decide) (by decide))
  obtain ⟨a1, b1, c1, d1⟩ := exIter (some 4) 744 7 6248 201 _ (nodeWrites_of_check (by decide) (by decide)) (nodesOnly_of_check (by decide) (by decide))
  obtain ⟨a2, b2, c2, d2⟩ := exIter (some 5) 1015 8 12503 202 _ (nodeWrites_of_check (by decide) (by decide)) (nodesOnly_of_check (by decide) (by decide))
  refine .done (s0 := exAt (some 3) 484 (.vec [6, 7, 8]))
    (ss := [⟨[(py! "w", exVar cParam (.vec [6, 7, 8]))]⟩, ⟨[(py! "b", exVar cCache (.num 10))]⟩, ⟨[(py! "n", .data cArray (.num 3)), (py! "s", exVar cBatchStat (.num 484))]⟩])
    (n := 3) (p := fun _ => false)
    (ins := [(exFinAt (.num 6), none, some 200), (exFinAt (.num 7), none, some 201), (exFinAt (.num 8), none, some 202)])
    (outs := [(exAt (some 4) 744 (.num 7), 7248), (exAt (some 5) 1015 (.num 8), 13503), (exAt (some 6) 1297 (.num 9), 26014)])
    (fin := exFinAt (.vec [7, 8, 9])) (exAt_state _ _ _ (Nat.succ_pos _)) rfl rfl
    (hasLength_of_check exFilters_wf (by decide) (by intro as h; cases h; rfl) nofun (.inr nofun)) (by decide) nofun ?_
    (.next a0 b0 c0 d0 (.next a1 b1 c1 d1 (.next a2 b2 c2 d2 .done)))
    (uniform_of_check exFilters_wf (by decide) (by decide) (by decide) (by decide)) nofun
    (isStacked_of_check exFilters_wf (by decide)) (exUpdate _ _ _ _)
  refine ⟨rfl, ?_⟩
  intro i inp x hi
  have hlt : i < 3 := (List.getElem?_eq_some_iff.1 hi).1
  match i, hlt with
  | 0, _ => cases hi; exact ⟨isSlice_of_check exFilters_wf (by decide), rfl⟩
  | 1, _ => cases hi; exact ⟨isSlice_of_check exFilters_wf (by decide), rfl⟩
  | 2, _ => cases hi; exact ⟨isSlice_of_check exFilters_wf (by decide), rfl⟩

theorem exStepsFilters_wf : ∀ f ∈ exStepsOpts.filters, f.WellFormed := by
  intro f hf
  simp only [ScanOptions.filters, exStepsOpts, List.map_nil, List.nil_append, List.mem_cons, List.not_mem_nil, or_false] at hf
  rcases hf with rfl | rfl <;> trivial

/-- What the outer loop passes to each iteration. -/
def exCommon : State (PyVal Arr) := ⟨[(py! "b", exVar cCache (.num 10))]⟩

theorem exCommon_update (n : Option Int) (s : Int) (w : Arr) : updateState 2 0 [exCommon] (exLayersAt n s w) = (exLayersAt n s w, none) := by
  cases n <;> rfl

/-- The hypothesis of C92: two steps, with three iterations each. -/
theorem exSteps_direct : exSteps.Direct arrJax [0] exLayers (exLayersAt (some 6) 1297 (.vec [7, 8, 9])) (.ok 146681) := by
  refine ⟨0, rfl, .inr ⟨_, 146681, ⟨0, rfl, .inr ⟨exLayersAt (some 6) 1297 (.vec [7, 8, 9]), 71779, [3122, 71780], ?_, rfl, rfl⟩⟩,
    fun _ _ => nodeWrites_of_check (by decide) (by decide), rfl, rfl⟩⟩
  refine .done (s0 := exAt none 1 (.vec [5, 6, 7]))
    (ss := [exCommon, ⟨[(py! "s", exVar cBatchStat (.num 1)), (py! "w", exVar cParam (.vec [5, 6, 7]))]⟩]) (n := 2) (p := fun _ => false)
    (ins := [(exCommon, none, some 100), (exCommon, none, some 200)])
    (outs := [(exAt (some 3) 484 (.vec [6, 7, 8]), 3122), (exAt (some 6) 1297 (.vec [7, 8, 9]), 71780)])
    (fin := exCommon) (exAt_state none 1 (.vec [5, 6, 7]) (Nat.succ_pos _)) rfl rfl
    (hasLength_of_check exStepsFilters_wf (by decide) (by intro as h; cases h; rfl) nofun (.inr nofun)) (by decide) nofun ?_
    (.next (exCommon_update none 1 (.vec [5, 6, 7])) ⟨.ok 3121, ⟨0, rfl, .inr ⟨_, _, _, exFirst, rfl, rfl⟩⟩, rfl⟩
      (nodesOnly_of_check (by decide) (by decide)) (exAt_state _ _ _ (Nat.succ_pos _))
    (.next (exCommon_update _ _ _) ⟨.ok 71779, ⟨0, rfl, .inr ⟨_, _, _, exSecond, rfl, rfl⟩⟩, rfl⟩
      (nodesOnly_of_check (by decide) (by decide)) (exAt_state _ _ _ (Nat.succ_pos _)) .done))
    (uniform_of_check exStepsFilters_wf (by decide) (by decide) (by decide) (by decide)) nofun
    (isStacked_of_check exStepsFilters_wf (by decide)) (exCommon_update _ _ _)
  refine ⟨rfl, ?_⟩
  intro i inp x hi
  have hlt : i < 2 := (List.getElem?_eq_some_iff.1 hi).1
  match i, hlt with
  | 0, _ => cases hi; exact ⟨isSlice_of_check exStepsFilters_wf (by decide), rfl⟩
  | 1, _ => cases hi; exact ⟨isSlice_of_check exStepsFilters_wf (by decide), rfl⟩

/-- So the function with all its transforms returns 146681 and leaves the layers as the two nested loops do. -/
example : ∃ wt, exSteps.run arrJax [0] exLayers = (wt, .ok 146681) ∧
    SameGraph (exLayersAt (some 6) 1297 (.vec [7, 8, 9])).heap 0 wt.heap 0 := by
  obtain ⟨wt, h, hg, _⟩ := C92_without_transforms arrJax_law exLayers_wf (l := 0) (by decide) exLayers_valid exSteps_good exSteps_direct
  exact ⟨wt, h, (hg _ rfl).1 0 ⟨[], .here (by decide)⟩⟩

end Nnx
