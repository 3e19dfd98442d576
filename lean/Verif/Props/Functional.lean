import Verif.Proofs.Functional
/-
C95: training with the functional API and training with lifted transforms.
-/
namespace Nnx
variable {α κ L β : Type} [DecidableEq α] {J : Jax α κ L}

omit [DecidableEq α] in
/-- The parts of a partition of a Module. -/
theorem partition_parts {h : Heap α} {fuel : Nat} {l : Loc} {wrt : Filter α} {params rest : State (PyVal α)} {d : ModuleDef α}
    (hp : partitionModule fuel h l [wrt, .ellipsis] = .ok ([params, rest], d)) :
    ∃ s, getModuleDef fuel h l = some d ∧ getState fuel h l = some s ∧ s.partition [wrt, .ellipsis] = .ok [params, rest] := by
  unfold partitionModule at hp
  split at hp
  · next d' s hd hs =>
    simp only at hp
    split at hp
    · cases hp
    · next ss hpart =>
      cases hp
      exact ⟨s, hd, hs, hpart⟩
  · cases hp

/-- **C95, one step.** Let `(params, rest), moduledef = model.partition(wrt, ...)`. The training step of the functional API on `params` and `rest` (in any world) and
the training step with `nnx.grad` on the model (called directly or through `nnx.jit` or `nnx.remat`) return the same, and the former returns exactly what
`model.partition(wrt, ...)` returns after the latter; the ModuleDef is the same. -/
theorem C95_step (hlaw : GradLaw J.gradOf) {w wd u : World α} (wf : WFWorld w) (wfu : WFWorld u) {l : Loc} (hl : l < w.heap.length) (hv : AllValid w l)
    {wrt other : Filter α} (hw : wrt.WellFormed) (ho : other.WellFormed) (hty : SeesTypes wrt)
    {step : List (PyVal α) → Except Err (PyVal α)} (hstep : MakesArrays step) (hkt : KeepsType step) {loss : β → L}
    {params rest : State (PyVal α)} {d : ModuleDef α}
    (hp : partitionModule (w.heap.length + 1) w.heap l [wrt, .ellipsis] = .ok ([params, rest], d))
    {f : Routine α κ L β} {b : β} (hb : BothWays J wrt other step loss d f l w wd b) (i j t : Nat) {how : How} (hk : how.kept = true) :
    ∃ wt params' rest', how.call l (fun l w => (trainStep j t wrt step loss f).run J [l] w) w = (wt, .ok b) ∧
      functionalStep J i other step loss d u f params rest = .ok (b, params', rest') ∧
      partitionModule (wt.heap.length + 1) wt.heap l [wrt, .ellipsis] = .ok ([params', rest'], d) ∧
      (∀ a : Loc, a < w.heap.length → ¬ Reaches w.heap l a → wt.heap[a]? = w.heap[a]?) ∧
      WFWorld wt ∧ l < wt.heap.length ∧ AllValid wt l := by
  obtain ⟨s, hd, hs, hpart⟩ := partition_parts hp
  have hob := getState_obtainable hs
  have hne : wrt ≠ .ellipsis := by
    rintro rfl
    have := (C02_misplaced_ellipsis s (filters := [.ellipsis, .ellipsis]) ⟨0, by simp, rfl⟩).1
    rw [this] at hpart
    cases hpart
  obtain ⟨_, _, hpart', hc1, hc2, e1, e2⟩ := rest_partition hob hw hne
  rw [hpart] at hpart'
  cases hpart'
  -- the parameters are the selected entries
  obtain ⟨_, s0, _, _, _, hb0, hpc0, _, e1', _⟩ := selected_spec wf hl hw
  have hs0 := (hb0 _ (Nat.lt_succ_self _)).2.1
  rw [hs] at hs0
  cases hs0
  have hsel : selected wrt l w = params := State.Canonical.ext (hpc0.1 _ (by simp)) hc1 fun k => Option.ext fun v => by rw [e1', e1]
  have hpc : Pieces s [params, rest] := partition_pieces hob hpart
  obtain ⟨wt, sd, st, d', h1, hsd, hst, hup, hdd, hdt, hsame, wft, hlt, hvt, _, _, p', hnew, hlike, hget⟩ :=
    train_step_core hlaw wf hl hv hb.good hw hstep hb.runs hb.can j t hk
  rw [hb.structure_] at hdd
  cases hdd
  have P := hb.good.parametric hlaw
  have hkp := P.keeps l w wf hl
  have wfd := P.wf wf hl
  simp only [hb.runs.returns] at hkp wfd
  have hld := Nat.lt_of_lt_of_le hl hkp.len
  obtain ⟨g1, g2, g3⟩ := updated_selected wfd wft hld hlt hw ho hty hkt hsd hst (fun k v => hb.rest sd k v hsd) hup hlike hget
  obtain ⟨_, s4, _, _, _, hb4, hpc4, _, e4, _⟩ := selected_spec wft hlt hw
  have hs4 := (hb4 _ (Nat.lt_succ_self _)).2.1
  rw [hst] at hs4
  cases hs4
  refine ⟨wt, p', selected other l wd, h1, ?_, ?_, hsame, wft, hlt, hvt⟩
  · have hgrad : J.gradOf (fun x => lossOf loss (functionalLoss J i other f d rest u x)) params = gradientAt J wrt loss f l w := by
      rw [gradientAt, hsel]
      refine hlaw.depends _ _ _ fun y hy => ?_
      obtain ⟨wy, sy, _, _, hu, wfy, hly, hvy, hdy, hsy, hpy, _⟩ := like_pieces wf hl hv hs hd hc2 e1 e2 hy (Nat.lt_succ_self _)
      have hcy := hb.runs.elsewhere y wy (by rw [hsel]; exact hy) hu
      rw [functionalLoss_eq hlaw wfy wfu (by rw [hly]; exact hl) hvy hb.good hcy ho hdy hsy hpy i (wd := (f.plain J [l] wy).1) rfl]
      simp only [directLoss, hu, withLoss]
      cases (f.plain J [l] wy).2 <;> rfl
    have hmap : stateTreeMap step params [gradientAt J wrt loss f l w] = .ok p' := by
      rw [← hsel, selected_same wf wfd hl hld hw hs hsd (hb.params s sd hs hsd)]
      simp only [newParams, filter_selected (l := l) hw hsd] at hnew
      exact hnew
    have hloss := functionalLoss_eq hlaw wf wfu hl hv hb.good hb.runs.carried ho hd hs hpc i hb.runs.returns
    simp only [Except.map] at hloss
    simp only [functionalStep, hloss, hgrad, hmap]
  · have hobt := getState_obtainable hst
    obtain ⟨x1, x2, hx, c1, c2, k1, k2⟩ := rest_partition hobt hw hne
    have : x1 = p' := State.Canonical.ext c1 hlike.1 fun k => Option.ext fun v => by rw [k1, ← g1, e4]
    subst this
    have : x2 = selected other l wd := State.Canonical.ext c2 g2 fun k => Option.ext fun v => by rw [k2, g3]
    subst this
    simp only [partitionModule, hdt, hst, hx]

/-- **C95.** The training loop of the functional API and the training loop with lifted transforms return the same, and leave the same model: the States that the former
returns are what `model.partition(wrt, ...)` returns after the latter, and merging them gives a Module that cannot be told from the model. -/
theorem C95_loop (hlaw : GradLaw J.gradOf) {u : World α} (wfu : WFWorld u) {l : Loc}
    {wrt other : Filter α} (hw : wrt.WellFormed) (ho : other.WellFormed) (hty : SeesTypes wrt)
    {step : List (PyVal α) → Except Err (PyVal α)} (hstep : MakesArrays step) (hkt : KeepsType step) {loss : β → L} {d : ModuleDef α}
    (i j t : Nat) {how : How} (hk : how.kept = true) (fs : List (Routine α κ L β)) (b : β)
    {w : World α} (wf : WFWorld w) (hl : l < w.heap.length) (hv : AllValid w l) {params rest : State (PyVal α)}
    (hp : partitionModule (w.heap.length + 1) w.heap l [wrt, .ellipsis] = .ok ([params, rest], d))
    (hb : LoopBothWays J wrt other step loss d l (fun f w => how.call l (fun l w => (trainStep j t wrt step loss f).run J [l] w) w) fs w) :
    ∃ wt b' params' rest', (trainLoop how j t wrt step loss fs b).run J [l] w = (wt, .ok b') ∧
      functionalLoop J i other step loss d u fs b params rest = .ok (b', params', rest') ∧
      partitionModule (wt.heap.length + 1) wt.heap l [wrt, .ellipsis] = .ok ([params', rest'], d) ∧
      ∃ um m, mergeDef d [params', rest'] u = (um, .ok m) ∧ SameGraph wt.heap l um.heap m := by
  induction fs generalizing b w params rest with
  | nil =>
    refine ⟨w, b, params, rest, rfl, rfl, hp, ?_⟩
    exact (C13_filtered_round_trip wf.heap hl (by simp) hp (List.Perm.refl _) wfu).2
  | cons f fs ih =>
    obtain ⟨⟨wd, b1, h1⟩, h2⟩ := hb
    obtain ⟨wt, p1, r1, k1, k2, k3, _, k5, k6, k7⟩ := C95_step hlaw wf wfu hl hv hw ho hty hstep hkt hp h1 i j t hk
    simp only [k1] at h2
    obtain ⟨wt', b2, p2, r2, m1, m2, m3, m4⟩ := ih b1 k5 k6 k7 k3 h2
    refine ⟨wt', b2, p2, r2, ?_, ?_, m3, m4⟩
    · simp only [trainLoop, Routine.run, List.getElem?_cons_zero, k1]
      exact m1
    · simp only [functionalLoop, k2]
      exact m2

omit [DecidableEq α] in
/-- **C95, other partitions.** If `model.partition(wrt, other)` returns, it returns what `model.partition(wrt, ...)` returns. -/
theorem C95_partition {h : Heap α} {fuel : Nat} {l : Loc} {wrt other : Filter α} {params rest : State (PyVal α)} {d : ModuleDef α}
    (hp : partitionModule fuel h l [wrt, other] = .ok ([params, rest], d)) :
    partitionModule fuel h l [wrt, .ellipsis] = .ok ([params, rest], d) := by
  unfold partitionModule at hp
  split at hp
  swap
  · cases hp
  next d' s hd hs =>
  simp only at hp
  split at hp
  · cases hp
  next ss hpart =>
  cases hp
  have hob := getState_obtainable hs
  have hne : wrt ≠ .ellipsis := by
    rintro rfl
    have := (C02_misplaced_ellipsis s (filters := [.ellipsis, other]) ⟨0, by simp, rfl⟩).1
    rw [this] at hpart
    cases hpart
  have hwf : ∀ f ∈ [wrt, other], f.WellFormed := by
    apply Classical.byContradiction
    intro hn
    obtain ⟨e, he⟩ := (C02_filter_total hob [wrt, other]).2 hn
    rw [he] at hpart
    cases hpart
  obtain ⟨_, hfm⟩ := C01_partition_first_match hob hpart
  obtain ⟨x1, x2, hx, c1, c2, k1, k2⟩ := rest_partition hob (hwf wrt (by simp)) hne
  have h1 : x1 = params := by
    refine State.Canonical.ext c1 (Obtainable.partition hob hpart (by simp)).canonical fun k => Option.ext fun v => ?_
    rw [k1, hfm 0 params rfl]
    refine and_congr_right fun _ => ⟨fun h => ⟨⟨_, rfl, h⟩, fun j hj => absurd hj (Nat.not_lt_zero _)⟩, ?_⟩
    rintro ⟨⟨g, hg, hm⟩, _⟩
    cases hg
    exact hm
  have h2 : x2 = rest := by
    refine State.Canonical.ext c2 (Obtainable.partition hob hpart (by simp)).canonical fun k => Option.ext fun v => ?_
    rw [k2]
    constructor
    · rintro ⟨hv, hm⟩
      obtain ⟨n, ⟨t, ht, htv⟩, _⟩ := C01_partition_exactly_one hob hpart hv
      match n, ht with
      | 0, ht =>
        cases ht
        obtain ⟨_, ⟨g, hg, hgm⟩, _⟩ := (hfm 0 params rfl k v).1 htv
        cases hg
        exact absurd hgm hm
      | 1, ht => cases ht; exact htv
    · intro hv
      obtain ⟨hv, _, hno⟩ := (hfm 1 rest rfl k v).1 hv
      exact ⟨hv, hno 0 Nat.zero_lt_one wrt rfl⟩
  subst h1
  subst h2
  simp only [partitionModule, hd, hs, hx]

/-! ### An example -/

omit [DecidableEq α] in
/-- Filters by type look at types only. -/
theorem SeesTypes.ofType (c : Cls) : SeesTypes (.ofType c : Filter α) := by
  intro k u v h
  simp only [Filter.Matches, PyVal.isInstance, h]

/-- The ModuleDef of the example. -/
def exDef : ModuleDef Nat := (getModuleDef 3 exWorld.heap 0).get (by decide)

/-- `lambda w, g: w + 10 * g`, which keeps the type of `w`. -/
def exSgdKeep : List (PyVal Nat) → Except Err (PyVal Nat)
  | [.data c a, .data _ b] => if c = cArray then .ok (.data c (a + 10 * b)) else .error .typeError
  | _ => .error .typeError

theorem exSgdKeep_arrays : MakesArrays exSgdKeep := by
  intro xs y h
  unfold exSgdKeep at h
  split at h
  · split at h
    · next hc => subst hc; cases h; exact ⟨_, _, rfl, rfl⟩
    · cases h
  · cases h

theorem exSgdKeep_types : KeepsType exSgdKeep := by
  intro x zs y h
  unfold exSgdKeep at h
  split at h
  · next heq =>
    split at h
    · cases heq; cases h; rfl
    · cases h
  · cases h

theorem exSgdKeep_defined (k : Str) (v u : PyVal Nat) (q : List TreeKey) (x z : PyVal Nat) (h : exBefore.get k = some v)
    (hm : (Filter.ofType cParam : Filter Nat).Matches k v) (hu : (gradientAt exJaxS (.ofType cParam) id exLossT 0 exWorld).get k = some u)
    (hx : Sub v q x) (hl : TreeLeaf x) (hz : Sub u q z) : ∃ y, exSgdKeep [x, z] = .ok y := by
  rw [exGradient] at hu
  have h' := dget_mem h
  have hu' := dget_mem hu
  simp only [exBefore, List.mem_cons, List.not_mem_nil, or_false, Prod.mk.injEq] at h' hu'
  have hv : ∃ n, v = exParam n := by
    rcases h' with ⟨rfl, rfl⟩ | ⟨rfl, rfl⟩ | ⟨rfl, rfl⟩
    · exact absurd hm (exStat_no _ _)
    · exact ⟨_, rfl⟩
    · exact ⟨_, rfl⟩
  have hu'' : u = exParam 1 := by rcases hu' with ⟨_, rfl⟩ | ⟨_, rfl⟩ <;> rfl
  obtain ⟨n, rfl⟩ := hv
  subst hu''
  cases hx with
  | here => exact absurd hl.1 (by decide)
  | value _ hx =>
    cases hx
    cases hz with
    | value _ hz => cases hz; exact ⟨_, rfl⟩

/-- The hypotheses hold for the loss function `exLossT`, with the statistics as the other entries. -/
theorem exBothWays : BothWays exJaxS (.ofType cParam) (.ofType cBatchStat) exSgdKeep id exDef exLossT 0 exWorld exAfterLoss 1 where
  good := exLossT_good
  runs := exLoss_runs
  structure_ := by decide +kernel
  params := by
    intro s sd hs hsd
    rw [exBefore_state] at hs
    rw [exBetween_state] at hsd
    cases hs
    cases hsd
    exact exSame_params
  rest := by
    intro sd k v hsd hv
    rw [exBetween_state] at hsd
    cases hsd
    have h' := dget_mem hv
    simp only [exBetween, List.mem_cons, List.not_mem_nil, or_false, Prod.mk.injEq] at h'
    have hp : ∀ n, (Filter.ofType cParam : Filter Nat).Matches k (exParam n) := fun n => rfl
    have hs : ∀ n, (Filter.ofType cBatchStat : Filter Nat).Matches k (exStat n) := fun n => rfl
    have hn : ∀ n, ¬ (Filter.ofType cBatchStat : Filter Nat).Matches k (exParam n) := by
      intro n h
      have h : cParam.isSub cBatchStat = true := h
      exact absurd h (by decide)
    rcases h' with ⟨_, rfl⟩ | ⟨_, rfl⟩ | ⟨_, rfl⟩
    · exact ⟨fun _ => exStat_no _ _, fun _ => hs _⟩
    · exact ⟨fun h => absurd h (hn _), fun h => absurd (hp _) h⟩
    · exact ⟨fun h => absurd h (hn _), fun h => absurd (hp _) h⟩
  can := canStep exShaped_law exShaped_shape exWorld_wf (by decide) exLossT_good (by trivial) exLoss_runs exBefore_state exBetween_state
    exSame_params exTree_params exSgdKeep_defined

/-- The theorem applies to a loop of one step in `jit`. -/
example : ∃ wt b' params' rest', (trainLoop (.jit true 5 6) 7 8 (.ofType cParam) exSgdKeep id [exLossT] 0).run exJaxS [0] exWorld = (wt, .ok b') ∧
    functionalLoop exJaxS 4 (.ofType cBatchStat) exSgdKeep id exDef ⟨[], 3, 0, []⟩ [exLossT] 0 ⟨[(py! "a/w", exParam 5), (py! "w", exParam 1)]⟩
      ⟨[(py! "a/s", exStat 6)]⟩ = .ok (b', params', rest') ∧
    partitionModule (wt.heap.length + 1) wt.heap 0 [.ofType cParam, .ellipsis] = .ok ([params', rest'], exDef) ∧
    ∃ um m, mergeDef exDef [params', rest'] ⟨[], 3, 0, []⟩ = (um, .ok m) ∧ SameGraph wt.heap 0 um.heap m :=
  C95_loop (how := .jit true 5 6) exShaped_law ⟨wfHeap_of_forall (by decide) (by simp), by simp⟩ (by trivial) (by trivial) (.ofType _) exSgdKeep_arrays exSgdKeep_types 4 7 8 rfl [exLossT] 0
    exWorld_wf (by decide) exWorld_valid (by decide +kernel) ⟨⟨_, _, exBothWays⟩, trivial⟩

/-- Two steps of the functional API. -/
example : functionalLoop exJaxS 4 (.ofType cBatchStat) exSgdKeep id exDef ⟨[], 3, 0, []⟩ [exLossT, exLossT] 0
    ⟨[(py! "a/w", exParam 5), (py! "w", exParam 1)]⟩ ⟨[(py! "a/s", exStat 6)]⟩ =
    .ok (11, ⟨[(py! "a/w", exParam 125), (py! "w", exParam 121)]⟩, ⟨[(py! "a/s", exStat 20)]⟩) := by decide +kernel

end Nnx
