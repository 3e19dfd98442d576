import Verif.Proofs.TrainStep
/-
C94: the training step of the documentation.
-/
namespace Nnx
variable {α κ L β : Type} [DecidableEq α] {J : Jax α κ L}

/-- A call, and nothing else. -/
theorem run_call (how : How) (p : Routine α κ L β) (l : Loc) (w : World α) :
    (Routine.call how 0 p .ret).run J [l] w = how.call l (fun l w => p.run J [l] w) w := by
  simp only [Routine.run, List.getElem?_cons_zero]
  generalize how.call l (fun l w => p.run J [l] w) w = r
  obtain ⟨w', _ | b⟩ := r <;> rfl

/-- What the training step does, with the new parameters. -/
theorem train_step_core (hlaw : GradLaw J.gradOf) {w wd : World α} (wf : WFWorld w) {l : Loc} (hl : l < w.heap.length) (hv : AllValid w l)
    {f : Routine α κ L β} (hf : f.Good) {wrt : Filter α} (hw : wrt.WellFormed) {step : List (PyVal α) → Except Err (PyVal α)}
    (hstep : MakesArrays step) {b : β} (hr : LossRuns J wrt f l w wd b) {loss : β → L}
    (hc : CanStep step (gradientAt J wrt loss f l w) (selected wrt l wd)) (j t : Nat) {how : How} (hk : how.kept = true) :
    ∃ wt sd st d, how.call l (fun l w => (trainStep j t wrt step loss f).run J [l] w) w = (wt, .ok b) ∧
      getState (wd.heap.length + 1) wd.heap l = some sd ∧ getState (wt.heap.length + 1) wt.heap l = some st ∧
      Updated wrt step (gradientAt J wrt loss f l w) sd st ∧
      getModuleDef (wd.heap.length + 1) wd.heap l = some d ∧ getModuleDef (wt.heap.length + 1) wt.heap l = some d ∧
      (∀ a : Loc, a < w.heap.length → ¬ Reaches w.heap l a → wt.heap[a]? = w.heap[a]?) ∧
      WFWorld wt ∧ l < wt.heap.length ∧ AllValid wt l ∧ wt.jaxTrace = w.jaxTrace ∧ wt.nnxStack = w.nnxStack ∧
      ∃ p, newParams wrt step sd (gradientAt J wrt loss f l w) = .ok p ∧ LikeState (selected wrt l wd) p ∧ ∀ k, st.get k = (p.get k).or (sd.get k) := by
  obtain ⟨wp, sd, st, d, hpl, hcar, hnw, hsd, hst, hdd, hdp, hup, hnew⟩ := trainStep_plain hlaw wf hl hv hf hw hstep hr hc j t
  let p : Routine α κ L β := .call how 0 (trainStep j t wrt step loss f) .ret
  have hg := trainStep_good hf hw hstep j t loss
  have hp : p.Good := ⟨hg, fun _ => trivial⟩
  have hplp : p.plain J [l] w = (wp, .ok b) := by simp [p, Routine.plain, hpl, hk]
  have hcp : p.Carried J [l] w := by
    intro l' hl'
    cases hl'
    refine ⟨hcar, fun w' b' hb' => ⟨fun _ _ => ?_, trivial⟩⟩
    rw [hpl] at hb'
    cases hb'
    exact hnw
  have hroot : Reaches w.heap l l := ⟨[], .here hl⟩
  have B := bisim_self wf hv
  have F := Routine.run_follows hlaw p hp _ [l] w wf B (by simpa using hroot) hcp
  have c := F.confined (Reaches w.heap l) B.closed (by simpa using hroot)
  have wfp := (hp.parametric hlaw).wf wf hl
  rw [hplp] at F
  simp only [hplp] at wfp
  obtain ⟨S, φ, hS, B'⟩ := F.bisim b rfl
  obtain ⟨hSl, hφ⟩ := hS l hroot
  obtain ⟨s', d', h1, h2, h3, h4⟩ := B'.getState wfp.heap c.wf.heap hSl (Nat.lt_succ_self _) (Nat.lt_succ_self _)
  rw [hφ] at h2 h4
  rw [hst] at h3
  cases h3
  have hlt := (B'.lt hSl).2
  have hvt := B'.right.valid ⟨l, hSl, rfl⟩
  rw [hφ] at hlt hvt
  have hd1 : d' = d := by
    simp only [partitionModule, hdp, hst] at h1
    cases h1
    rfl
  subst hd1
  have hd2 : getModuleDef ((p.run J [l] w).1.heap.length + 1) (p.run J [l] w).1.heap l = some d' := by
    simp only [partitionModule, h4] at h2
    split at h2
    · next he _ => cases h2; exact he
    · cases h2
  refine ⟨(p.run J [l] w).1, sd, st, d', ?_, hsd, h4, hup, hdd, hd2, c.same, c.wf, hlt, hvt, F.keeps.jax, F.keeps.stack, hnew⟩
  rw [← run_call]
  exact Prod.ext rfl F.out


/-- **C94.** `train_step(model)`, called directly or through `nnx.jit` or `nnx.remat`: if a direct call `loss_fn(model)` returns `b` and writes only
nodes, and the gradient fits the parameters that it leaves, then the step returns `b`; the model has the structure that the direct call leaves, and the state that it
leaves after the parameter update along the gradient of the loss (taken at the parameters before the call): nothing but the entries that match `wrt` is changed in addition. All Modules that cannot be
reached from the model, and the traces, are as before. -/
theorem C94_train_step (hlaw : GradLaw J.gradOf) {w wd : World α} (wf : WFWorld w) {l : Loc} (hl : l < w.heap.length) (hv : AllValid w l)
    {f : Routine α κ L β} (hf : f.Good) {wrt : Filter α} (hw : wrt.WellFormed) {step : List (PyVal α) → Except Err (PyVal α)}
    (hstep : MakesArrays step) {b : β} (hr : LossRuns J wrt f l w wd b) {loss : β → L}
    (hc : CanStep step (gradientAt J wrt loss f l w) (selected wrt l wd)) (j t : Nat) {how : How} (hk : how.kept = true) :
    ∃ wt sd st d, how.call l (fun l w => (trainStep j t wrt step loss f).run J [l] w) w = (wt, .ok b) ∧
      getState (wd.heap.length + 1) wd.heap l = some sd ∧ getState (wt.heap.length + 1) wt.heap l = some st ∧
      Updated wrt step (gradientAt J wrt loss f l w) sd st ∧
      getModuleDef (wd.heap.length + 1) wd.heap l = some d ∧ getModuleDef (wt.heap.length + 1) wt.heap l = some d ∧
      (∀ a : Loc, a < w.heap.length → ¬ Reaches w.heap l a → wt.heap[a]? = w.heap[a]?) ∧
      WFWorld wt ∧ l < wt.heap.length ∧ AllValid wt l ∧ wt.jaxTrace = w.jaxTrace ∧ wt.nnxStack = w.nnxStack := by
  obtain ⟨wt, sd, st, d, h1, h2, h3, h4, h5, h6, h7, h8, h9, h10, h11, h12, _⟩ := train_step_core hlaw wf hl hv hf hw hstep hr hc j t hk
  exact ⟨wt, sd, st, d, h1, h2, h3, h4, h5, h6, h7, h8, h9, h10, h11, h12⟩

omit [DecidableEq α] in
/-- The selected entries are determined by the state. -/
theorem selected_same {w w' : World α} (wf : WFWorld w) (wf' : WFWorld w') {l l' : Loc} (hl : l < w.heap.length) (hl' : l' < w'.heap.length)
    {wrt : Filter α} (hw : wrt.WellFormed) {s s' : State (PyVal α)} (hs : getState (w.heap.length + 1) w.heap l = some s)
    (hs' : getState (w'.heap.length + 1) w'.heap l' = some s') (h : SameParams wrt s s') : selected wrt l w = selected wrt l' w' := by
  obtain ⟨_, s1, _, _, _, hpart, hpc, _, e1, _⟩ := selected_spec wf hl hw
  obtain ⟨_, s2, _, _, _, hpart', hpc', _, e1', _⟩ := selected_spec wf' hl' hw
  have h1 := (hpart _ (Nat.lt_succ_self _)).2.1
  have h2 := (hpart' _ (Nat.lt_succ_self _)).2.1
  rw [hs] at h1
  rw [hs'] at h2
  cases h1
  cases h2
  refine State.Canonical.ext (hpc.1 _ (by simp)) (hpc'.1 _ (by simp)) fun k => Option.ext fun v => ?_
  rw [e1, e1']
  constructor
  · rintro ⟨a, b⟩; exact ⟨(h k v b).1 a, b⟩
  · rintro ⟨a, b⟩; exact ⟨(h k v b).2 a, b⟩

/-- If `jax.grad` keeps the structure and the loss function does not change the parameters, the update can be made. -/
theorem canStep (hlaw : GradLaw J.gradOf) (hshape : GradShape J.gradOf) {w wd : World α} (wf : WFWorld w) {l : Loc} (hl : l < w.heap.length)
    {f : Routine α κ L β} (hf : f.Good) {wrt : Filter α} (hw : wrt.WellFormed) {step : List (PyVal α) → Except Err (PyVal α)}
    {b : β} (hr : LossRuns J wrt f l w wd b) {loss : β → L} {s sd : State (PyVal α)}
    (hs : getState (w.heap.length + 1) w.heap l = some s) (hsd : getState (wd.heap.length + 1) wd.heap l = some sd)
    (hkeep : SameParams wrt s sd) (htree : TreeParams wrt s)
    (hdef : ∀ k v u q x z, s.get k = some v → wrt.Matches k v → (gradientAt J wrt loss f l w).get k = some u → Sub v q x → TreeLeaf x → Sub u q z →
      ∃ y, step [x, z] = .ok y) :
    CanStep step (gradientAt J wrt loss f l w) (selected wrt l wd) := by
  have P := hf.parametric hlaw
  have hk := P.keeps l w wf hl
  have wfd := P.wf wf hl
  simp only [hr.returns] at hk wfd
  have hld := Nat.lt_of_lt_of_le hl hk.len
  rw [← selected_same wf wfd hl hld hw hs hsd hkeep]
  obtain ⟨_, s1, _, _, _, hpart, hpc, _, e1, _⟩ := selected_spec wf hl hw
  have h1 := (hpart _ (Nat.lt_succ_self _)).2.1
  rw [hs] at h1
  cases h1
  have hcan : (selected wrt l w).Canonical := hpc.1 _ (by simp)
  have hT : TreeState (selected wrt l w) := ⟨hcan.nodup, fun k v hv => htree.good k v ((e1 k v).1 hv).1 ((e1 k v).1 hv).2⟩
  obtain ⟨g1, g2⟩ := hshape (directLoss (withLoss loss fun l w => f.plain J [l] w) (w.heap.length + 1) l w) _ hT
    fun k v hv => (getState_good wf.heap hl hs k v (dget_mem ((e1 k v).1 hv).1)).1
  refine ⟨g1, hT.good, fun k c v m hv => htree.nodes k c v m ((e1 k _).1 hv).1 ((e1 k _).1 hv).2, g2, ?_⟩
  intro k v u q x z hv hu hx hl hz
  exact hdef k v u q x z ((e1 k v).1 hv).1 ((e1 k v).1 hv).2 hu hx hl hz

omit [DecidableEq α] in
/-- An updated entry that is a `Variable` around a leaf. -/
theorem Updated.variable {wrt : Filter α} {step : List (PyVal α) → Except Err (PyVal α)} {g old new : State (PyVal α)} (h : Updated wrt step g old new)
    {k : Str} {c : Cls} {v : PyVal α} {m : Md α} (hk : old.get k = some (.cont c v m)) (hm : wrt.Matches k (.cont c v m)) (hc : c.isSub cNodeBase = true)
    (hv : TreeLeaf v) : ∃ u z y, g.get k = some u ∧ Sub u [.attr (py! "value")] z ∧ step [v, z] = .ok y ∧ new.get k = some (.cont c y m) := by
  obtain ⟨u, v', hu, hv', hM⟩ := h.params k _ hk hm
  have hns : ¬ (cStatic.isSub cNodeBase = true) := by decide
  cases hM with
  | leaf h => rw [h.1] at hc; cases hc
  | static => exact absurd hc hns
  | cont _ hM =>
    cases hM with
    | leaf _ r =>
      obtain ⟨zs, ho, hy⟩ := r
      match zs, ho.1 with
      | [z], _ => exact ⟨u, z, _, hu, ho.2 0 u z rfl rfl, hy, hv'⟩
    | none => exact hv.elim
    | tup => exact hv.elim
    | dict => exact hv.elim
    | cont hc' => rw [hv.1] at hc'; cases hc'
    | static => exact absurd rfl hv.2
    | tree => exact hv.elim

/-- **C94, parameters that the loss function does not change.** In the usual case the loss function leaves the parameters alone (it may
change other entries), they are trees, and `jax.grad` returns a gradient of the structure of its argument. Then the training step succeeds, and each `Variable` around an array becomes
what `step` returns for its value and its part of the gradient; its class and metadata stay. -/
theorem C94_sgd (hlaw : GradLaw J.gradOf) (hshape : GradShape J.gradOf) {w wd : World α} (wf : WFWorld w) {l : Loc} (hl : l < w.heap.length)
    (hv : AllValid w l) {f : Routine α κ L β} (hf : f.Good) {wrt : Filter α} (hw : wrt.WellFormed)
    {step : List (PyVal α) → Except Err (PyVal α)} (hstep : MakesArrays step) {b : β} (hr : LossRuns J wrt f l w wd b) {loss : β → L}
    {s sd : State (PyVal α)} (hs : getState (w.heap.length + 1) w.heap l = some s) (hsd : getState (wd.heap.length + 1) wd.heap l = some sd)
    (hkeep : SameParams wrt s sd) (htree : TreeParams wrt s)
    (hdef : ∀ k v u q x z, s.get k = some v → wrt.Matches k v → (gradientAt J wrt loss f l w).get k = some u → Sub v q x → TreeLeaf x → Sub u q z →
      ∃ y, step [x, z] = .ok y)
    (j t : Nat) {how : How} (hk : how.kept = true) :
    ∃ wt st, how.call l (fun l w => (trainStep j t wrt step loss f).run J [l] w) w = (wt, .ok b) ∧
      getState (wt.heap.length + 1) wt.heap l = some st ∧
      (∀ k c v m, s.get k = some (.cont c v m) → wrt.Matches k (.cont c v m) → TreeLeaf v →
        ∃ u n y, (gradientAt J wrt loss f l w).get k = some (.cont c u n) ∧ MdSame m n ∧ step [v, u] = .ok y ∧ st.get k = some (.cont c y m)) ∧
      (∀ k v, s.get k = some v → wrt.Matches k v →
        ∃ u v', (gradientAt J wrt loss f l w).get k = some u ∧ st.get k = some v' ∧ Mapped (LeafApplied step [u]) v v') ∧
      (∀ k, (∀ v, s.get k = some v → ¬ wrt.Matches k v) → st.get k = sd.get k) := by
  have hc := canStep (step := step) (loss := loss) hlaw hshape wf hl hf hw hr hs hsd hkeep htree hdef
  obtain ⟨wt, sd', st, d, h1, h2, h3, hup, _⟩ := C94_train_step hlaw wf hl hv hf hw hstep hr hc j t hk
  rw [hsd] at h2
  cases h2
  refine ⟨wt, st, h1, h3, ?_, ?_, ?_⟩
  · intro k c v m hk hm hv
    have hcn := htree.nodes k c v m hk hm
    obtain ⟨u, z, y, hu, hz, hy, hn⟩ := hup.variable ((hkeep k _ hm).1 hk) hm hcn hv
    have P := hf.parametric hlaw
    have hkp := P.keeps l w wf hl
    have wfd := P.wf wf hl
    simp only [hr.returns] at hkp wfd
    have hld := Nat.lt_of_lt_of_le hl hkp.len
    obtain ⟨_, s2, _, _, _, hpart, _, _, e1, _⟩ := selected_spec wfd hld hw
    have hs2 := (hpart _ (Nat.lt_succ_self _)).2.1
    rw [hsd] at hs2
    cases hs2
    have hfit := hc.fits.fits k _ u ((e1 k _).2 ⟨(hkeep k _ hm).1 hk, hm⟩) hu
    cases hfit with
    | leaf h => rw [h.1] at hcn; cases hcn
    | static => exact absurd hcn (by decide)
    | @cont _ _ u' _ n _ same _ =>
      cases hz with
      | value _ hz =>
        cases hz
        exact ⟨_, n, y, hu, same, hy, hn⟩
  · intro k v hk hm
    exact hup.params k v ((hkeep k v hm).1 hk) hm
  · intro k hk
    cases hsk : sd.get k with
    | none => exact hup.keys k hsk
    | some v =>
      refine hup.others k v hsk fun hm => ?_
      exact hk v ((hkeep k v hm).2 hsk) hm

/-- **C94, exceptions of the loss function.** An exception of the loss function is an exception of the training step. -/
theorem C94_loss_raises (hlaw : GradLaw J.gradOf) {w wd : World α} (wf : WFWorld w) {l : Loc} (hl : l < w.heap.length)
    (hv : AllValid w l) {f : Routine α κ L β} (hf : f.Good) {wrt : Filter α} (hw : wrt.WellFormed) {step : List (PyVal α) → Except Err (PyVal α)}
    (hstep : MakesArrays step) (hc : f.Carried J [l] w)
    (he : ∀ x wx, LikeState (selected wrt l w) x → updateState (w.heap.length + 1) l [x] w = (wx, none) → f.Carried J [l] wx)
    {e : Err} (hr : f.plain J [l] w = (wd, .error e)) (loss : β → L) (j t : Nat) (how : How) :
    (how.call l (fun l w => (trainStep j t wrt step loss f).run J [l] w) w).2 = .error e := by
  let p : Routine α κ L β := .call how 0 (trainStep j t wrt step loss f) .ret
  have hpl : (trainStep j t wrt step loss f).plain J [l] w = (wd, .error e) := by
    simp [trainStep, Routine.plain, hr]
  have hcp : p.Carried J [l] w := by
    intro l' hl'
    cases hl'
    refine ⟨fun l' hl' => ?_, fun w' b' hb' => by rw [hpl] at hb'; cases hb'⟩
    cases hl'
    exact ⟨hc, he, fun w' b' hb' => by rw [hr] at hb'; cases hb'⟩
  have hp : p.Good := ⟨trainStep_good hf hw hstep j t loss, fun _ => trivial⟩
  rw [← run_call]
  refine (C90_nested hlaw wf hl hv hp hcp rfl rfl).1.trans ?_
  simp [p, Routine.plain, hpl]

/-- **C94, gradients that do not fit.** If the gradient does not have the paths and the structure of the entries that match `wrt` after the call of the loss function (for instance
since it has added such an entry), the training step raises ValueError. -/
theorem C94_misfit_raises (hlaw : GradLaw J.gradOf) {w wd : World α} (wf : WFWorld w) {l : Loc} (hl : l < w.heap.length)
    (hv : AllValid w l) {f : Routine α κ L β} (hf : f.Good) {wrt : Filter α} (hw : wrt.WellFormed) {step : List (PyVal α) → Except Err (PyVal α)}
    (hstep : MakesArrays step) {b : β} (hr : LossRuns J wrt f l w wd b) {loss : β → L}
    (hg : TreeState (gradientAt J wrt loss f l w)) (hp : TreeState (selected wrt l wd)) (hm : ¬ FitsState (selected wrt l wd) (gradientAt J wrt loss f l w))
    (j t : Nat) (how : How) :
    (how.call l (fun l w => (trainStep j t wrt step loss f).run J [l] w) w).2 = .error .valueError := by
  let p : Routine α κ L β := .call how 0 (trainStep j t wrt step loss f) .ret
  have P := hf.parametric hlaw
  have hk := P.keeps l w wf hl
  have wfd := P.wf wf hl
  simp only [hr.returns] at hk wfd
  have hld := Nat.lt_of_lt_of_le hl hk.len
  obtain ⟨_, sd, _, _, _, hpart, _⟩ := selected_spec wfd hld hw
  have hs := (hpart _ (Nat.lt_succ_self _)).2.1
  have hnp : newParams wrt step sd (gradientAt J wrt loss f l w) = .error .valueError := by
    simp only [newParams, filter_selected (l := l) hw hs]
    exact (C93_state_raises hstep.plain hp (by simpa using hg)).1 ⟨_, by simp, hm⟩
  have hg : gradientAt J wrt loss f l w =
    J.gradOf (directLoss (withLoss loss fun l w => f.plain J [l] w) (w.heap.length + 1) l w) (selected wrt l w) := rfl
  have hpl : (trainStep j t wrt step loss f).plain J [l] w = (wd, .error .valueError) := by
    simp only [trainStep, Routine.plain, List.getElem?_cons_zero, hr.returns, if_true, Op.run, hs, afterState, ← hg, hnp]
  have hcp : p.Carried J [l] w := by
    intro l' hl'
    cases hl'
    refine ⟨fun l' hl' => ?_, fun w' b' hb' => by rw [hpl] at hb'; cases hb'⟩
    cases hl'
    refine ⟨hr.carried, hr.elsewhere, fun w' b' hb' => ?_⟩
    rw [hr.returns] at hb'
    cases hb'
    refine ⟨fun _ => hr.writes, ?_⟩
    intro x K' w' hx
    simp only [Op.run, List.getElem?_cons_zero, if_true, hs] at hx
    cases hx
    simp only [← hg, afterState, hnp]
    trivial
  have hp : p.Good := ⟨trainStep_good hf hw hstep j t loss, fun _ => trivial⟩
  rw [← run_call]
  refine (C90_nested hlaw wf hl hv hp hcp rfl rfl).1.trans ?_
  simp [p, Routine.plain, hpl]

/-! ### An example -/

omit [DecidableEq α] in
/-- A tree fits itself. -/
theorem Fits.refl {v : PyVal α} (h : GoodTree v) : Fits v v := by
  induction h with
  | leaf h => exact .leaf h
  | none => exact .none
  | tup _ ih =>
    refine .tup rfl fun i x y hx hy => ?_
    rw [hx] at hy
    cases hy
    exact ih x (List.mem_of_getElem? hx)
  | dict _ _ ih =>
    refine .dict (fun _ => Iff.rfl) fun k x y hx hy => ?_
    rw [hx] at hy
    cases hy
    exact ih k x hx
  | @cont c v m _ _ ih =>
    cases hc : c.isSub cNodeBase with
    | true => exact .cont hc (mdSame_refl' _) ih
    | false =>
      by_cases hs : c = cStatic
      · rw [hs]; exact .static
      · exact .leaf ⟨hc, hs⟩
  | tree _ _ ih =>
    refine .tree (fun _ => Iff.rfl) ?_ ?_ fun _ _ hx _ => hx
    · intro k x y hx hy
      rw [hx] at hy
      cases hy
      rfl
    · intro k x y hx hn hy
      rw [hx] at hy
      cases hy
      exact ih k x hx hn

open Classical in
/-- A stand-in for `jax.grad` that keeps the structure: for `Param`s, the value of the function in every entry; for others, the argument. -/
noncomputable def exShaped (F : State (PyVal Nat) → Option Nat) (x : State (PyVal Nat)) : State (PyVal Nat) :=
  if onlyParams x then ⟨x.items.map fun kv => (kv.1, exParam ((F x).getD 0))⟩
  else if ∀ k v, x.get k = some v → WFVal v then x else ⟨[]⟩

theorem exShaped_get (x : List (Str × PyVal Nat)) (n : Nat) (k : Str) :
    dget (x.map fun kv => (kv.1, exParam n)) k = (dget x k).map fun _ => exParam n := by
  induction x with
  | nil => rfl
  | cons a x ih =>
    obtain ⟨k', v⟩ := a
    simp only [List.map_cons, dget]
    split
    · rfl
    · exact ih

theorem onlyParams_val {x : State (PyVal Nat)} (h : onlyParams x = true) {k : Str} {v : PyVal Nat} (hv : x.get k = some v) : ∃ n, v = exParam n := by
  simp only [onlyParams, Bool.and_eq_true, decide_eq_true_eq] at h
  have hm := List.all_eq_true.1 h.2 (k, v) (dget_mem hv)
  simp only at hm
  split at hm
  · next n _ => exact ⟨n, by simpa using hm⟩
  · cases hm

theorem exShaped_law : GradLaw exShaped := by
  constructor
  · intro F G x h
    unfold exShaped
    split
    · next hx =>
      have : LikeState x x := by
        refine ⟨?_, fun _ => rfl, ?_⟩
        · simp only [onlyParams, Bool.and_eq_true, decide_eq_true_eq] at hx
          exact hx.1
        · intro k u v hu hv
          rw [hu] at hv
          cases hv
          obtain ⟨n, rfl⟩ := onlyParams_val hx hu
          refine ⟨.inr (exParam_wf n), rfl, ?_⟩
          intro c y m e
          cases e
          exact ⟨_, rfl⟩
      rw [h x this]
    · rfl
  · intro F x k v hv
    unfold exShaped at hv
    split at hv
    · simp only [State.get, State.items, exShaped_get, Option.map_eq_some_iff] at hv
      obtain ⟨_, _, rfl⟩ := hv
      exact .inr (exParam_wf _)
    · split at hv
      · next h => exact h k v hv
      · cases hv

theorem exParam_tree (n : Nat) : GoodTree (exParam n) :=
  .cont (exParam_wf n) (.leaf trivial)

theorem exShaped_shape : GradShape exShaped := by
  intro F x hx hwf
  unfold exShaped
  split
  · next h =>
    have hkeys : dkeys (x.mapping.map fun kv => (kv.1, exParam ((F x).getD 0))) = dkeys x.mapping := by
      simp [dkeys, List.map_map, Function.comp_def]
    refine ⟨⟨?_, ?_⟩, hkeys, ?_⟩
    · have := hx.nodup
      unfold DNodup at this ⊢
      simp only [State.items]
      rw [hkeys]
      exact this
    · intro k v hv
      simp only [State.get, State.items, exShaped_get, Option.map_eq_some_iff] at hv
      obtain ⟨_, _, rfl⟩ := hv
      exact exParam_tree _
    · intro k v u hv hu
      simp only [State.get, State.items, exShaped_get, Option.map_eq_some_iff] at hu
      obtain ⟨_, _, rfl⟩ := hu
      obtain ⟨n, rfl⟩ := onlyParams_val h hv
      exact .cont rfl (mdSame_refl' _) (.leaf trivial)
  · refine ⟨hx, rfl, ?_⟩
    intro k v u hv hu
    rw [hv] at hu
    cases hu
    exact Fits.refl (hx.good k v hv)

/-- The functions of jax, with this gradient. -/
noncomputable def exJaxS : Jax Nat Nat Nat := ⟨exShaped, ⟨fun _ _ => none, fun _ _ _ => none, fun _ _ => none⟩, fun k n i => k * 100 + n * 10 + i⟩

/-- `lambda w, g: w + 10 * g` -/
def exSgd : List (PyVal Nat) → Except Err (PyVal Nat)
  | [.data _ a, .data _ b] => .ok (.data cArray (a + 10 * b))
  | _ => .error .typeError

theorem exSgd_arrays : MakesArrays exSgd := by
  intro xs y h
  unfold exSgd at h
  split at h
  · cases h; exact ⟨_, _, rfl, rfl⟩
  · cases h

theorem exLossT_good : exLossT.Good :=
  ⟨⟨trivial, fun _ _ => trivial⟩, fun _ => ⟨trivial, fun _ _ => ⟨⟨⟨by unfold NoSlash; decide, by decide⟩, .inl trivial⟩, fun _ _ => trivial⟩⟩⟩

theorem exLossS_carried (w : World Nat) : exLossT.Carried exJaxS [0] w := by
  intro l _
  exact ⟨fun _ _ _ _ => trivial, fun _ _ _ => ⟨fun _ h => (Bool.noConfusion h), fun _ _ _ _ _ _ _ _ => trivial⟩⟩

/-- The world after the loss function. -/
noncomputable def exAfterLoss : World Nat := (exLossT.plain exJaxS [0] exWorld).1

theorem exLoss_runs : LossRuns exJaxS (.ofType cParam) exLossT 0 exWorld exAfterLoss 1 :=
  ⟨exLossS_carried _, fun _ _ _ _ => exLossS_carried _, rfl, nodeWrites_of_check (by decide +kernel) (by decide +kernel)⟩

/-- The state before. -/
def exBefore : State (PyVal Nat) := ⟨[(py! "a/s", exStat 6), (py! "a/w", exParam 5), (py! "w", exParam 1)]⟩

/-- The state after the loss function. -/
def exBetween : State (PyVal Nat) := ⟨[(py! "a/s", exStat 10), (py! "a/w", exParam 5), (py! "w", exParam 1)]⟩

theorem exBefore_state : getState (exWorld.heap.length + 1) exWorld.heap 0 = some exBefore := by decide +kernel
theorem exBetween_state : getState (exAfterLoss.heap.length + 1) exAfterLoss.heap 0 = some exBetween := by decide +kernel
theorem exGradient : gradientAt exJaxS (.ofType cParam) id exLossT 0 exWorld = ⟨[(py! "a/w", exParam 1), (py! "w", exParam 1)]⟩ := by
  decide +kernel

theorem exStat_no (n : Nat) (k : Str) : ¬ (Filter.ofType cParam : Filter Nat).Matches k (exStat n) := by
  intro h
  have h : (exStat n).isInstance cParam = true := h
  have h : cBatchStat.isSub cParam = true := h
  exact absurd h (by decide)

theorem exSame_params : SameParams (.ofType cParam) exBefore exBetween := by
  intro k v hm
  constructor <;> intro h <;> have h' := dget_mem h <;>
    simp only [exBefore, exBetween, List.mem_cons, List.not_mem_nil, or_false, Prod.mk.injEq] at h' <;>
    rcases h' with ⟨rfl, rfl⟩ | ⟨rfl, rfl⟩ | ⟨rfl, rfl⟩ <;> first | exact absurd hm (exStat_no _ _) | decide

theorem exTree_params : TreeParams (.ofType cParam) exBefore := by
  have key : ∀ k v, exBefore.get k = some v → (Filter.ofType cParam : Filter Nat).Matches k v → ∃ n, v = exParam n := by
    intro k v h hm
    have h' := dget_mem h
    simp only [exBefore, List.mem_cons, List.not_mem_nil, or_false, Prod.mk.injEq] at h'
    rcases h' with ⟨rfl, rfl⟩ | ⟨rfl, rfl⟩ | ⟨rfl, rfl⟩
    · exact absurd hm (exStat_no _ _)
    · exact ⟨_, rfl⟩
    · exact ⟨_, rfl⟩
  constructor
  · intro k v h hm
    obtain ⟨n, rfl⟩ := key k v h hm
    exact exParam_tree n
  · intro k c v m h hm
    obtain ⟨n, e⟩ := key k _ h hm
    cases e
    rfl

theorem exSgd_defined (k : Str) (v u : PyVal Nat) (q : List TreeKey) (x z : PyVal Nat) (h : exBefore.get k = some v)
    (hm : (Filter.ofType cParam : Filter Nat).Matches k v) (hu : (gradientAt exJaxS (.ofType cParam) id exLossT 0 exWorld).get k = some u)
    (hx : Sub v q x) (hl : TreeLeaf x) (hz : Sub u q z) : ∃ y, exSgd [x, z] = .ok y := by
  rw [exGradient] at hu
  have h' := dget_mem h
  have hu' := dget_mem hu
  simp only [exBefore, List.mem_cons, List.not_mem_nil, or_false, Prod.mk.injEq] at h' hu'
  have hv : ∃ n, v = exParam n := by
    rcases h' with ⟨rfl, rfl⟩ | ⟨rfl, rfl⟩ | ⟨rfl, rfl⟩
    · exact absurd hm (exStat_no _ _)
    · exact ⟨_, rfl⟩
    · exact ⟨_, rfl⟩
  have hu'' : u = exParam 1 := by rcases hu' with ⟨_, rfl⟩ | ⟨_, rfl⟩ <;> rfl
  obtain ⟨n, rfl⟩ := hv
  subst hu''
  cases hx with
  | here => exact absurd hl.1 (by decide)
  | value _ hx =>
    cases hx
    cases hz with
    | value _ hz => cases hz; exact ⟨_, rfl⟩

/-- A call of the training step inside `jit`. -/
noncomputable def exStepped : World Nat × Except Err Nat :=
  How.call (.jit true 5 6) 0 (fun l w => (trainStep 7 8 (.ofType cParam) exSgd id exLossT).run exJaxS [l] w) exWorld

/-- The theorem applies to it: `w` becomes what `exSgd` returns for its value and the gradient. -/
example : ∃ wt st u n y, exStepped = (wt, .ok 1) ∧ getState (wt.heap.length + 1) wt.heap 0 = some st ∧
    (gradientAt exJaxS (.ofType cParam) id exLossT 0 exWorld).get (py! "w") = some (.cont cParam u n) ∧
    exSgd [.data cArray 1, u] = .ok y ∧ st.get (py! "w") = some (.cont cParam y [(py! "sharding", .none)]) := by
  obtain ⟨wt, st, h1, h2, h3, _⟩ := C94_sgd (how := .jit true 5 6) exShaped_law exShaped_shape exWorld_wf (by decide) exWorld_valid exLossT_good
    (by trivial) exSgd_arrays exLoss_runs exBefore_state exBetween_state exSame_params exTree_params exSgd_defined 7 8 rfl
  obtain ⟨u, n, y, h4, _, h5, h6⟩ := h3 (py! "w") cParam (.data cArray 1) [(py! "sharding", .none)] (by rfl) (by rfl) trivial
  exact ⟨wt, st, u, n, y, h1, h2, h4, h5, h6⟩

/-- Both parameters are updated, and the statistics are those of the loss function. -/
example : exStepped.2 = .ok 1 ∧ getState (exStepped.1.heap.length + 1) exStepped.1.heap 0 =
    some ⟨[(py! "a/s", exStat 10), (py! "a/w", exParam 15), (py! "w", exParam 11)]⟩ :=
  ⟨by decide +kernel, by decide +kernel⟩

/-- A step that adds a parameter in the loss function raises. -/
example : (How.call (.jit true 5 6) 0 (fun l w => (trainStep 7 8 (.ofType cParam) exSgd id
    (.op (.set 0 (py! "c") (exParam 3)) fun _ => .ret 4)).run exJaxS [l] w) exWorld).2 = .error .valueError := by
  decide +kernel

end Nnx
