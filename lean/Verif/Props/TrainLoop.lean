import Verif.Spec.TrainLoop
import Verif.Props.TrainState
import Verif.Props.Functional
/-
C96: training with a TrainState.
-/
namespace Nnx
variable {α κ L β : Type} [DecidableEq α] {J : Jax α κ L}

omit [DecidableEq α] in
@[simp] theorem asState_stateVal (s : State (PyVal α)) : asState (stateVal s) = some s := by simp [asState, stateVal]

/-- **C96, apply.** `state.apply(*args)` with States and names of attributes that hold States is `moduledef.apply` of the States, in the order of the arguments. -/
theorem C96_apply {asDef : PyVal α → Option (ModuleDef α)} {vars : Md α} {d : ModuleDef α}
    (hd : ∃ v, Reads vars (py! "moduledef") v ∧ asDef v = some d) {args : List (StateArg α)} {states : List (State (PyVal α))}
    (ha : List.Forall₂ (fun a s => a = .state s ∨ ∃ n, a = .name n ∧ Reads vars n (stateVal s)) args states)
    (fuel : Nat) (body : Loc → World α → World α × Except Err β) (w : World α) :
    trainStateApply asDef fuel vars args body w = applyDef fuel d states body w := by
  obtain ⟨v, hv, hd⟩ := hd
  have hr : resolveStates vars args = .ok states := by
    induction ha with
    | nil => rfl
    | cons h _ ih =>
      rcases h with rfl | ⟨n, rfl, hn⟩
      · simp only [resolveStates, ih]
      · simp only [resolveStates, pyGetattr_reads hn, asState_stateVal, ih]
  simp only [trainStateApply, pyGetattr_reads hv, hd, hr]

/-- **C96, a wrong name.** If one of the arguments is not the name of an attribute, `state.apply(*args)(...)` raises AttributeError and no Module is made (provided that the
attributes before it hold States). -/
theorem C96_apply_raises {asDef : PyVal α → Option (ModuleDef α)} {vars : Md α} {d : ModuleDef α}
    (hd : ∃ v, Reads vars (py! "moduledef") v ∧ asDef v = some d) {args rest : List (StateArg α)} {n : Str} (hn : n ∉ dkeys vars)
    (ha : ∀ a ∈ args, (∃ s, a = .state s) ∨ ∃ m s, a = .name m ∧ Reads vars m (stateVal s))
    (fuel : Nat) (body : Loc → World α → World α × Except Err β) (w : World α) :
    trainStateApply asDef fuel vars (args ++ .name n :: rest) body w = (w, .error .attributeError) := by
  obtain ⟨v, hv, hd⟩ := hd
  have hr : resolveStates vars (args ++ .name n :: rest) = .error .attributeError := by
    induction args with
    | nil => simp only [List.nil_append, resolveStates, pyGetattr, dget_eq_none.2 hn]
    | cons a args ih =>
      have ih := ih fun b hb => ha b (List.mem_cons_of_mem _ hb)
      rcases ha a List.mem_cons_self with ⟨s, rfl⟩ | ⟨m, s, rfl, hm⟩
      · simp only [List.cons_append, resolveStates, ih]
      · simp only [List.cons_append, resolveStates, pyGetattr_reads hm, asState_stateVal, ih]
  simp only [trainStateApply, pyGetattr_reads hv, hd, hr]

/-- The loss function with a TrainState is the one of the functional API. -/
theorem stateLoss_eq {asDef : PyVal α → Option (ModuleDef α)} {name : Str} {vars : Md α} {d : ModuleDef α} {tx : PyVal α} {params rest : State (PyVal α)}
    (hm : HoldsModel asDef name vars d tx params rest) (j : Nat) (other : Filter α) (f : Routine α κ L β) (u : World α) (x : State (PyVal α)) :
    stateLoss J asDef j other name f vars u x = functionalLoss J j other f d rest u x := by
  have h : ∀ fuel : Nat, trainStateApply asDef fuel vars [.state x, .name name] (fun l w => f.run J [l] w) =
      applyDef fuel d [x, rest] fun l w => f.run J [l] w := fun fuel => funext fun w =>
    C96_apply hm.moduledef (.cons (.inl rfl) (.cons (.inr ⟨_, rfl, hm.rest⟩) .nil)) fuel _ w
  simp only [stateLoss, functionalLoss, h]
  rfl

/-- **C96, one step, any optimiser.** If the loss function returns `b` and the new rest of the model, and the optimiser returns updates for the gradient of the loss at the
parameters of the TrainState, then the training step returns `b` and a new TrainState: with the updated parameters and the new state of the optimiser, the new rest, and one more
step. Its other attributes and all TrainStates there were are the same. -/
theorem C96_step {O : OptaxOps α} (hO : O.Plain) {env : PEnv α} {c : Cls} (hc : (env c).dataclass = none) {asDef : PyVal α → Option (ModuleDef α)} {name : Str}
    {vars : Md α} {d : ModuleDef α} {tx o s : PyVal α} {params rest rest' : State (PyVal α)} (hm : HoldsModel asDef name vars d tx params rest)
    (ho : Reads vars (py! "opt_state") o) (hs : Reads vars (py! "step") s) {t : Nat} {h : PHeap α} (ht : h[t]? = some (c, vars))
    {j : Nat} {other : Filter α} {loss : β → L} {u : World α} {f : Routine α κ L β} {b : β}
    (hloss : functionalLoss J j other f d rest u params = .ok (b, rest')) {up o' : PyVal α}
    (hup : O.update tx (stateVal (J.gradOf (fun x => lossOf loss (functionalLoss J j other f d rest u x)) params)) o (stateVal params) = .ok (up, o')) :
    ∃ vars', trainStateStep O env J asDef j other name loss u f t h = (h ++ [(c, vars')], .ok (b, h.length)) ∧ WFPytree vars' ∧
      Reads vars' (py! "params") (O.applyUpdates (stateVal params) up) ∧ Reads vars' (py! "opt_state") o' ∧ Reads vars' (py! "step") (O.succ s) ∧
      Reads vars' name (stateVal rest') ∧
      (∀ k, k ∉ [py! "params", py! "opt_state", py! "step", name] → dget vars' k = dget vars k) := by
  have hown := hm.own
  simp only [List.mem_cons, List.not_mem_nil, or_false, not_or] at hown
  have hmem : name ∈ dkeys vars := by
    obtain ⟨x, hx, _⟩ := hm.rest
    exact dget_isSome.1 (by rw [hx]; rfl)
  obtain ⟨vars', e, hw, h1, h2, h3, h4, h5, _⟩ := C68_step hO (env := env) (kwargs := [(name, stateVal rest')]) ht hm.wf hc hm.tx hm.params ho hs hup
    (by simp [DNodup, dkeys])
    (by
      intro k v hk
      have hk := dget_mem hk
      simp only [List.mem_singleton, Prod.mk.injEq] at hk
      rw [hk.2]
      trivial)
    (by
      intro k hk
      simp only [dkeys, List.map_cons, List.map_nil, List.mem_singleton] at hk
      subst hk
      refine ⟨hmem, hown.2.2.2.2.2, ?_⟩
      simp only [trainFields, List.mem_cons, List.not_mem_nil, or_false, not_or]
      exact ⟨hown.2.1, hown.2.2.2.1, hown.2.2.2.2.1⟩)
  refine ⟨vars', ?_, hw, h1, h2, h3, h4 name _ (by simp [dget]), ?_⟩
  · simp only [trainStateStep, ht, pyGetattr_reads hm.params, asState_stateVal, stateLoss_eq hm, hloss, e]
  · intro k hk
    simp only [List.mem_cons, List.not_mem_nil, or_false, not_or] at hk
    refine h5 k ?_ ?_
    · simp only [trainFields, List.mem_cons, List.not_mem_nil, or_false, not_or]
      exact ⟨hk.1, hk.2.1, hk.2.2.1⟩
    · simp only [dkeys, List.map_cons, List.map_nil, List.mem_singleton]
      exact hk.2.2.2

/-- **C96, exceptions.** If the loss function raises, or the optimiser, the training step raises the same and no TrainState is made. -/
theorem C96_raises {O : OptaxOps α} {env : PEnv α} {c : Cls} {asDef : PyVal α → Option (ModuleDef α)} {name : Str}
    {vars : Md α} {d : ModuleDef α} {tx o : PyVal α} {params rest : State (PyVal α)} (hm : HoldsModel asDef name vars d tx params rest)
    (ho : Reads vars (py! "opt_state") o) {t : Nat} {h : PHeap α} (ht : h[t]? = some (c, vars))
    {j : Nat} {other : Filter α} {loss : β → L} {u : World α} {f : Routine α κ L β} {e : Err}
    (he : functionalLoss J j other f d rest u params = .error e ∨
      (∃ b rest', functionalLoss J j other f d rest u params = .ok (b, rest')) ∧
      O.update tx (stateVal (J.gradOf (fun x => lossOf loss (functionalLoss J j other f d rest u x)) params)) o (stateVal params) = .error e) :
    trainStateStep O env J asDef j other name loss u f t h = (h, .error e) := by
  rcases he with he | ⟨⟨b, rest', hb⟩, he⟩
  · simp only [trainStateStep, ht, pyGetattr_reads hm.params, asState_stateVal, stateLoss_eq hm, he]
  · simp only [trainStateStep, ht, pyGetattr_reads hm.params, asState_stateVal, stateLoss_eq hm, hb]
    rw [C68_optimiser_error ht hm.tx hm.params ho he]

/-- **C96, the loop of the functional API.** With an optimiser that updates as `jax.tree_map(step, params, grads)` does, the loop with a TrainState returns what the loop of the
functional API returns. The last TrainState holds the returned States, the step counter was incremented once per loss function, and no attribute other than these was changed. -/
theorem C96_functional {O : OptaxOps α} (hO : O.Plain) {env : PEnv α} {c : Cls} (hc : (env c).dataclass = none) {asDef : PyVal α → Option (ModuleDef α)} {name : Str}
    {d : ModuleDef α} {tx : PyVal α} {step : List (PyVal α) → Except Err (PyVal α)} (hact : ActsBy O tx step)
    {j : Nat} {other : Filter α} {loss : β → L} {u : World α} {params' rest' : State (PyVal α)} {b' : β} :
    ∀ (fs : List (Routine α κ L β)) (b : β) {vars : Md α} {o s : PyVal α} {params rest : State (PyVal α)} {t : Nat} {h : PHeap α},
    HoldsModel asDef name vars d tx params rest → Reads vars (py! "opt_state") o → Reads vars (py! "step") s → h[t]? = some (c, vars) →
    functionalLoop J j other step loss d u fs b params rest = .ok (b', params', rest') →
    ∃ h' t' vars', trainStateLoop O env J asDef j other name loss u fs b t h = (h', .ok (b', t')) ∧ h'[t']? = some (c, vars') ∧
      HoldsModel asDef name vars' d tx params' rest' ∧ Reads vars' (py! "step") (O.succ^[fs.length] s) ∧
      (∀ k, k ∉ [py! "params", py! "opt_state", py! "step", name] → dget vars' k = dget vars k) ∧ ∀ i, i < h.length → h'[i]? = h[i]?
  | [], b, vars, o, s, params, rest, t, h, hm, ho, hs, ht, hf => by
    simp only [functionalLoop, Except.ok.injEq, Prod.mk.injEq] at hf
    obtain ⟨rfl, rfl, rfl⟩ := hf
    exact ⟨h, t, vars, rfl, ht, hm, hs, fun _ _ => rfl, fun _ _ => rfl⟩
  | f :: fs, b, vars, o, s, params, rest, t, h, hm, ho, hs, ht, hf => by
    simp only [functionalLoop] at hf
    split at hf
    · cases hf
    next b1 p1 r1 h1 =>
      simp only [functionalStep] at h1
      split at h1
      · cases h1
      next b2 r2 hloss =>
        split at h1
        · cases h1
        next p2 hmap =>
          cases h1
          obtain ⟨up, o1, hup, hap⟩ := hact o _ _ _ hmap
          obtain ⟨vars1, e, hw, k1, k2, k3, k4, k5⟩ := C96_step hO hc hm ho hs ht hloss hup
          have hown := hm.own
          simp only [List.mem_cons, List.not_mem_nil, or_false, not_or] at hown
          have keep : ∀ {k v}, k ∉ [py! "params", py! "opt_state", py! "step", name] → Reads vars k v → Reads vars1 k v := by
            rintro k v hk ⟨x, hx, hv⟩
            exact ⟨x, by rw [k5 k hk]; exact hx, hv⟩
          have hm1 : HoldsModel asDef name vars1 d tx p1 r1 := by
            refine ⟨hw, ?_, keep ?_ hm.tx, by rw [← hap]; exact k1, k4, hm.own⟩
            · obtain ⟨v, hv, hd⟩ := hm.moduledef
              refine ⟨v, keep ?_ hv, hd⟩
              simp only [List.mem_cons, List.not_mem_nil, or_false, not_or]
              exact ⟨by decide, by decide, by decide, Ne.symm hown.1⟩
            · simp only [List.mem_cons, List.not_mem_nil, or_false, not_or]
              exact ⟨by decide, by decide, by decide, Ne.symm hown.2.2.1⟩
          obtain ⟨h', t', vars', m1, m2, m3, m4, m5, m6⟩ := C96_functional hO hc hact fs b1 (t := h.length) (h := h ++ [(c, vars1)]) hm1 k2 k3 (by simp) hf
          refine ⟨h', t', vars', ?_, m2, m3, ?_, ?_, ?_⟩
          · simp only [trainStateLoop, e]
            exact m1
          · rw [List.length_cons, Function.iterate_succ_apply]
            exact m4
          · intro k hk
            rw [m5 k hk, k5 k hk]
          · intro i hi
            rw [m6 i (by simp; omega), List.getElem?_append_left hi]

/-- **C96.** Let `(params, rest), moduledef = model.partition(wrt, ...)`, and let a TrainState hold these. Training it with an optimiser that updates as
`jax.tree_map(step, params, grads)` does, and training the model with `nnx.grad` and `update_state` (in `nnx.jit`, `nnx.remat` or directly), return the same, and in the end the
TrainState holds what `model.partition(wrt, ...)` returns; merging its parts gives a Module that cannot be told from the model. -/
theorem C96_loop (hlaw : GradLaw J.gradOf) {u : World α} (wfu : WFWorld u) {l : Loc}
    {wrt other : Filter α} (hw : wrt.WellFormed) (how' : other.WellFormed) (hty : SeesTypes wrt)
    {step : List (PyVal α) → Except Err (PyVal α)} (hstep : MakesArrays step) (hkt : KeepsType step) {loss : β → L} {d : ModuleDef α}
    (i j t : Nat) {how : How} (hk : how.kept = true) (fs : List (Routine α κ L β)) (b : β)
    {w : World α} (wf : WFWorld w) (hl : l < w.heap.length) (hv : AllValid w l) {params rest : State (PyVal α)}
    (hp : partitionModule (w.heap.length + 1) w.heap l [wrt, .ellipsis] = .ok ([params, rest], d))
    (hb : LoopBothWays J wrt other step loss d l (fun f w => how.call l (fun l w => (trainStep j t wrt step loss f).run J [l] w) w) fs w)
    {O : OptaxOps α} (hO : O.Plain) {env : PEnv α} {c : Cls} (hc : (env c).dataclass = none) {asDef : PyVal α → Option (ModuleDef α)} {name : Str}
    {vars : Md α} {tx o s : PyVal α} (hact : ActsBy O tx step) (hm : HoldsModel asDef name vars d tx params rest)
    (ho : Reads vars (py! "opt_state") o) (hs : Reads vars (py! "step") s) {a : Nat} {h : PHeap α} (ha : h[a]? = some (c, vars)) :
    ∃ wt b' params' rest' h' a' vars', (trainLoop how j t wrt step loss fs b).run J [l] w = (wt, .ok b') ∧
      trainStateLoop O env J asDef i other name loss u fs b a h = (h', .ok (b', a')) ∧ h'[a']? = some (c, vars') ∧
      HoldsModel asDef name vars' d tx params' rest' ∧ Reads vars' (py! "step") (O.succ^[fs.length] s) ∧
      partitionModule (wt.heap.length + 1) wt.heap l [wrt, .ellipsis] = .ok ([params', rest'], d) ∧
      ∃ um m, mergeDef d [params', rest'] u = (um, .ok m) ∧ SameGraph wt.heap l um.heap m := by
  obtain ⟨wt, b', p', r', h1, h2, h3, h4⟩ := C95_loop hlaw wfu hw how' hty hstep hkt i j t hk fs b wf hl hv hp hb
  obtain ⟨h', a', vars', k1, k2, k3, k4, _, _⟩ := C96_functional hO hc hact fs b hm ho hs ha h2
  exact ⟨wt, b', p', r', h', a', vars', h1, k1, k2, k3, k4, h3, h4⟩

/-! ### An example -/

/-- The value if it is an ordinary one. -/
def plainOr : PyVal α → PyVal α
  | .tree c vars => .tree c vars
  | _ => .none

/-- Gradient descent: the updates are the new parameters. -/
def exDescent : OptaxOps Nat where
  init _ _ := .none
  update _ g _ p :=
    match asState g, asState p with
    | some g, some p =>
      match stateTreeMap exSgdKeep p [g] with
      | .ok p' => .ok (stateVal p', .none)
      | .error e => .error e
    | _, _ => .error .typeError
  applyUpdates _ u := plainOr u
  succ s := match s with
    | .data c n => .data c (n + 1)
    | _ => .none

theorem exDescent_plain : exDescent.Plain := by
  constructor
  · intro tx g o p u o' h
    simp only [exDescent] at h
    split at h
    · split at h
      · cases h; trivial
      · cases h
    · cases h
  · intro p u
    cases u <;> trivial
  · intro s
    cases s <;> trivial

theorem exDescent_acts (tx : PyVal Nat) : ActsBy exDescent tx exSgdKeep := by
  intro o p g p' h
  exact ⟨stateVal p', .none, by simp only [exDescent, asState_stateVal, h], rfl⟩

/-- The ModuleDef of the example is the value 42. -/
def exAsDef : PyVal Nat → Option (ModuleDef Nat)
  | .data _ 42 => some exDef
  | _ => none

/-- The attributes of `TrainState(moduledef, params=params, tx=tx, buffers=rest)`. -/
def exTrainVars : Md Nat :=
  (callVars ⟨false, none⟩ (trainStateSteps exDescent (.data cInt 42) (stateVal ⟨[(py! "a/w", exParam 5), (py! "w", exParam 1)]⟩) (.data cInt 1) (.data cInt 0)
    [(py! "buffers", stateVal ⟨[(py! "a/s", exStat 6)]⟩)])).toOption.get (by decide)

theorem exHolds : HoldsModel exAsDef (py! "buffers") exTrainVars exDef (.data cInt 1) ⟨[(py! "a/w", exParam 5), (py! "w", exParam 1)]⟩ ⟨[(py! "a/s", exStat 6)]⟩ where
  wf := by
    obtain ⟨vars, e, hw, _⟩ := C68_start (O := exDescent) (i := ⟨false, none⟩) rfl (moduledef := .data cInt 42)
      (params := stateVal ⟨[(py! "a/w", exParam 5), (py! "w", exParam 1)]⟩) (tx := .data cInt 1) (step := .data cInt 0)
      (kwargs := [(py! "buffers", stateVal ⟨[(py! "a/s", exStat 6)]⟩)]) trivial trivial trivial trivial trivial (by simp [DNodup, dkeys])
      (by
        intro k v h
        simp only [List.mem_singleton, Prod.mk.injEq] at h
        rw [h.2]
        exact .inl trivial)
      (by
        intro k hk
        simp only [dkeys, List.map_cons, List.map_nil, List.mem_singleton] at hk
        subst hk
        unfold ReservedPy
        decide)
    have : exTrainVars = vars := by
      unfold exTrainVars
      simp only [e, Except.toOption, Option.get_some]
    rw [this]
    exact hw
  moduledef := ⟨.data cInt 42, ⟨_, rfl, rfl⟩, rfl⟩
  tx := ⟨_, rfl, rfl⟩
  params := ⟨_, rfl, rfl⟩
  rest := ⟨_, rfl, rfl⟩
  own := by decide

/-- The theorem applies to a loop of one step in `jit`. -/
example : ∃ wt b' params' rest' h' a' vars', (trainLoop (.jit true 5 6) 7 8 (.ofType cParam) exSgdKeep id [exLossT] 0).run exJaxS [0] exWorld = (wt, .ok b') ∧
    trainStateLoop exDescent (fun _ => ⟨false, none⟩) exJaxS exAsDef 4 (.ofType cBatchStat) (py! "buffers") id ⟨[], 3, 0, []⟩ [exLossT] 0 0
      [(cTrainState, exTrainVars)] = (h', .ok (b', a')) ∧ h'[a']? = some (cTrainState, vars') ∧
    HoldsModel exAsDef (py! "buffers") vars' exDef (.data cInt 1) params' rest' ∧ Reads vars' (py! "step") (.data cInt 1) ∧
    partitionModule (wt.heap.length + 1) wt.heap 0 [.ofType cParam, .ellipsis] = .ok ([params', rest'], exDef) ∧
    ∃ um m, mergeDef exDef [params', rest'] ⟨[], 3, 0, []⟩ = (um, .ok m) ∧ SameGraph wt.heap 0 um.heap m :=
  C96_loop (how := .jit true 5 6) exShaped_law ⟨wfHeap_of_forall (by decide) (by simp), by simp⟩ (by trivial) (by trivial) (.ofType _) exSgdKeep_arrays
    exSgdKeep_types 4 7 8 rfl [exLossT] 0 exWorld_wf (by decide) exWorld_valid (by decide +kernel) ⟨⟨_, _, exBothWays⟩, trivial⟩ exDescent_plain rfl
    (exDescent_acts _) exHolds ⟨_, rfl, rfl⟩ (s := .data cInt 0) ⟨_, rfl, rfl⟩ rfl

/-- Two steps with the TrainState. -/
example : ((trainStateLoop exDescent (fun _ => ⟨false, none⟩) exJaxS exAsDef 4 (.ofType cBatchStat) (py! "buffers") id ⟨[], 3, 0, []⟩ [exLossT, exLossT] 0 0
      [(cTrainState, exTrainVars)]).1[2]?.map fun cv => (dget cv.2 (py! "params"), dget cv.2 (py! "buffers"), dget cv.2 (py! "step"))) =
    some (some (treeNode (stateVal ⟨[(py! "a/w", exParam 125), (py! "w", exParam 121)]⟩)), some (stateVal ⟨[(py! "a/s", exStat 20)]⟩),
      some (treeNode (.data cInt 2))) := by decide +kernel

/-- A name that is not an attribute. -/
example (w : World Nat) (body : Loc → World Nat → World Nat × Except Err Nat) :
    trainStateApply exAsDef 5 exTrainVars [.name (py! "params"), .name (py! "statistics")] body w = (w, .error .attributeError) :=
  C96_apply_raises (args := [.name (py! "params")]) (d := exDef) ⟨.data cInt 42, ⟨_, rfl, rfl⟩, rfl⟩ (by decide)
    (by
      intro a ha
      simp only [List.mem_singleton] at ha
      exact .inr ⟨_, _, ha, exHolds.params⟩) _ _ _

end Nnx
