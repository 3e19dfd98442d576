import Verif.Spec.PureLoop
import Verif.Props.Functional
/-
C102: handing the model from step to step as a Pure is calling the steps on the Module.
-/
namespace Nnx
variable {α κ L β : Type} [DecidableEq α] {J : Jax α κ L}

omit [DecidableEq α] in
theorem toList_unpack (ss : List (State (PyVal α))) : (Pure'.unpack ss).toList = ss := by
  match ss with
  | [] => rfl
  | [_] => rfl
  | _ :: _ :: _ => rfl

omit [DecidableEq α] in
/-- The States of `m.partition(...)` are pieces of the state of `m`. -/
theorem modulePure_parts {h : Heap α} {fuel : Nat} {l : Loc} {fs : List (Filter α)} {p : Pure' α} (e : modulePure fuel h l fs = .ok p) :
    ∃ s, getModuleDef fuel h l = some p.moduledef ∧ getState fuel h l = some s ∧ Pieces s p.states.toList ∧
      p.states.toList ≠ [] := by
  unfold modulePure at e
  split at e
  · cases e
  next ss d hp =>
  cases e
  simp only [toList_unpack]
  unfold partitionModule at hp
  split at hp
  swap
  · cases hp
  next d' s hd hs =>
  refine ⟨s, ?_⟩
  cases fs with
  | nil =>
    cases hp
    exact ⟨hd, hs, pieces_self (getState_canonical hs), by simp⟩
  | cons x fs =>
    simp only at hp
    split at hp
    · cases hp
    · next hpart =>
      cases hp
      refine ⟨hd, hs, partition_pieces (getState_obtainable hs) hpart, ?_⟩
      have hlen := (C01_partition_first_match (getState_obtainable hs) hpart).1
      intro h
      rw [h] at hlen
      cases hlen

theorem Pure'.apply_eq {p : Pure' α} (hne : p.states.toList ≠ []) (k : Nat) (body : Loc → World α → World α × Except Err β) (w : World α) :
    p.apply k body w = ((applyDef k p.moduledef p.states.toList body w).1,
      (applyDef k p.moduledef p.states.toList body w).2.map fun x => (x.1, ⟨.one x.2.1, x.2.2⟩)) := by
  unfold Pure'.apply
  cases hss : p.states.toList with
  | nil => exact absurd hss hne
  | cons s ss =>
    simp only
    cases h : applyDef k p.moduledef (s :: ss) body w with
    | mk w1 r1 => cases r1 <;> rfl

theorem Pure'.call_eq {p : Pure' α} (hne : p.states.toList ≠ []) (body : Loc → World α → World α × Except Err β) (w : World α) :
    p.call body w = ((mergeAndRun p.moduledef p.states.toList body w).1,
      (mergeAndRun p.moduledef p.states.toList body w).2.map (·.2)) := by
  unfold Pure'.call Pure'.merge mergeAndRun
  cases hss : p.states.toList with
  | nil => exact absurd hss hne
  | cons s ss =>
    simp only
    cases h : mergeDef p.moduledef (s :: ss) w with
    | mk w1 r1 =>
      cases r1 with
      | error e => rfl
      | ok l =>
        simp only
        cases hb : body l w1 with
        | mk w2 r2 => cases r2 <;> rfl

/-- A function may be called on the Module again after it was called. -/
theorem plain_valid (hlaw : GradLaw J.gradOf) {w : World α} (wf : WFWorld w) {l : Loc} (hl : l < w.heap.length) (hv : AllValid w l)
    {f : Routine α κ L β} (hf : f.Good) :
    WFWorld (f.plain J [l] w).1 ∧ l < (f.plain J [l] w).1.heap.length ∧ AllValid (f.plain J [l] w).1 l := by
  have P := hf.parametric hlaw
  have hr : Reaches w.heap l l := ⟨[], .here hl⟩
  refine ⟨P.wf wf hl, Nat.lt_of_lt_of_le hl (P.keeps l w wf hl).len, ?_⟩
  obtain ⟨S', f', hS, B', _⟩ := P.bisim _ id l w w (bisim_self wf hv) wf wf hr
  exact B'.valid (hS l hr).1

/-- **C102, one step.** Let `p` be what `m.partition(...)` returned, with any filters. In any world, inside of `jax.jit`, the step
`model = p.merge(); b = f(model); return b, model.partition()` raises what the call `f(m)` raises (without any transforms), and returns what
`f(m)` returns, together with what `m.partition()` returns after the call. -/
theorem C102_pure_step (hlaw : GradLaw J.gradOf) {w u : World α} (wf : WFWorld w) (wfu : WFWorld u) {l : Loc} (hl : l < w.heap.length)
    (hv : AllValid w l) {f : Routine α κ L β} (hf : f.Good) (hc : f.Carried J [l] w) {fuel : Nat} {fs : List (Filter α)} {p : Pure' α}
    (hp : modulePure fuel w.heap l fs = .ok p) (j : Nat) {w' : World α} {r : Except Err β} (hr : f.plain J [l] w = (w', r)) :
    (∀ e, r = .error e → pureStep J j f u p = .error e) ∧
    ∀ b, r = .ok b → ∃ q, pureStep J j f u p = .ok (b, q) ∧ modulePure (w'.heap.length + 1) w'.heap l [] = .ok q := by
  obtain ⟨s, hd, hs, hpc, hne⟩ := modulePure_parts hp
  have P := hf.parametric hlaw
  have hfol := followsAt hlaw hf (Routine.run_follows hlaw f hf) wf hl hc
  obtain ⟨h1, h2⟩ := apply_copy wf wfu hl hv P hfol hd hs hpc j
  have hap : ∀ k, insideTrace j none (p.apply k fun l w => f.run J [l] w) u =
      ((insideTrace j none (applyDef k p.moduledef p.states.toList fun l w => f.run J [l] w) u).1,
        (insideTrace j none (applyDef k p.moduledef p.states.toList fun l w => f.run J [l] w) u).2.map fun x => (x.1, ⟨.one x.2.1, x.2.2⟩)) := by
    intro k
    simp only [insideTrace, Pure'.apply_eq hne]
  have hun : pureStep J j f u p =
      (unlimited (fun k => insideTrace j none (applyDef k p.moduledef p.states.toList fun l w => f.run J [l] w)) u).2.map
        fun x => (x.1, ⟨.one x.2.1, x.2.2⟩) := by
    simp only [pureStep, unlimited, hap]
  rw [hr] at h1 h2
  refine ⟨?_, ?_⟩
  · rintro e rfl
    rw [hun, h1 e rfl]
    rfl
  · rintro b rfl
    obtain ⟨s', d', k1, k2, k3⟩ := h2 b rfl
    refine ⟨⟨.one s', d'⟩, by rw [hun, k1]; rfl, ?_⟩
    simp only [modulePure, partitionModule, k2, k3, Pure'.unpack]

/-- **C102, the loop.** Let `p` be what `m.partition(...)` returned, with any filters, and let a list of functions be applied step by step to
`p`, each step inside of `jax.jit` and in any world. If calling the functions on `m` one after the other (without any transforms) raises, the
loop raises the same. If the calls return, the loop returns the same results, and merging the Pure it ends with, in any world, gives a Module that
is observationally equal to `m` after the calls. The functions may do anything with the model: create, replace, delete and share Modules, change static
attributes. -/
theorem C102_pure_loop (hlaw : GradLaw J.gradOf) {l : Loc} (j : Nat) (steps : List (Routine α κ L β × World α))
    (hus : ∀ x ∈ steps, WFWorld x.2) {w : World α} (wf : WFWorld w) (hl : l < w.heap.length)
    (hv : AllValid w l) (hg : GoodSteps J l (steps.map (·.1)) w) {fuel : Nat} {fs : List (Filter α)} {p : Pure' α}
    (hp : modulePure fuel w.heap l fs = .ok p) {w' : World α} {r : Except Err (List β)} (hr : objectLoop J l (steps.map (·.1)) w = (w', r)) :
    (∀ e, r = .error e → pureLoop J j steps p = .error e) ∧
    ∀ bs, r = .ok bs → ∃ q, pureLoop J j steps p = .ok (bs, q) ∧
      ∀ v, WFWorld v → ∃ v' m', q.merge v = (v', .ok m') ∧ SameGraph w'.heap l v'.heap m' := by
  induction steps generalizing w w' fuel fs p r with
  | nil =>
    simp only [List.map_nil, objectLoop, Prod.mk.injEq] at hr
    obtain ⟨rfl, rfl⟩ := hr
    refine ⟨fun e h => by (cases h), ?_⟩
    rintro bs h
    cases h
    refine ⟨p, rfl, fun v wfv => ?_⟩
    obtain ⟨s, hd, hs, hpc, hne⟩ := modulePure_parts hp
    obtain ⟨v', f, hm, sp⟩ := mergeDef_spec wf.heap hl hd hs hpc (w := v) wfv.heap.conts
    refine ⟨v', v.heap.length, ?_, ?_⟩
    · unfold Pure'.merge
      cases hss : p.states.toList with
      | nil => exact absurd hss hne
      | cons t ts => rw [hss] at hm; exact hm
    · exact sp.iso.sameGraph wf.heap hl
  | cons x steps ih =>
    obtain ⟨f, u⟩ := x
    obtain ⟨hf, hc, hg⟩ := hg
    simp only [List.map_cons, objectLoop] at hr
    obtain ⟨wf1, hl1, hv1⟩ := plain_valid hlaw wf hl hv hf
    cases hx : f.plain J [l] w with
    | mk w1 r1 =>
      rw [hx] at hr hg wf1 hl1 hv1
      obtain ⟨h1, h2⟩ := C102_pure_step hlaw wf (hus _ List.mem_cons_self) hl hv hf hc hp j hx
      cases r1 with
      | error e =>
        simp only [Prod.mk.injEq] at hr
        obtain ⟨rfl, rfl⟩ := hr
        refine ⟨?_, fun b h => by cases h⟩
        intro e' h
        cases h
        simp only [pureLoop, h1 e rfl]
      | ok b =>
        obtain ⟨q, k1, k2⟩ := h2 b rfl
        cases hy : objectLoop J l (steps.map (·.1)) w1 with
        | mk w2 r2 =>
          obtain ⟨i1, i2⟩ := ih (fun x hx => hus x (List.mem_cons_of_mem _ hx)) wf1 hl1 hv1 hg k2 hy
          simp only [hy] at hr
          cases r2 with
          | error e =>
            simp only [Prod.mk.injEq] at hr
            obtain ⟨rfl, rfl⟩ := hr
            refine ⟨?_, fun b h => by cases h⟩
            intro e' h
            cases h
            simp only [pureLoop, k1, i1 e rfl]
          | ok bs =>
            simp only [Prod.mk.injEq] at hr
            obtain ⟨rfl, rfl⟩ := hr
            refine ⟨fun e h => by (cases h), ?_⟩
            intro bs' h
            cases h
            obtain ⟨q', m1, m2⟩ := i2 bs rfl
            exact ⟨q', by simp only [pureLoop, k1, m1], m2⟩

/-- **C102, calls.** `p.call` inside of `jax.jit` returns or raises what the function does on the Module, and does not touch any Module that
exists. -/
theorem C102_pure_call (hlaw : GradLaw J.gradOf) {w u : World α} (wf : WFWorld w) (wfu : WFWorld u) {l : Loc} (hl : l < w.heap.length)
    (hv : AllValid w l) {f : Routine α κ L β} (hf : f.Good) (hc : f.Carried J [l] w) {fuel : Nat} {fs : List (Filter α)} {p : Pure' α}
    (hp : modulePure fuel w.heap l fs = .ok p) (j : Nat) {u' : World α} {r : Except Err β}
    (hr : insideTrace j none (p.call fun l w => f.run J [l] w) u = (u', r)) :
    r = (f.plain J [l] w).2 ∧ (∀ a : Loc, a < u.heap.length → u'.heap[a]? = u.heap[a]?) ∧ WFWorld u' := by
  obtain ⟨s, hd, hs, hpc, hne⟩ := modulePure_parts hp
  have P := hf.parametric hlaw
  have hfol := followsAt hlaw hf (Routine.run_follows hlaw f hf) wf hl hc
  obtain ⟨u3, h1, h2, _, _, h3, _⟩ := sim_copy wf wfu hl hv P hfol hd hs hpc j none
  have hcall : insideTrace j none (p.call fun l w => f.run J [l] w) u =
      ((insideTrace j none (mergeAndRun p.moduledef p.states.toList fun l w => f.run J [l] w) u).1,
        (insideTrace j none (mergeAndRun p.moduledef p.states.toList fun l w => f.run J [l] w) u).2.map (·.2)) := by
    simp only [insideTrace, Pure'.call_eq hne]
  rw [hcall, h1] at hr
  simp only [Prod.mk.injEq] at hr
  obtain ⟨rfl, rfl⟩ := hr
  refine ⟨?_, h3, h2⟩
  cases (f.plain J [l] w).2 <;> rfl

/-! ### An example: a training step, then a change of the structure of the model -/

/-- `model.n = New(); del model.w; model.k = "x"; return 3` -/
def exSurgery : Routine Nat Nat Nat Nat :=
  .op (.new (exCls (py! "New"))) fun _ => .op (.link 0 (py! "n") 1) fun _ => .op (.del 0 (py! "w")) fun _ =>
    .op (.set 0 (py! "k") (.str (py! "x"))) fun _ => .ret 3

theorem exSurgery_good : exSurgery.Good := by
  refine ⟨trivial, fun _ _ => ⟨?_, fun _ _ => ⟨trivial, fun _ _ => ⟨⟨?_, ?_⟩, fun _ _ => trivial⟩⟩⟩⟩
  · exact ⟨by unfold NoSlash; decide, by decide⟩
  · exact ⟨by unfold NoSlash; decide, by decide⟩
  · exact .inl trivial

theorem exSurgery_carried {J : Jax Nat Nat Nat} (w : World Nat) : exSurgery.Carried J [0] w :=
  fun _ _ _ _ _ _ _ _ _ _ _ _ _ _ _ _ => trivial

/-- A world without Modules. -/
def exNowhere : World Nat := ⟨[], 3, 0, []⟩

theorem exNowhere_wf : WFWorld exNowhere := ⟨wfHeap_of_forall (by decide) (by simp [exNowhere]), by simp [exNowhere]⟩

/-- The steps of the example: a training step (with `nnx.grad` inside) and the surgery. -/
def exPureSteps : List (Routine Nat Nat Nat Nat × World Nat) :=
  [(trainStep 7 8 (.ofType cParam) exSgdKeep id exLossT, exNowhere), (exSurgery, exNowhere)]

theorem exPure_good : GoodSteps exJaxS 0 (exPureSteps.map (·.1)) exWorld := by
  obtain ⟨wp, sd, st, d, h, hc, _⟩ := trainStep_plain (J := exJaxS) exShaped_law exWorld_wf (by decide) exWorld_valid exLossT_good (by trivial)
    exSgdKeep_arrays exBothWays.runs exBothWays.can 7 8
  exact ⟨trainStep_good exLossT_good (by trivial) exSgdKeep_arrays 7 8 id, hc, exSurgery_good, exSurgery_carried _, trivial⟩

deriving instance DecidableEq for States
deriving instance DecidableEq for Pure'

/-- The model of the example as a Pure with two States. -/
def exPureModel : Pure' Nat := ⟨.many [⟨[(py! "a/w", exParam 5), (py! "w", exParam 1)]⟩, ⟨[(py! "a/s", exStat 6)]⟩], exDef⟩

/-- The theorem applies: the loop ends with the model that the calls leave. -/
example : ∃ q, pureLoop exJaxS 4 exPureSteps exPureModel = .ok ([1, 3], q) ∧
    ∀ v, WFWorld v → ∃ v' m', q.merge v = (v', .ok m') ∧
      SameGraph (objectLoop exJaxS 0 (exPureSteps.map (·.1)) exWorld).1.heap 0 v'.heap m' :=
  (C102_pure_loop (J := exJaxS) exShaped_law 4 exPureSteps (by
      intro x hx
      simp only [exPureSteps, List.mem_cons, List.not_mem_nil, or_false] at hx
      rcases hx with rfl | rfl <;> exact exNowhere_wf)
    exWorld_wf (by decide) exWorld_valid exPure_good (fuel := 3) (fs := [.ofType cParam, .ellipsis]) (p := exPureModel) (by decide +kernel) rfl).2 [1, 3]
    (by decide +kernel)

/-- The loop computed: the training step has changed the parameters, the surgery has replaced `w` by a new submodule, and the static attribute `k` is
part of the definition. -/
example : (match pureLoop exJaxS 4 exPureSteps exPureModel with
    | .ok (bs, q) => decide (bs = [1, 3] ∧ q.states.toList = [⟨[(py! "a/s", exStat 10), (py! "a/w", exParam 15)]⟩] ∧
        (py! "k", .str (py! "x")) ∈ q.moduledef.statics)
    | .error _ => false) = true := by decide +kernel

/-- Calls leave the Pure and the world as they are. -/
example : (insideTrace 4 none (exPureModel.call fun l w => exSurgery.run exJaxS [l] w) exNowhere).2 = .ok 3 := by decide +kernel

/-- **C102.** A Pure without any State (an empty tuple was given to `Pure.new`) has no method to call: `pure.apply`, `pure.call.method()` and `pure.merge()` raise TypeError, and nothing changes. -/
theorem C102_no_states {p : Pure' α} (h : p.states.toList = []) (k : Nat) (body : Loc → World α → World α × Except Err β) (w : World α) :
    p.apply k body w = (w, .error .typeError) ∧ p.call body w = (w, .error .typeError) ∧ p.merge w = (w, .error .typeError) := by
  simp only [Pure'.apply, Pure'.call, Pure'.merge, h, and_self]

example (d : ModuleDef Nat) : (⟨.many [], d⟩ : Pure' Nat).states.toList = [] := rfl

end Nnx
