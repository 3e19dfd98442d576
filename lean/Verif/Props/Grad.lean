import Verif.Props.Jit
import Verif.Proofs.Like
import Verif.Spec.Grad
/-
C51 (grad).
-/
namespace Nnx
variable {α β L : Type} [DecidableEq α]

omit [DecidableEq α] in
theorem getState_obtainable {fuel : Nat} {h : Heap α} {l : Loc} {s : State (PyVal α)} (hs : getState fuel h l = some s) :
    Obtainable s := by
  unfold getState at hs
  split at hs
  · cases hs
  · simp only [Option.some.injEq] at hs; subst hs; exact .new _

omit [DecidableEq α] in
/-- The parts of a State are pieces of it. -/
theorem partition_pieces {s : State (PyVal α)} (hob : Obtainable s) {fs : List (Filter α)} {ss : List (State (PyVal α))}
    (hpart : s.partition fs = .ok ss) : Pieces s ss := by
  obtain ⟨hlen, hfm⟩ := C01_partition_first_match hob hpart
  refine ⟨?_, ?_, ?_⟩
  · intro t ht
    exact (Obtainable.partition hob hpart ht).canonical
  · intro t ht k v hk
    obtain ⟨i, hi, rfl⟩ := List.getElem_of_mem ht
    exact ((hfm i _ (List.getElem?_eq_getElem hi) k v).1 hk).1
  · intro k v hk
    obtain ⟨i, ⟨t, ht, htv⟩, _⟩ := C01_partition_exactly_one hob hpart hk
    exact ⟨t, List.mem_of_getElem? ht, htv⟩

omit [DecidableEq α] in
/-- What the partition `[wrt, ...]` of `nnx.grad` gives: the selected entries and the others. -/
theorem grad_partition {s : State (PyVal α)} (hob : Obtainable s) {wrt : Filter α} (hw : wrt.WellFormed) :
    ∃ p diff nondiff, toPredicate wrt = .ok p ∧ s.partition [.pred p, .ellipsis] = .ok [diff, nondiff] ∧
      diff.Canonical ∧ nondiff.Canonical ∧
      (∀ k v, diff.get k = some v ↔ s.get k = some v ∧ wrt.Matches k v) ∧
      (∀ k v, nondiff.get k = some v ↔ s.get k = some v ∧ ¬ wrt.Matches k v) := by
  rcases toPredicate_spec wrt with ⟨_, p, hp, hm⟩ | ⟨h, _⟩
  swap
  · exact absurd hw h
  have hwf : ∀ f ∈ [Filter.pred p, Filter.ellipsis], f.WellFormed := by
    intro f hf
    simp only [List.mem_cons, List.not_mem_nil, or_false] at hf
    rcases hf with rfl | rfl <;> trivial
  have hme : ¬ MisplacedEllipsis [Filter.pred p, Filter.ellipsis] := by
    rintro ⟨i, hi, h⟩
    have : i = 0 := by simp at hi; omega
    subst this
    simp at h
  obtain ⟨h1, h2, h3⟩ := C02_partition_fails_iff hob hwf hme
  cases hpart : s.partition [.pred p, .ellipsis] with
  | error e =>
    have := h2 e hpart
    subst this
    obtain ⟨k, v, _, hno⟩ := h1.1 hpart
    exact absurd trivial (hno .ellipsis (by simp))
  | ok ss =>
    have hl := h3 ss hpart
    match ss, hl with
    | [diff, nondiff], _ =>
      obtain ⟨_, hfm⟩ := C01_partition_first_match hob hpart
      refine ⟨p, diff, nondiff, hp, hpart, (Obtainable.partition hob hpart (by simp)).canonical,
        (Obtainable.partition hob hpart (by simp)).canonical, ?_, ?_⟩
      · intro k v
        rw [hfm 0 diff rfl k v]
        refine and_congr_right fun _ => ?_
        constructor
        · rintro ⟨⟨f, hf, hmm⟩, _⟩
          simp only [List.getElem?_cons_zero, Option.some.injEq] at hf
          subst hf
          exact (hm k v).1 hmm
        · intro hmm
          exact ⟨⟨_, rfl, (hm k v).2 hmm⟩, fun j hj => absurd hj (Nat.not_lt_zero _)⟩
      · intro k v
        rw [hfm 1 nondiff rfl k v]
        refine and_congr_right fun _ => ?_
        constructor
        · rintro ⟨_, hno⟩ hmm
          exact hno 0 Nat.zero_lt_one _ rfl ((hm k v).2 hmm)
        · intro hmm
          refine ⟨⟨_, rfl, trivial⟩, ?_⟩
          intro j hj g hg
          have : j = 0 := by simpa using hj
          subst this
          simp only [List.getElem?_cons_zero, Option.some.injEq] at hg
          subst hg
          exact fun h => hmm ((hm k v).1 h)

/-- Replacing the selected values by others of the same kind: the new values and the rest are pieces of the new state. -/
theorem like_pieces {w : World α} (wf : WFWorld w) {l : Loc} (hl : l < w.heap.length) (hv : AllValid w l)
    {k0 : Nat} {s diff nondiff : State (PyVal α)} (hs : getState k0 w.heap l = some s)
    {k1 : Nat} {d : ModuleDef α} (hd : getModuleDef k1 w.heap l = some d) {M : Str → PyVal α → Prop}
    (hc : nondiff.Canonical) (h1 : ∀ k v, diff.get k = some v ↔ s.get k = some v ∧ M k v)
    (h2 : ∀ k v, nondiff.get k = some v ↔ s.get k = some v ∧ ¬ M k v) {x : State (PyVal α)} (hx : LikeState diff x)
    {fuel : Nat} (hfu : w.heap.length < fuel) :
    ∃ w' s' k2 k3, updateState fuel l [x] w = (w', none) ∧ WFWorld w' ∧ w'.heap.length = w.heap.length ∧ AllValid w' l ∧
      getModuleDef k2 w'.heap l = some d ∧ getState k3 w'.heap l = some s' ∧ Pieces s' [x, nondiff] ∧
      ∀ k, s'.get k = (x.get k).or (s.get k) := by
  obtain ⟨hxc, hxk, hxv⟩ := hx
  have hlike : ∀ k v, x.get k = some v → ∃ u, s.get k = some u ∧ LikeVal u v := by
    intro k v hk
    have := hxk k
    rw [hk] at this
    cases hdk : diff.get k with
    | none => rw [hdk] at this; cases this
    | some u => exact ⟨u, ((h1 k u).1 hdk).1, hxv k u v hdk hk⟩
  obtain ⟨w', hu, wf', so, hv', _, _, _, hpart⟩ := update_like wf hl hv hs hxc hlike hfu
  obtain ⟨d', s', hd1, hd2, hs', hget⟩ := hpart _ _ (Nat.lt_succ_self _) (Nat.lt_succ_self _)
  have := getModuleDef_det wf.heap hl hd1 hd
  subst this
  refine ⟨w', s', _, _, hu, wf', so.len, hv', hd2, hs', ?_, hget⟩
  refine ⟨by simp [hc]; exact hxc, ?_, ?_⟩
  · intro u hu k v hk
    rw [hget]
    simp only [List.mem_cons, List.not_mem_nil, or_false] at hu
    rcases hu with rfl | rfl
    · rw [hk]; rfl
    · obtain ⟨a, b⟩ := (h2 k v).1 hk
      cases hxk' : x.get k with
      | none => simp [a]
      | some z =>
        have := hxk k
        rw [hxk'] at this
        cases hdk : diff.get k with
        | none => rw [hdk] at this; cases this
        | some u =>
          obtain ⟨e1, e2⟩ := (h1 k u).1 hdk
          rw [a] at e1; cases e1
          exact absurd e2 b
  · intro k v hk
    rw [hget] at hk
    cases hxk' : x.get k with
    | some z => rw [hxk'] at hk; cases hk; exact ⟨x, by simp, hxk'⟩
    | none =>
      rw [hxk', Option.none_or] at hk
      refine ⟨nondiff, by simp, (h2 k v).2 ⟨hk, fun hm => ?_⟩⟩
      have := hxk k
      rw [hxk', (h1 k v).2 ⟨hk, hm⟩] at this
      cases this

/-- The loss at a State of the same kind, computed on a copy in a world `u`, is that of a direct call after the update. -/
theorem loss_like {w : World α} (wf : WFWorld w) {l : Loc} (hl : l < w.heap.length) (hv : AllValid w l)
    {F : Loc → World α → World α × Except Err (L × β)} (hF : Parametric F) {u : World α} (wfu : WFWorld u)
    {k0 : Nat} {s diff nondiff : State (PyVal α)} (hs : getState k0 w.heap l = some s)
    {k1 : Nat} {d : ModuleDef α} (hd : getModuleDef k1 w.heap l = some d) {M : Str → PyVal α → Prop}
    (hc : nondiff.Canonical) (h1 : ∀ k v, diff.get k = some v ↔ s.get k = some v ∧ M k v)
    (h2 : ∀ k v, nondiff.get k = some v ↔ s.get k = some v ∧ ¬ M k v) {x : State (PyVal α)} (hx : LikeState diff x)
    {fuel : Nat} (hfu : w.heap.length < fuel) (j t : Nat) :
    lossAt j t d nondiff F u x = directLoss F fuel l w x := by
  obtain ⟨w', s', _, _, hu, wf', hlen, hv', hd2, hs', hpc, _⟩ := like_pieces wf hl hv hs hd hc h1 h2 hx hfu
  obtain ⟨u3, hr, _⟩ := run_copy_in wf' wfu (by rw [hlen]; exact hl) hv' hF hd2 hs' hpc j (some t)
  simp only [lossAt, directLoss, hr, hu]
  generalize F l w' = r
  obtain ⟨_, _ | ⟨loss, aux⟩⟩ := r <;> rfl

/-! ### C51 -/

/-- **C51, stateful.** If a direct call `f(m)` returns a loss and an auxiliary output, and its net effect is node writes, then
`nnx.grad(f, wrt)(m)` hands to `jax.grad` exactly the entries of the state that match `wrt`, and as function the loss of `f` after
`m.update_state(x)`; it returns the gradient together with the auxiliary output of the direct call, and
leaves every existing Module as the direct call does. `jax.grad` is a parameter that looks at its function only at
States with the paths and kinds of its argument (`hlaw`). -/
theorem C51_grad {w wd : World α} (wf : WFWorld w) {l : Loc} (hl : l < w.heap.length) (hv : AllValid w l)
    {f : Prog α (L × β)} (hf : f.Good) {wrt : Filter α} (hwrt : wrt.WellFormed) {loss : L} {aux : β}
    (hd : f.call l w = (wd, .ok (loss, aux))) (hn : NodeWrites w wd l)
    {gradOf : (State (PyVal α) → Option L) → State (PyVal α) → State (PyVal α)}
    (hlaw : ∀ F G x, (∀ y, LikeState x y → F y = G y) → gradOf F x = gradOf G x) (j t : Nat) :
    ∃ s diff limit, getState (w.heap.length + 1) w.heap l = some s ∧
      (∀ k v, diff.get k = some v ↔ s.get k = some v ∧ wrt.Matches k v) ∧
      ∀ fuel, limit < fuel → ∃ wj,
        gradCall fuel true j t wrt gradOf l f.call w = (wj, .ok (gradOf (directLoss f.call fuel l w) diff, aux)) ∧
        AgreeOn w.heap.length wd wj ∧ SameGraph wd.heap l wj.heap l ∧
        wj.jaxTrace = w.jaxTrace ∧ wj.nnxStack = w.nnxStack := by
  obtain ⟨s, d, hpart⟩ := partition_budget wf hl
  obtain ⟨_, hdef, hs⟩ := hpart _ (Nat.lt_succ_self _)
  obtain ⟨p, diff, nondiff, hp, hsp, hc1, hc2, h1, h2⟩ := grad_partition (getState_obtainable hs) hwrt
  obtain ⟨w3, hr, pr, hj, hst⟩ := run_copy wf hl hv hf.parametric hdef hs (partition_pieces (getState_obtainable hs) hsp) j (some t)
  obtain ⟨w4, hag, hsg, e1, e2, _, hb⟩ := copy_back wf hl hv hf.parametric pr hj hst hd hn
  refine ⟨s, diff, w3.heap.length, hs, h1, ?_⟩
  intro fuel hfuel
  have hlt : w.heap.length < fuel := Nat.lt_of_le_of_lt pr.len hfuel
  obtain ⟨_, hd', hs'⟩ := hpart fuel hlt
  have hp1 : partitionModule fuel w.heap l [.pred p, .ellipsis] = .ok ([diff, nondiff], d) := by
    simp only [partitionModule, hd', hs', hsp]
  obtain ⟨hw, _⟩ := hb fuel hfuel
  rw [hd] at hr
  refine ⟨w4, ?_, hag, hsg, e1, e2⟩
  have hg : gradOf (lossAt j t d nondiff f.call w) diff = gradOf (directLoss f.call fuel l w) diff :=
    hlaw _ _ _ fun y hy => loss_like wf hl hv hf.parametric wf hs hdef hc2 h1 h2 hy hlt j t
  simp only [gradCall, hp, hp1, hr, Except.map, if_true, hw, hg]

/-- **C51, stateless.** With `stateful=False` the result is the same, for any `f`, and every existing Module is left as it was. -/
theorem C51_stateless {w wd : World α} (wf : WFWorld w) {l : Loc} (hl : l < w.heap.length) (hv : AllValid w l)
    {f : Prog α (L × β)} (hf : f.Good) {wrt : Filter α} (hwrt : wrt.WellFormed) {loss : L} {aux : β}
    (hd : f.call l w = (wd, .ok (loss, aux)))
    {gradOf : (State (PyVal α) → Option L) → State (PyVal α) → State (PyVal α)}
    (hlaw : ∀ F G x, (∀ y, LikeState x y → F y = G y) → gradOf F x = gradOf G x) (j t : Nat) :
    ∃ s diff, getState (w.heap.length + 1) w.heap l = some s ∧
      (∀ k v, diff.get k = some v ↔ s.get k = some v ∧ wrt.Matches k v) ∧
      ∀ fuel, w.heap.length < fuel → ∃ wj,
        gradCall fuel false j t wrt gradOf l f.call w = (wj, .ok (gradOf (directLoss f.call fuel l w) diff, aux)) ∧
        (∀ a : Loc, a < w.heap.length → wj.heap[a]? = w.heap[a]?) ∧
        wj.jaxTrace = w.jaxTrace ∧ wj.nnxStack = w.nnxStack := by
  obtain ⟨s, d, hpart⟩ := partition_budget wf hl
  obtain ⟨_, hdef, hs⟩ := hpart _ (Nat.lt_succ_self _)
  obtain ⟨p, diff, nondiff, hp, hsp, hc1, hc2, h1, h2⟩ := grad_partition (getState_obtainable hs) hwrt
  obtain ⟨w3, hr, pr, hj, hst⟩ := run_copy wf hl hv hf.parametric hdef hs (partition_pieces (getState_obtainable hs) hsp) j (some t)
  refine ⟨s, diff, hs, h1, ?_⟩
  intro fuel hlt
  obtain ⟨_, hd', hs'⟩ := hpart fuel hlt
  have hp1 : partitionModule fuel w.heap l [.pred p, .ellipsis] = .ok ([diff, nondiff], d) := by
    simp only [partitionModule, hd', hs', hsp]
  rw [hd] at hr
  refine ⟨w3, ?_, pr.old, hj, hst⟩
  have hg : gradOf (lossAt j t d nondiff f.call w) diff = gradOf (directLoss f.call fuel l w) diff :=
    hlaw _ _ _ fun y hy => loss_like wf hl hv hf.parametric wf hs hdef hc2 h1 h2 hy hlt j t
  simp only [gradCall, hp, hp1, hr, Except.map, Bool.false_eq_true, if_false, hg]

/-- **C51, exceptions.** If the direct call raises, `nnx.grad(f, wrt)(m)` raises the same and leaves every existing Module as it was;
with a malformed filter it raises as well. -/
theorem C51_raises {w wd : World α} (wf : WFWorld w) {l : Loc} (hl : l < w.heap.length) (hv : AllValid w l)
    {f : Prog α (L × β)} (hf : f.Good) {wrt : Filter α} {e : Err} (hd : f.call l w = (wd, .error e))
    (gradOf : (State (PyVal α) → Option L) → State (PyVal α) → State (PyVal α)) (stateful : Bool) (j t : Nat) :
    ∀ fuel, w.heap.length < fuel → ∃ wj e', gradCall fuel stateful j t wrt gradOf l f.call w = (wj, .error e') ∧
      (wrt.WellFormed → e' = e) ∧ (∀ a : Loc, a < w.heap.length → wj.heap[a]? = w.heap[a]?) ∧
      wj.jaxTrace = w.jaxTrace ∧ wj.nnxStack = w.nnxStack := by
  intro fuel hlt
  rcases toPredicate_spec wrt with ⟨hwrt, _⟩ | ⟨h, e', he'⟩
  swap
  · exact ⟨w, e', by simp only [gradCall, he'], fun hw => absurd hw h, fun _ _ => rfl, rfl, rfl⟩
  obtain ⟨s, d, hpart⟩ := partition_budget wf hl
  obtain ⟨_, hdef, hs⟩ := hpart fuel hlt
  obtain ⟨p, diff, nondiff, hp, hsp, hc1, hc2, h1, h2⟩ := grad_partition (getState_obtainable hs) hwrt
  obtain ⟨w3, hr, pr, hj, hst⟩ := run_copy wf hl hv hf.parametric hdef hs (partition_pieces (getState_obtainable hs) hsp) j (some t)
  have hp1 : partitionModule fuel w.heap l [.pred p, .ellipsis] = .ok ([diff, nondiff], d) := by
    simp only [partitionModule, hdef, hs, hsp]
  rw [hd] at hr
  exact ⟨w3, e, by simp only [gradCall, hp, hp1, hr, Except.map], fun _ => rfl, pr.old, hj, hst⟩

/-- **C51, the point of evaluation.** At the State that is handed to `jax.grad` (the matching entries of the
module's own state), the function that is differentiated has the loss of the direct call as its value. -/
theorem C51_evaluated_at {w : World α} (wf : WFWorld w) {l : Loc} (hl : l < w.heap.length) (hv : AllValid w l)
    {f : Prog α (L × β)} {fuel : Nat} (hf : w.heap.length < fuel) {s diff : State (PyVal α)}
    (hs : getState (w.heap.length + 1) w.heap l = some s) (hc : StrictSorted diff.mapping)
    (hsub : ∀ k v, diff.get k = some v → s.get k = some v) :
    LikeState diff diff ∧ directLoss f.call fuel l w diff = match (f.call l w).2 with
      | .ok (loss, _) => some loss
      | .error _ => none := by
  constructor
  · refine ⟨hc, fun _ => rfl, ?_⟩
    intro k u v hu hv'
    rw [hu] at hv'
    cases hv'
    obtain ⟨_, _, _, _, hnode⟩ := (state_paths wf.heap hl hs).1 k u (hsub k u hu)
    exact ⟨(getState_good wf.heap hl hs k u (dget_mem (hsub k u hu))).1, hnode, fun c x m h => ⟨x, h⟩⟩
  · obtain ⟨s', hs'⟩ := getState_exists wf.heap hl hf
    have := getState_det wf.heap hl hs' hs
    subst this
    have hu := C15_own_state wf hl hs' (us := [diff]) (by intro t ht; rw [List.mem_singleton.1 ht]; exact hc) (by simpa using hsub) hv
    simp only [directLoss, hu]
    generalize f.call l w = r
    obtain ⟨_, _ | ⟨loss, aux⟩⟩ := r <;> rfl

/-- **C51, the paths of the gradient.** If `jax.grad` returns a State with the paths of its argument, the gradient has exactly
the paths of the selected entries. -/
theorem C51_gradient_paths {w wd : World α} (wf : WFWorld w) {l : Loc} (hl : l < w.heap.length) (hv : AllValid w l)
    {f : Prog α (L × β)} (hf : f.Good) {wrt : Filter α} (hwrt : wrt.WellFormed) {loss : L} {aux : β}
    (hd : f.call l w = (wd, .ok (loss, aux))) (hn : NodeWrites w wd l)
    {gradOf : (State (PyVal α) → Option L) → State (PyVal α) → State (PyVal α)}
    (hkeys : ∀ F x k, ((gradOf F x).get k).isSome = (x.get k).isSome) (stateful : Bool) (j t : Nat) :
    ∃ s limit, getState (w.heap.length + 1) w.heap l = some s ∧ ∀ fuel, limit < fuel → ∃ wj g,
      gradCall fuel stateful j t wrt gradOf l f.call w = (wj, .ok (g, aux)) ∧
      ∀ k, (∃ v, g.get k = some v) ↔ ∃ v, s.get k = some v ∧ wrt.Matches k v := by
  obtain ⟨s, d, hpart⟩ := partition_budget wf hl
  obtain ⟨_, hdef, hs⟩ := hpart _ (Nat.lt_succ_self _)
  obtain ⟨p, diff, nondiff, hp, hsp, hc1, hc2, h1, h2⟩ := grad_partition (getState_obtainable hs) hwrt
  obtain ⟨w3, hr, pr, hj, hst⟩ := run_copy wf hl hv hf.parametric hdef hs (partition_pieces (getState_obtainable hs) hsp) j (some t)
  obtain ⟨w4, hag, hsg, e1, e2, _, hb⟩ := copy_back wf hl hv hf.parametric pr hj hst hd hn
  refine ⟨s, w3.heap.length, hs, ?_⟩
  intro fuel hfuel
  have hlt : w.heap.length < fuel := Nat.lt_of_le_of_lt pr.len hfuel
  obtain ⟨_, hd', hs'⟩ := hpart fuel hlt
  have hp1 : partitionModule fuel w.heap l [.pred p, .ellipsis] = .ok ([diff, nondiff], d) := by
    simp only [partitionModule, hd', hs', hsp]
  obtain ⟨hw, _⟩ := hb fuel hfuel
  rw [hd] at hr
  have hk : ∀ k, (∃ v, (gradOf (lossAt j t d nondiff f.call w) diff).get k = some v) ↔ ∃ v, s.get k = some v ∧ wrt.Matches k v := by
    intro k
    have := hkeys (lossAt j t d nondiff f.call w) diff k
    rw [← Option.isSome_iff_exists, this, Option.isSome_iff_exists]
    exact exists_congr fun v => h1 k v
  cases stateful with
  | true => exact ⟨w4, _, by simp only [gradCall, hp, hp1, hr, Except.map, if_true, hw], hk⟩
  | false => exact ⟨w3, _, by simp only [gradCall, hp, hp1, hr, Except.map, Bool.false_eq_true, if_false], hk⟩

/-! ### An example -/

/-- Returns the content of the root's Param as loss, counts in the statistics of the block, and returns a flag. -/
def exLoss : Prog Nat (Nat × Bool) :=
  .get 0 (py! "a") fun _ =>
  .get 0 (py! "w") fun x =>
  .set 1 (py! "s") (.data cArray 9) fun _ =>
  match x with
  | some (.value (.cont _ (.data _ n) _)) => .ret (n, true)
  | _ => .ret (0, false)

theorem exLoss_good : exLoss.Good := by
  intro _ _ x _
  refine ⟨⟨by unfold NoSlash; decide, by decide⟩, .inl trivial, fun _ => ?_⟩
  split <;> trivial

/-- A stand-in for `jax.grad`: every entry of the result is the value of the function. -/
def exGrad (F : State (PyVal Nat) → Option Nat) (x : State (PyVal Nat)) : State (PyVal Nat) :=
  .new (x.items.map fun kv => (kv.1, .data cArray ((F x).getD 0)))

/-- The hypotheses of C51 hold for this function (the direct call is a node write). -/
example : ∃ wd, exLoss.call 0 exWorld = (wd, .ok (1, true)) ∧ NodeWrites exWorld wd 0 :=
  ⟨_, rfl, nodeWrites_of_check (by decide) (by decide)⟩

open Classical in
/-- A `gradOf` that uses its function and satisfies the law. -/
example : ∃ gradOf : (State (PyVal Nat) → Option Nat) → State (PyVal Nat) → State (PyVal Nat),
    (∀ F G x, (∀ y, LikeState x y → F y = G y) → gradOf F x = gradOf G x) ∧
    (∀ F x, LikeState x x → gradOf F x = exGrad F x) := by
  refine ⟨fun F x => if LikeState x x then exGrad F x else x, ?_, ?_⟩
  · intro F G x h
    by_cases hx : LikeState x x
    · simp only [if_pos hx, exGrad, h x hx]
    · simp only [if_neg hx]
  · intro F x hx
    simp only [if_pos hx]

/-- The gradient has an entry for each Param, the statistics of the block are written back. -/
example : ∃ wj, gradCall 6 true 5 6 (.ofType cParam) exGrad 0 exLoss.call exWorld =
      (wj, .ok (.new [(py! "a/w", .data cArray 1), (py! "w", .data cArray 1)], true)) ∧
    observe wj.heap 0 [py! "b", py! "s"] = some (.value (exStat 9)) := ⟨_, rfl, by decide⟩

/-- The function that is differentiated depends on the State it is given. -/
example : directLoss exLoss.call 6 0 exWorld (.new [(py! "w", exParam 7)]) = some 7 := rfl

end Nnx
