import Mathlib.Logic.Function.Iterate
import Verif.Spec.Helpers
import Verif.Props.PytreeReplace
/-
C68: `TrainState.apply_gradients`.
-/
namespace Nnx
variable {α : Type} [DecidableEq α]

omit [DecidableEq α] in
theorem pyGetattr_reads {vars : Md α} {k : Str} {v : PyVal α} (h : Reads vars k v) : pyGetattr vars k = .ok v := by
  obtain ⟨x, hx, rfl⟩ := h
  rw [pyGetattr, hx]
  cases x <;> rfl

omit [DecidableEq α] in
theorem stored_plain {y v x : PyVal α} (hs : Stored (some y) v x) (hv : v.Plain) : x.valueOf = v ∧ boxOf x = boxOf y := by
  cases hs with
  | new h =>
    refine ⟨by cases v <;> simp_all [PyVal.valueOf, PyVal.Plain], ?_⟩
    cases y with
    | cont c w m => exact absurd rfl (h c w m)
    | _ => cases v <;> simp_all [boxOf, PyVal.Plain]
  | keep h => exact ⟨rfl, rfl⟩
  | unwrap h => cases hv

/-- **C68**, one step. `state.apply_gradients(grads, **kwargs)` asks the optimiser once, for the current parameters and
optimiser state. If the optimiser succeeds and `kwargs` names only other existing fields, with ordinary values, the
result is a new TrainState whose `params`, `opt_state` and `step` are the updated ones, in the same containers as
before; the fields in `kwargs` have the given values; every other field is what it was; and every object that existed,
this state included, is what it was. -/
theorem C68_step {O : OptaxOps α} (hO : O.Plain) {env : PEnv α} {l : Nat} {h : PHeap α} {c : Cls} {vars kwargs : Md α}
    {tx p o s g u o' : PyVal α} (hl : h[l]? = some (c, vars)) (hw : WFPytree vars) (hd : (env c).dataclass = none)
    (htx : Reads vars (py! "tx") tx) (hp : Reads vars (py! "params") p) (ho : Reads vars (py! "opt_state") o)
    (hs : Reads vars (py! "step") s) (hup : O.update tx g o p = .ok (u, o'))
    (hnk : DNodup kwargs) (hgk : ∀ k v, dget kwargs k = some v → v.Plain)
    (hin : ∀ k ∈ dkeys kwargs, k ∈ dkeys vars ∧ k ≠ kSorted ∧ k ∉ trainFields) :
    ∃ vars', applyGradients O env l g kwargs h = (h ++ [(c, vars')], .ok h.length) ∧ WFPytree vars' ∧
      Reads vars' (py! "params") (O.applyUpdates p u) ∧ Reads vars' (py! "opt_state") o' ∧
      Reads vars' (py! "step") (O.succ s) ∧
      (∀ k v, dget kwargs k = some v → Reads vars' k v) ∧
      (∀ k, k ∉ trainFields → k ∉ dkeys kwargs → dget vars' k = dget vars k) ∧
      (∀ k, (dget vars' k).map boxOf = (dget vars k).map boxOf) := by
  have hno : (dhas kwargs (py! "params") || dhas kwargs (py! "opt_state") || dhas kwargs (py! "step")) = false := by
    have : ∀ k ∈ trainFields, dhas kwargs k = false := by
      intro k hk
      rw [dhas_false]
      intro hk'
      exact (hin k hk').2.2 hk
    rw [this _ (by decide), this _ (by decide), this _ (by decide)]; rfl
  have hcall : applyGradients O env l g kwargs h = hReplace env l ([(py! "params", O.applyUpdates p u),
      (py! "opt_state", o'), (py! "step", O.succ s)] ++ kwargs) h := by
    unfold applyGradients
    rw [hl]
    simp only [pyGetattr_reads htx, pyGetattr_reads hp, pyGetattr_reads ho, pyGetattr_reads hs, hup, hno,
      Bool.false_eq_true, if_false]
  rw [hcall]
  generalize hkw : [(py! "params", O.applyUpdates p u), (py! "opt_state", o'), (py! "step", O.succ s)] ++ kwargs = kw
  have hge : ∀ k, dget kw k = if py! "params" = k then some (O.applyUpdates p u) else
      if py! "opt_state" = k then some o' else if py! "step" = k then some (O.succ s) else dget kwargs k := by
    intro k; rw [← hkw]; rfl
  have hkk : dkeys kw = trainFields ++ dkeys kwargs := by rw [← hkw]; rfl
  have hplain : ∀ k v, dget kw k = some v → v.Plain := by
    intro k v hk
    rw [hge] at hk
    split at hk
    · cases hk; exact hO.applyUpdates _ _
    split at hk
    · cases hk; exact hO.update _ _ _ _ _ _ hup
    split at hk
    · cases hk; exact hO.succ _
    · exact hgk _ _ hk
  have hinv : ∀ k ∈ dkeys kw, k ∈ dkeys vars ∧ k ≠ kSorted := by
    intro k hk
    rw [hkk, List.mem_append] at hk
    rcases hk with hk | hk
    · simp only [trainFields, List.mem_cons, List.not_mem_nil, or_false] at hk
      have : ∀ {k v}, Reads vars k v → k ∈ dkeys vars := by
        rintro k v ⟨x, hx, _⟩
        exact dget_isSome.1 (by rw [hx]; rfl)
      rcases hk with rfl | rfl | rfl
      · exact ⟨this hp, by decide⟩
      · exact ⟨this ho, by decide⟩
      · exact ⟨this hs, by decide⟩
    · exact ⟨(hin k hk).1, (hin k hk).2.1⟩
  have hnd : DNodup kw := by
    rw [DNodup, hkk, List.nodup_append]
    refine ⟨by decide, hnk, ?_⟩
    rintro a ha b hb rfl
    exact (hin _ hb).2.2 ha
  rcases C42_replace hl hw hd hnd (fun k v hk => .inl (hplain k v hk)) hinv with ⟨vars', e, hw', hr⟩ | ⟨h', k, v, _, hk, href⟩
  · have hread : ∀ k v, dget kw k = some v → Reads vars' k v ∧ (dget vars' k).map boxOf = (dget vars k).map boxOf := by
      intro k v hk
      have := hr k
      unfold ReplacedAt at this
      rw [hk] at this
      obtain ⟨x, hx, hx'⟩ := this
      obtain ⟨y, hy⟩ := Option.isSome_iff_exists.1 (dget_isSome.2 (hinv k (dget_isSome.1 (by rw [hk]; rfl))).1)
      rw [hy] at hx
      obtain ⟨h1, h2⟩ := stored_plain hx (hplain k v hk)
      refine ⟨⟨x, hx', h1⟩, ?_⟩
      rw [hx', hy, Option.map_some, Option.map_some, h2]
    refine ⟨vars', e, hw', ?_, ?_, ?_, ?_, ?_, ?_⟩
    · exact (hread _ _ (by rw [hge]; rfl)).1
    · exact (hread _ _ (by rw [hge]; rfl)).1
    · exact (hread _ _ (by rw [hge]; rfl)).1
    · intro k v hk
      have hm : k ∉ trainFields := (hin k (dget_isSome.1 (by rw [hk]; rfl))).2.2
      refine (hread k v ?_).1
      simp only [trainFields, List.mem_cons, List.not_mem_nil, or_false, not_or] at hm
      rw [hge, if_neg (Ne.symm hm.1), if_neg (Ne.symm hm.2.1), if_neg (Ne.symm hm.2.2)]
      exact hk
    · intro k hk1 hk2
      have := hr k
      unfold ReplacedAt at this
      rw [show dget kw k = none by rw [dget_eq_none, hkk, List.mem_append]; exact fun h => h.elim hk1 hk2] at this
      exact this
    · intro k
      cases hk : dget kw k with
      | some v => exact (hread k v hk).2
      | none =>
        have := hr k
        unfold ReplacedAt at this
        rw [hk] at this
        simp only at this
        rw [this]
  · obtain ⟨c1, w1, m1, d1, u1, n1, _, rfl, _⟩ := href
    exact absurd (hplain _ _ hk) (by simp [PyVal.Plain])

/-- **C68**, refused keyword arguments: naming one of the three fields in `kwargs` is a TypeError, and changes nothing. -/
theorem C68_clash {O : OptaxOps α} {env : PEnv α} {l : Nat} {h : PHeap α} {c : Cls} {vars kwargs : Md α}
    {tx p o s g u o' : PyVal α} (hl : h[l]? = some (c, vars))
    (htx : Reads vars (py! "tx") tx) (hp : Reads vars (py! "params") p) (ho : Reads vars (py! "opt_state") o)
    (hs : Reads vars (py! "step") s) (hup : O.update tx g o p = .ok (u, o'))
    {k : Str} (hk : k ∈ dkeys kwargs) (ht : k ∈ trainFields) :
    applyGradients O env l g kwargs h = (h, .error .typeError) := by
  have hno : (dhas kwargs (py! "params") || dhas kwargs (py! "opt_state") || dhas kwargs (py! "step")) = true := by
    have := dhas_iff.2 hk
    simp only [trainFields, List.mem_cons, List.not_mem_nil, or_false] at ht
    rcases ht with rfl | rfl | rfl <;> rw [this] <;> simp
  unfold applyGradients
  rw [hl]
  simp only [pyGetattr_reads htx, pyGetattr_reads hp, pyGetattr_reads ho, pyGetattr_reads hs, hup, hno, if_true]

/-- **C68**, the optimiser's exception is passed on and nothing changes. -/
theorem C68_optimiser_error {O : OptaxOps α} {env : PEnv α} {l : Nat} {h : PHeap α} {c : Cls} {vars kwargs : Md α}
    {tx p o g : PyVal α} {e : Err} (hl : h[l]? = some (c, vars))
    (htx : Reads vars (py! "tx") tx) (hp : Reads vars (py! "params") p) (ho : Reads vars (py! "opt_state") o)
    (hup : O.update tx g o p = .error e) : applyGradients O env l g kwargs h = (h, .error e) := by
  unfold applyGradients
  rw [hl]
  simp only [pyGetattr_reads htx, pyGetattr_reads hp, pyGetattr_reads ho, hup]

/-- **C68**. For every optimiser, every TrainState and every sequence of gradients for which the optimiser raises no
exception: the successive `apply_gradients` succeed; `params`, `opt_state` and `step` of the result are the optimiser's
iteration, the step counter being incremented once per gradient; every other field, and the containers of all fields,
are what they were; and every object that existed before is what it was. -/
theorem C68_history {O : OptaxOps α} (hO : O.Plain) {env : PEnv α} {c : Cls} (hd : (env c).dataclass = none)
    {tx : PyVal α} : ∀ {gs : List (PyVal α)} {p o s p' o' s' : PyVal α} {l : Nat} {h : PHeap α} {vars : Md α},
    h[l]? = some (c, vars) → WFPytree vars → Reads vars (py! "tx") tx → Reads vars (py! "params") p →
    Reads vars (py! "opt_state") o → Reads vars (py! "step") s → Trained O tx gs (p, o, s) (p', o', s') →
    ∃ h' l' vars', applyAll O env gs l h = (h', .ok l') ∧ h'[l']? = some (c, vars') ∧ WFPytree vars' ∧
      Reads vars' (py! "params") p' ∧ Reads vars' (py! "opt_state") o' ∧ Reads vars' (py! "step") s' ∧
      s' = O.succ^[gs.length] s ∧
      (∀ k, k ∉ trainFields → dget vars' k = dget vars k) ∧
      (∀ k, (dget vars' k).map boxOf = (dget vars k).map boxOf) ∧
      (∀ i, i < h.length → h'[i]? = h[i]?) ∧ (gs ≠ [] → h[l']? = none)
  | [], p, o, s, p', o', s', l, h, vars, hl, hw, _, hp, ho, hs, ht => by
    cases ht
    exact ⟨h, l, vars, rfl, hl, hw, hp, ho, hs, rfl, fun _ _ => rfl, fun _ => rfl, fun _ _ => rfl, fun h => absurd rfl h⟩
  | g :: gs, p, o, s, p', o', s', l, h, vars, hl, hw, htx, hp, ho, hs, ht => by
    cases ht with
    | @step _ _ _ _ _ u o1 _ hup ht =>
      obtain ⟨vars1, e1, hw1, hp1, ho1, hs1, _, hk1, hb1⟩ := C68_step hO (g := g) (kwargs := []) hl hw hd htx hp ho hs hup
        (by simp [DNodup, dkeys]) (by intro k v h; cases h) (by intro k h; cases h)
      have htx1 : Reads vars1 (py! "tx") tx := by
        obtain ⟨x, hx, hx'⟩ := htx
        exact ⟨x, by rw [hk1 _ (by decide) (by simp [dkeys])]; exact hx, hx'⟩
      have hl1 : (h ++ [(c, vars1)])[h.length]? = some (c, vars1) := by simp
      obtain ⟨h', l', vars', e, hl', hw', hp', ho', hs', hit, hk, hb, hold, hnew⟩ :=
        C68_history hO hd hl1 hw1 htx1 hp1 ho1 hs1 ht
      refine ⟨h', l', vars', ?_, hl', hw', hp', ho', hs', ?_, ?_, ?_, ?_, ?_⟩
      · rw [applyAll, e1]; exact e
      · rw [hit, List.length_cons, Function.iterate_succ_apply]
      · intro k hk'
        rw [hk k hk', hk1 k hk' (by simp [dkeys])]
      · intro k; rw [hb k, hb1 k]
      · intro i hi
        rw [hold i (by simp; omega), List.getElem?_append_left hi]
      · intro _
        by_cases hgs : gs = []
        · subst hgs
          simp only [applyAll, Prod.mk.injEq, Except.ok.injEq] at e
          rw [← e.2]; simp
        · have := hnew hgs
          rw [List.getElem?_eq_none_iff] at this ⊢
          simp only [List.length_append, List.length_cons, List.length_nil] at this
          omega

/-- **C68**, the start: `TrainState(moduledef, params=params, tx=tx, step=step, **kwargs)` is an object the theorems above
speak about, with `opt_state = tx.init(params)`. -/
theorem C68_start {O : OptaxOps α} {i : PInfo α} (hi : i.dataclass = none) {moduledef params tx step : PyVal α} {kwargs : Md α}
    (hm : moduledef.Plain) (ht : tx.Plain) (hp : params.Plain) (hin : (O.init tx params).Plain) (hst : step.Plain)
    (hn : DNodup kwargs) (hg : ∀ k v, (k, v) ∈ kwargs → GoodField v)
    (hr : ∀ k ∈ dkeys kwargs, ¬ReservedPy k ∧ k ∉ [py! "moduledef", py! "params", py! "tx", py! "opt_state", py! "step"]) :
    ∃ vars, callVars i (trainStateSteps O moduledef params tx step kwargs) = .ok vars ∧ WFPytree vars ∧
      Reads vars (py! "moduledef") moduledef ∧ Reads vars (py! "tx") tx ∧ Reads vars (py! "params") params ∧
      Reads vars (py! "opt_state") (O.init tx params) ∧ Reads vars (py! "step") step ∧
      (∀ k v, dget kwargs k = some v → dget vars k = some v) := by
  generalize hsteps : trainStateSteps O moduledef params tx step kwargs = steps
  have hkeys : dkeys steps = [py! "moduledef", py! "params", py! "tx", py! "opt_state", py! "step"] ++ dkeys kwargs := by
    rw [← hsteps]; rfl
  have hnd : (steps.map (·.1)).Nodup := by
    show (dkeys steps).Nodup
    rw [hkeys, List.nodup_append]
    refine ⟨by decide, hn, ?_⟩
    rintro a ha b hb rfl
    exact (hr _ hb).2 ha
  have hres : ∀ k ∈ dkeys steps, ¬ReservedPy k := by
    intro k hk
    rw [hkeys, List.mem_append] at hk
    rcases hk with hk | hk
    · simp only [List.mem_cons, List.not_mem_nil, or_false] at hk
      rcases hk with rfl | rfl | rfl | rfl | rfl <;> (unfold ReservedPy; decide)
    · exact (hr k hk).1
  have htn : ∀ v : PyVal α, v.Plain → GoodField (treeNode v) := fun v hv =>
    .inr (.mk hv (by simp [DNodup, dkeys]) (by simp [dkeys]) (fun h => rfl) (fun _ h => absurd h (by decide)))
  have hgood : ∀ s ∈ steps, GoodField s.2 := by
    intro s hs
    rw [← hsteps, trainStateSteps, List.mem_append] at hs
    rcases hs with hs | hs
    · simp only [List.mem_cons, List.not_mem_nil, or_false] at hs
      rcases hs with rfl | rfl | rfl | rfl | rfl
      · exact .inl hm
      · exact htn _ hp
      · exact .inl ht
      · exact htn _ hin
      · exact htn _ hst
    · exact hg s.1 s.2 hs
  obtain ⟨h0n, h0k, _⟩ := init0_facts (α := α)
  have hok : ∃ vars, callVars i steps = .ok vars ∧ ∀ k v, dget steps k = some v → dget vars k = some v := by
    unfold callVars
    generalize (dset (dset [(kSorted, .tup [.str kSorted])] kMutable .none) kInit .none : Md α) = v0 at h0n h0k
    have hdisj : ∀ k ∈ dkeys steps, k ∉ dkeys v0 := fun k hk hk' => hres k hk ((h0k k).1 hk')
    rw [runInit_fresh ((h0k _).2 (.inr (.inr rfl))) hnd hdisj hgood]
    simp only [hi, Option.elim_none, wrapFields]
    refine ⟨_, rfl, ?_⟩
    intro k v hk
    have hkm : k ∈ dkeys steps := dget_isSome.1 (by rw [hk]; rfl)
    have hk3 := hres k hkm
    unfold ReservedPy at hk3
    simp only [not_or] at hk3
    have hnd1 : DNodup (v0 ++ steps) := by
      unfold DNodup dkeys
      rw [List.map_append, List.nodup_append]
      refine ⟨h0n, hnd, ?_⟩
      rintro a ha b hb rfl
      exact hdisj _ hb ha
    rw [dget_dset_ne _ _ (Ne.symm hk3.1), dget_ddel (dnodup_ddel hnd1 _), dget_ddel hnd1]
    simp only [Ne.symm hk3.2.1, Ne.symm hk3.2.2, if_false]
    apply mem_dget hnd1
    rw [List.mem_append]
    exact .inr (dget_mem hk)
  obtain ⟨vars, e, hget⟩ := hok
  have hv : ∀ v : PyVal α, v.Plain → v.valueOf = v := by
    intro v hv; cases v <;> simp_all [PyVal.valueOf, PyVal.Plain]
  refine ⟨vars, e, callVars_wf hgood e, ⟨_, hget _ moduledef (by rw [← hsteps]; rfl), hv _ hm⟩,
    ⟨_, hget _ tx (by rw [← hsteps]; rfl), hv _ ht⟩, ⟨_, hget _ (treeNode params) (by rw [← hsteps]; rfl), rfl⟩,
    ⟨_, hget _ (treeNode (O.init tx params)) (by rw [← hsteps]; rfl), rfl⟩,
    ⟨_, hget _ (treeNode step) (by rw [← hsteps]; rfl), rfl⟩, ?_⟩
  intro k v hk
  apply hget
  have hm := dget_mem hk
  apply mem_dget hnd
  rw [← hsteps, trainStateSteps, List.mem_append]
  exact .inr hm

/-- Gradient descent with a step count as optimiser state, over integers. -/
def exOptax : OptaxOps Int where
  init _ _ := .data cInt 0
  update _ g o _ := match g, o with
    | .data _ g, .data _ o => .ok (.data cInt (-g), .data cInt (o + 1))
    | _, _ => .error .typeError
  applyUpdates p u := match p, u with
    | .data _ p, .data _ u => .data cInt (p + u)
    | _, _ => .none
  succ s := match s with
    | .data _ s => .data cInt (s + 1)
    | _ => .none

def exTrainEnv : PEnv Int := fun _ => ⟨false, none⟩

/-- The hypotheses hold of it. -/
example : exOptax.Plain := by
  constructor
  · intro tx g o p u o' h
    simp only [exOptax] at h
    split at h
    · cases h; trivial
    · cases h
  · intro p u; simp only [exOptax]; split <;> trivial
  · intro s; simp only [exOptax]; split <;> trivial

/-- Three steps from parameter 10, and the earlier states are still there. -/
example : ∃ vars, callVars (exTrainEnv cTrainState) (trainStateSteps exOptax (.data cInt 1) (.data cInt 10) (.data cInt 2) (.data cInt 0)
      [(py! "extra", .data cInt 7)]) = .ok vars ∧
    (applyAll exOptax exTrainEnv [.data cInt 1, .data cInt 2, .data cInt 3] 0 [(cTrainState, vars)]).2.toOption = some 3 ∧
    ((applyAll exOptax exTrainEnv [.data cInt 1, .data cInt 2, .data cInt 3] 0 [(cTrainState, vars)]).1.map fun cv =>
      (dget cv.2 (py! "params"), dget cv.2 (py! "step"), dget cv.2 (py! "extra"))) =
    [(some (treeNode (.data cInt 10)), some (treeNode (.data cInt 0)), some (.data cInt 7)),
     (some (treeNode (.data cInt 9)), some (treeNode (.data cInt 1)), some (.data cInt 7)),
     (some (treeNode (.data cInt 7)), some (treeNode (.data cInt 2)), some (.data cInt 7)),
     (some (treeNode (.data cInt 4)), some (treeNode (.data cInt 3)), some (.data cInt 7))] := by
  refine ⟨_, rfl, by decide +kernel, by decide +kernel⟩

end Nnx
