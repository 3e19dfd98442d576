import Verif.Spec.Functional
import Verif.Props.TrainStep
/-
The functional API on the pieces of a Module.
-/
namespace Nnx
variable {α κ L β γ : Type} [DecidableEq α] {J : Jax α κ L}

/-- `moduledef.apply(*states)` with the pieces of a Module, in any world: what a call on the Module returns, and the state and the ModuleDef that it leaves. -/
theorem apply_copy {w u : World α} (wf : WFWorld w) (wfu : WFWorld u) {l : Loc} (hl : l < w.heap.length) (hv : AllValid w l)
    {R P : Loc → World α → World α × Except Err γ} (hP : Parametric P) (hsim : FollowsAt w l R P) {f1 f2 : Nat} {d : ModuleDef α}
    (hd : getModuleDef f1 w.heap l = some d)
    {s : State (PyVal α)} (hs : getState f2 w.heap l = some s) {ss : List (State (PyVal α))} (hpc : Pieces s ss) (j : Nat) :
    (∀ e, (P l w).2 = .error e → (unlimited (fun fuel => insideTrace j none (applyDef fuel d ss R)) u).2 = .error e) ∧
    ∀ b, (P l w).2 = .ok b → ∃ s' d', (unlimited (fun fuel => insideTrace j none (applyDef fuel d ss R)) u).2 = .ok (b, s', d') ∧
      getState ((P l w).1.heap.length + 1) (P l w).1.heap l = some s' ∧ getModuleDef ((P l w).1.heap.length + 1) (P l w).1.heap l = some d' := by
  obtain ⟨u3, hr, _, _, _, _, _, _, _, hcopy⟩ := sim_copy wf wfu hl hv hP hsim hd hs hpc j none
  simp only [insideTrace, mergeAndRun] at hr
  cases hm : mergeDef d ss { u with jaxTrace := j, nnxStack := u.nnxStack ++ (none : Option Nat).toList } with
  | mk u1 r1 =>
    simp only [hm] at hr
    cases r1 with
    | error e =>
      cases hq : (P l w).2 with
      | ok b =>
        rw [hq] at hr
        injection hr with _ h
        cases h
      | error e' =>
        rw [hq] at hr
        injection hr with _ h
        cases h
        refine ⟨fun e' h => ?_, fun b h => by cases h⟩
        cases h
        simp only [unlimited, insideTrace, applyDef, hm]
    | ok l' =>
      simp only at hr
      cases hR : R l' u1 with
      | mk u2 r2 =>
        simp only [hR] at hr
        cases r2 with
        | error e =>
          cases hq : (P l w).2 with
          | ok b =>
            rw [hq] at hr
            injection hr with _ h
            cases h
          | error e' =>
            rw [hq] at hr
            injection hr with _ h
            cases h
            refine ⟨fun e' h => ?_, fun b h => by cases h⟩
            cases h
            simp only [unlimited, insideTrace, applyDef, hm, hR]
        | ok out =>
          cases hq : (P l w).2 with
          | error e =>
            rw [hq] at hr
            injection hr with _ h
            cases h
          | ok b =>
            rw [hq] at hr
            injection hr with hu h
            simp only [Except.map, Except.ok.injEq, Prod.mk.injEq] at h
            obtain ⟨rfl, rfl⟩ := h
            refine ⟨fun e h => by (cases h), fun b h => ?_⟩
            cases h
            have pr := hcopy _ hq
            have hheap : u3.heap = u2.heap := by rw [← hu]
            have hlen : ∀ fuel, (insideTrace j none (applyDef fuel d ss R) u).1.heap.length = u2.heap.length := by
              intro fuel
              simp only [insideTrace, applyDef, hm, hR]
              split <;> rfl
            obtain ⟨s', d', h1, h2, h3, h4⟩ := pr.part ((P l w).1.heap.length + 1) (u2.heap.length + 1) (Nat.lt_succ_self _)
              (by rw [hheap]; exact Nat.lt_succ_self _)
            refine ⟨s', d', ?_, h3, ?_⟩
            · simp only [unlimited, hlen]
              rw [hheap] at h2
              simp only [insideTrace, applyDef, hm, hR, h2]
            · simp only [partitionModule] at h1
              split at h1
              · next he _ => cases h1; exact he
              · cases h1

omit [DecidableEq α] in
/-- What `partition(wrt, ...)` gives: the entries that match `wrt`, and the others. -/
theorem rest_partition {s : State (PyVal α)} (hob : Obtainable s) {wrt : Filter α} (hw : wrt.WellFormed) (hne : wrt ≠ .ellipsis) :
    ∃ diff nondiff, s.partition [wrt, .ellipsis] = .ok [diff, nondiff] ∧ diff.Canonical ∧ nondiff.Canonical ∧
      (∀ k v, diff.get k = some v ↔ s.get k = some v ∧ wrt.Matches k v) ∧
      (∀ k v, nondiff.get k = some v ↔ s.get k = some v ∧ ¬ wrt.Matches k v) := by
  have hwf : ∀ f ∈ [wrt, Filter.ellipsis], f.WellFormed := by
    intro f hf
    simp only [List.mem_cons, List.not_mem_nil, or_false] at hf
    rcases hf with rfl | rfl
    · exact hw
    · trivial
  have hme : ¬ MisplacedEllipsis [wrt, Filter.ellipsis] := by
    rintro ⟨i, hi, h⟩
    have : i = 0 := by simp at hi; omega
    subst this
    simp at h
    exact hne h
  obtain ⟨h1, h2, h3⟩ := C02_partition_fails_iff hob hwf hme
  cases hpart : s.partition [wrt, .ellipsis] with
  | error e =>
    have := h2 e hpart
    subst this
    obtain ⟨k, v, _, hno⟩ := h1.1 hpart
    exact absurd trivial (hno .ellipsis (by simp))
  | ok ss =>
    have hl := h3 ss hpart
    match ss, hl with
    | [diff, nondiff], _ =>
      obtain ⟨_, hfm⟩ := C01_partition_first_match hob hpart
      refine ⟨diff, nondiff, rfl, (Obtainable.partition hob hpart (by simp)).canonical,
        (Obtainable.partition hob hpart (by simp)).canonical, ?_, ?_⟩
      · intro k v
        rw [hfm 0 diff rfl k v]
        refine and_congr_right fun _ => ?_
        constructor
        · rintro ⟨⟨f, hf, hmm⟩, _⟩
          simp only [List.getElem?_cons_zero, Option.some.injEq] at hf
          subst hf
          exact hmm
        · intro hmm
          exact ⟨⟨_, rfl, hmm⟩, fun j hj => absurd hj (Nat.not_lt_zero _)⟩
      · intro k v
        rw [hfm 1 nondiff rfl k v]
        refine and_congr_right fun _ => ?_
        constructor
        · rintro ⟨_, hno⟩ hmm
          exact hno 0 Nat.zero_lt_one _ rfl hmm
        · intro hmm
          refine ⟨⟨_, rfl, trivial⟩, ?_⟩
          intro j hj g hg
          have : j = 0 := by simpa using hj
          subst this
          simp only [List.getElem?_cons_zero, Option.some.injEq] at hg
          subst hg
          exact hmm

/-- The loss function of the functional API on the pieces of a Module. -/
theorem functionalLoss_eq (hlaw : GradLaw J.gradOf) {w u : World α} (wf : WFWorld w) (wfu : WFWorld u) {l : Loc} (hl : l < w.heap.length) (hv : AllValid w l)
    {f : Routine α κ L β} (hf : f.Good) (hc : f.Carried J [l] w) {other : Filter α} (ho : other.WellFormed) {f1 f2 : Nat} {d : ModuleDef α}
    (hd : getModuleDef f1 w.heap l = some d) {s : State (PyVal α)} (hs : getState f2 w.heap l = some s) {p r : State (PyVal α)} (hpc : Pieces s [p, r])
    (j : Nat) {wd : World α} {x : Except Err β} (hx : f.plain J [l] w = (wd, x)) :
    functionalLoss J j other f d r u p = x.map fun b => (b, selected other l wd) := by
  have P := hf.parametric hlaw
  have hfol := followsAt hlaw hf (Routine.run_follows hlaw f hf) wf hl hc
  obtain ⟨h1, h2⟩ := apply_copy wf wfu hl hv P hfol hd hs hpc j
  simp only [hx] at h1 h2
  cases x with
  | error e => simp only [functionalLoss, h1 e rfl, Except.map]
  | ok b =>
    obtain ⟨s', d', h3, h4, h5⟩ := h2 b rfl
    simp only [functionalLoss, h3, filter_selected (l := l) ho h4, Except.map]

omit [DecidableEq α] in
/-- A map that keeps the types of the leaves keeps the type. -/
theorem Mapped.cls {R : List TreeKey → PyVal α → PyVal α → Prop} {v v' : PyVal α} (h : Mapped R v v') (hR : ∀ q x y, R q x y → y.cls = x.cls) :
    v'.cls = v.cls := by
  cases h with
  | leaf _ r => exact hR _ _ _ r
  | _ => rfl

/-- The parameters that the training step leaves. -/
theorem updated_selected {wd wt : World α} (wfd : WFWorld wd) (wft : WFWorld wt) {l : Loc} (hld : l < wd.heap.length) (hlt : l < wt.heap.length)
    {wrt other : Filter α} (hw : wrt.WellFormed) (ho : other.WellFormed) (hty : SeesTypes wrt) {step : List (PyVal α) → Except Err (PyVal α)} (hkt : KeepsType step)
    {g sd st p : State (PyVal α)} (hsd : getState (wd.heap.length + 1) wd.heap l = some sd) (hst : getState (wt.heap.length + 1) wt.heap l = some st)
    (hrest : ∀ k v, sd.get k = some v → (other.Matches k v ↔ ¬ wrt.Matches k v)) (hup : Updated wrt step g sd st)
    (hlike : LikeState (selected wrt l wd) p) (hget : ∀ k, st.get k = (p.get k).or (sd.get k)) :
    selected wrt l wt = p ∧ (selected other l wd).Canonical ∧
      ∀ k v, (selected other l wd).get k = some v ↔ st.get k = some v ∧ ¬ wrt.Matches k v := by
  obtain ⟨_, s1, _, _, _, hpart, hpc, _, e1, _⟩ := selected_spec wfd hld hw
  have hs1 := (hpart _ (Nat.lt_succ_self _)).2.1
  rw [hsd] at hs1
  cases hs1
  obtain ⟨_, s2, _, _, _, hpart', hpc', _, e1', _⟩ := selected_spec wft hlt hw
  have hs2 := (hpart' _ (Nat.lt_succ_self _)).2.1
  rw [hst] at hs2
  cases hs2
  obtain ⟨_, s3, _, _, _, hpart3, hpc3, _, e3, _⟩ := selected_spec wfd hld ho
  have hs3 := (hpart3 _ (Nat.lt_succ_self _)).2.1
  rw [hsd] at hs3
  cases hs3
  -- the entries of `p` are those of `st` that match
  have hkey : ∀ k, (p.get k).isSome = true ↔ ∃ v, sd.get k = some v ∧ wrt.Matches k v := by
    intro k
    rw [hlike.2.1 k, Option.isSome_iff_exists]
    exact ⟨fun ⟨v, h⟩ => ⟨v, (e1 k v).1 h⟩, fun ⟨v, h⟩ => ⟨v, (e1 k v).2 h⟩⟩
  have hm : ∀ k v v', sd.get k = some v → wrt.Matches k v → st.get k = some v' → wrt.Matches k v' := by
    intro k v v' h1 h2 h3
    obtain ⟨u, v'', _, h4, h5⟩ := hup.params k v h1 h2
    rw [h3] at h4
    cases h4
    refine (hty k v v' (h5.cls ?_).symm).1 h2
    rintro q x y ⟨zs, _, hy⟩
    exact hkt _ _ _ hy
  refine ⟨State.Canonical.ext (hpc'.1 _ (by simp)) hlike.1 fun k => Option.ext fun v => ?_, hpc3.1 _ (by simp), fun k v => ?_⟩
  · rw [e1']
    constructor
    · rintro ⟨h1, h2⟩
      cases hp : p.get k with
      | some v' =>
        rw [hget, hp] at h1
        exact h1
      | none =>
        rw [hget, hp] at h1
        have h1 : sd.get k = some v := h1
        have := (hkey k).2 ⟨v, h1, h2⟩
        rw [hp] at this
        cases this
    · intro hp
      have hst' : st.get k = some v := by rw [hget, hp]; rfl
      obtain ⟨v0, h1, h2⟩ := (hkey k).1 (by rw [hp]; rfl)
      exact ⟨hst', hm k v0 v h1 h2 hst'⟩
  · rw [e3]
    constructor
    · rintro ⟨h1, h2⟩
      have h3 := (hrest k v h1).1 h2
      exact ⟨hup.others k v h1 h3, h3⟩
    · rintro ⟨h1, h2⟩
      cases hsk : sd.get k with
      | none => rw [hup.keys k hsk] at h1; cases h1
      | some v0 =>
        by_cases hm0 : wrt.Matches k v0
        · exact absurd (hm k v0 v hsk hm0 h1) h2
        · have := hup.others k v0 hsk hm0
          rw [h1] at this
          cases this
          exact ⟨rfl, (hrest k v hsk).2 h2⟩

end Nnx
