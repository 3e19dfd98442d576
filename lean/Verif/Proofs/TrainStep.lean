import Verif.Spec.TrainStep
import Verif.Props.Nested
import Verif.Props.Tree
import Verif.Proofs.Corresponding
import Verif.Proofs.GoodStates
/-
The training step: the new parameters are a State that may be given to `update_state`, and the step is a good function.
-/
namespace Nnx
variable {α κ L β : Type} [DecidableEq α]

/-! ### Values made by tree maps -/

mutual
theorem unflattenFrom_rest : ∀ {t : TreeDef α} {ys : List (PyVal α)} {v : PyVal α} {rest : List (PyVal α)},
    unflattenFrom t ys = .ok (v, rest) → ∀ y ∈ rest, y ∈ ys
  | .leaf, [], _, _, h => by cases h
  | .leaf, x :: xs, _, _, h => by cases h; exact fun y hy => List.mem_cons_of_mem _ hy
  | .node d kids, ys, v, rest, h => by
    simp only [unflattenFrom] at h
    split at h
    · cases h
    next vs rest' he =>
      split at h
      · cases h
      · cases h; exact unflattenAll_rest he
theorem unflattenAll_rest : ∀ {ts : List (TreeDef α)} {ys vs : List (PyVal α)} {rest : List (PyVal α)},
    unflattenAll ts ys = .ok (vs, rest) → ∀ y ∈ rest, y ∈ ys
  | [], ys, _, _, h => by cases h; exact fun y hy => hy
  | t :: ts, ys, vs, rest, h => by
    simp only [unflattenAll] at h
    split at h
    · cases h
    next v xs he =>
      split at h
      · cases h
      next vs' xs' he' =>
        cases h
        exact fun y hy => unflattenFrom_rest he y (unflattenAll_rest he' y hy)
end

/-- The tree of a value that is not a container is not rebuilt as a container. -/
theorem unflatten_plain {u : PyVal α} (hu : u.Plain) {xs : List (PyVal α)} {t : TreeDef α} (h : treeFlatten u = .ok (xs, t)) {ys : List (PyVal α)}
    (hy : ∀ y ∈ ys, y.Plain) {v : PyVal α} {rest : List (PyVal α)} (hv : unflattenFrom t ys = .ok (v, rest)) : v.Plain := by
  rw [treeFlatten] at h
  split at h
  · cases h
  · cases h
    cases ys with
    | nil => cases hv
    | cons y ys => cases hv; exact hy _ List.mem_cons_self
  · next kids d hn =>
    split at h
    · cases h
    cases h
    simp only [unflattenFrom] at hv
    split at hv
    · cases hv
    split at hv
    · cases hv
    next hun =>
      cases hv
      cases u with
      | none => cases hn; cases hun; trivial
      | str s => cases hn
      | data c a => cases hn
      | cmeta a m => cases hn
      | tup xs => cases hn; cases hun; trivial
      | dict m => cases hn; cases hun; trivial
      | cont c a m => exact hu.elim
      | tree c m =>
        simp only [flattenNode] at hn
        split at hn
        · cases hn
        · cases hn; cases hun; trivial

/-- The tree of a plain value or well-formed container is rebuilt as one. -/
theorem unflatten_wf {u : PyVal α} (hu : WFVal u) {xs : List (PyVal α)} {t : TreeDef α} (h : treeFlatten u = .ok (xs, t)) {ys : List (PyVal α)}
    (hy : ∀ y ∈ ys, y.Plain) {v : PyVal α} {rest : List (PyVal α)} (hv : unflattenFrom t ys = .ok (v, rest)) : WFVal v := by
  rcases hu with hu | hu
  · exact .inl (unflatten_plain hu h hy hv)
  cases hu with
  | @mk c a m plain nodup novalue static first =>
  rw [treeFlatten] at h
  split at h
  · cases h
  · cases h
    cases ys with
    | nil => cases hv
    | cons y ys => cases hv; exact .inl (hy _ List.mem_cons_self)
  · next kids d hn =>
    split at h
    · cases h
    next rs hrs =>
    cases h
    simp only [flattenNode, flattenContainer] at hn
    split at hn
    · cases hn
    next kids' aux he =>
      cases hn
      simp only [unflattenFrom] at hv
      split at hv
      · cases hv
      next vs rest' hvs =>
      split at hv
      · cases hv
      next v' hun =>
        cases hv
        right
        split at he
        · cases he
          simp only [List.attach_cons, List.attach_nil, List.map_cons, List.map_nil] at hrs
          cases hta : treeFlatten a with
          | error e => rw [hta] at hrs; cases hrs
          | ok r =>
            rw [hta] at hrs
            cases hrs
            simp only [List.map_cons, List.map_nil, unflattenAll] at hvs
            split at hvs
            · cases hvs
            next b xs' hb =>
              cases hvs
              simp only [unflattenNode, unflattenContainer] at hun
              exact construct_good nodup (.inl (unflatten_plain plain (t := r.2) (xs := r.1) hta hy hb)) hun
        · split at he
          · cases he
            simp only [List.attach_nil, List.map_nil, allOk] at hrs
            cases hrs
            cases hvs
            simp only [unflattenNode, unflattenContainer] at hun
            exact construct_good (by simp [DNodup, dkeys]) (.inl plain) hun
          · cases he

/-- What a tree map of a State holds. -/
theorem stateTreeMap_wf {f : List (PyVal α) → Except Err (PyVal α)} (hf : ∀ xs y, f xs = .ok y → y.Plain) {p p' : State (PyVal α)}
    {rest : List (State (PyVal α))} (hp : ∀ kv ∈ p.items, WFVal kv.2) (h : stateTreeMap f p rest = .ok p') :
    ∀ k v, (k, v) ∈ p'.items → k ∈ p.keys ∧ WFVal v := by
  simp only [stateTreeMap, stateFlatten] at h
  split at h
  · cases h
  next xs t hfl =>
  split at hfl
  · cases hfl
  next rs hrs =>
  cases hfl
  split at h
  · cases h
  next ls hls =>
  split at h
  · cases h
  next ys hys =>
  have hy : ∀ y ∈ ys, y.Plain := by
    intro y hy
    obtain ⟨i, hi⟩ := List.getElem?_of_mem hy
    obtain ⟨hl, ho⟩ := allOk_map_ok hys
    have hlt : i < (columns (rs.flatMap (·.1)) ls).length := by rw [← hl]; exact (List.getElem?_eq_some_iff.1 hi).1
    obtain ⟨y', e1, e2⟩ := ho i _ (List.getElem?_eq_getElem hlt)
    rw [hi] at e1
    cases e1
    exact hf _ _ e2
  simp only [stateUnflatten] at h
  have hall : ∀ (us : List (PyVal α)) rs, (∀ u ∈ us, WFVal u) → allOk (us.map treeFlatten) = .ok rs → ∀ ys vs rest, (∀ y ∈ ys, y.Plain) →
      unflattenAll (rs.map (·.2)) ys = .ok (vs, rest) → ∀ v ∈ vs, WFVal v := by
    intro us
    induction us with
    | nil =>
      intro rs _ h ys vs rest _ hu
      cases h
      cases hu
      simp
    | cons u us ih =>
      intro rs hwf h ys vs rest hy hu
      simp only [List.map_cons] at h
      cases hta : treeFlatten u with
      | error e => rw [hta] at h; cases h
      | ok r =>
        rw [hta] at h
        simp only [allOk] at h
        split at h
        · cases h
        next rs' hrs' =>
          cases h
          simp only [List.map_cons, unflattenAll] at hu
          split at hu
          · cases hu
          next v xs' hv =>
            split at hu
            · cases hu
            next vs' xs'' hvs =>
              cases hu
              intro y hyy
              rcases List.mem_cons.1 hyy with rfl | hyy
              · exact unflatten_wf (hwf u List.mem_cons_self) (xs := r.1) (t := r.2) hta hy hv
              · exact ih rs' (fun a ha => hwf a (List.mem_cons_of_mem _ ha)) hrs' xs' vs' _
                  (fun a ha => hy a (unflattenFrom_rest hv a ha)) hvs y hyy
  split at h
  · cases h
  · next vs hvs =>
    cases h
    intro k v hkv
    have hm : (k, v) ∈ p.flatten.2.zip vs := by
      rcases mem_dupdate_or (d := []) hkv with h | h
      · exact h
      · cases h
    refine ⟨(List.of_mem_zip hm).1, hall p.flatten.1 rs ?_ hrs ys vs [] hy hvs v (List.of_mem_zip hm).2⟩
    intro u hu
    simp only [State.flatten, List.mem_map] at hu
    obtain ⟨kv, hkv, rfl⟩ := hu
    exact hp kv hkv
  · cases h

omit [DecidableEq α] in
theorem GoodState.filter {s : State (PyVal α)} (hs : GoodState s) {fs : List (Filter α)} {ss : List (State (PyVal α))}
    (h : s.filter fs = .ok ss) : ∀ t ∈ ss, GoodState t := by
  unfold State.filter splitState at h
  by_cases he : ellipsisMisplaced fs = true
  · simp [he] at h
  · simp only [he] at h
    cases hp : toPredicates fs with
    | error e => simp [hp] at h
    | ok preds =>
      simp only [hp, Bool.false_eq_true, if_false] at h
      simp only [Except.ok.injEq] at h
      subst h
      intro t ht
      obtain ⟨d, hd, rfl⟩ := List.mem_map.1 ht
      refine .new fun k v hkv => ?_
      rcases splitFold_mem _ _ _ _ _ (List.dropLast_subset _ hd) hkv with h | ⟨d', h1, h2⟩
      · exact hs k v h
      · rw [(List.mem_replicate.1 h1).2] at h2; cases h2

/-- The new parameters may be given to `update_state`. -/
theorem newParams_good {wrt : Filter α} {step : List (PyVal α) → Except Err (PyVal α)} (hstep : MakesArrays step) {s g p : State (PyVal α)}
    (hs : GoodState s) (h : newParams wrt step s g = .ok p) : GoodState p := by
  unfold newParams at h
  split at h
  · cases h
  · next q hq =>
    have hg := hs.filter hq q (by simp)
    intro k v hkv
    obtain ⟨h1, h2⟩ := stateTreeMap_wf (fun xs y hy => by obtain ⟨c, a, rfl, _⟩ := hstep xs y hy; trivial) (fun kv hkv => (hg kv.1 kv.2 hkv).1) h k v hkv
    obtain ⟨kv, hm, rfl⟩ := List.mem_map.1 h1
    exact ⟨h2, (hg kv.1 kv.2 hm).2⟩
  · cases h

theorem trainStep_good {f : Routine α κ L β} (hf : f.Good) {wrt : Filter α} (hw : wrt.WellFormed) {step : List (PyVal α) → Except Err (PyVal α)}
    (hstep : MakesArrays step) (j t : Nat) (loss : β → L) : (trainStep j t wrt step loss f).Good := by
  refine ⟨hw, hf, fun g b _ => ⟨trivial, fun x hx => ?_⟩⟩
  cases x with
  | state s =>
    simp only [afterState]
    cases hn : newParams wrt step s g with
    | error e => trivial
    | ok p =>
      refine ⟨fun t ht => ?_, fun y _ => ?_⟩
      · rw [List.mem_singleton.1 ht]
        exact newParams_good hstep hx hn
      · unfold afterUpdate
        split <;> trivial
  | attr x => trivial
  | is b => trivial
  | outcome e => trivial
  | made => trivial

/-! ### Node writes -/

omit [DecidableEq α] in
theorem NodeWrites.trans {w w1 w2 : World α} {l : Loc} (wf : WFHeap w.heap) (hl : l < w.heap.length) (hlen : w.heap.length ≤ w1.heap.length) (h1 : NodeWrites w w1 l)
    (h2 : NodeWrites w1 w2 l) : NodeWrites w w2 l := by
  intro a n hr
  have hr1 : Reaches w1.heap l a := by
    obtain ⟨q, hq⟩ := hr
    exact ⟨q, (h1.walk hlen wf ⟨[], .here hl⟩).2 hq⟩
  rcases h2 a n hr1 with h | ⟨v, e, hv, hb, hc⟩
  · rw [h]; exact h1 a n hr
  · refine .inr ⟨v, e, hv, ?_, ?_⟩
    · intro b hb'
      rcases h1 a n hr with h | ⟨_, _, _, hb1, _⟩
      · exact hb b (h.trans hb')
      · exact hb1 b hb'
    · intro c x m hx
      rcases h1 a n hr with h | ⟨v1, e1, _, _, hc1⟩
      · exact hc c x m (h.trans hx)
      · obtain ⟨y, rfl⟩ := hc1 c x m hx
        exact hc c y m e1

omit [DecidableEq α] in
theorem NodeWrites.valid {w w1 : World α} {l : Loc} (wf : WFHeap w.heap) (hl : l < w.heap.length) (k : Keeps w w1) (h1 : NodeWrites w w1 l)
    (hv : AllValid w l) : AllValid w1 l := by
  rintro a o ⟨q, hq⟩ ho
  have hq' := (h1.walk k.len wf ⟨[], .here hl⟩).1 hq
  have hlt := hq'.lt
  have hi := k.info a hlt
  have ho' : w.heap[a]? = some w.heap[a] := List.getElem?_eq_getElem hlt
  simp only [objInfo, ho, ho', Option.map_some, Option.some.injEq, Prod.mk.injEq] at hi
  have := hv a _ ⟨q, hq'⟩ ho'
  rwa [traceValid_of k.jax k.stack, hi.2.2.2]

omit [DecidableEq α] in
/-- `model.filter(wrt)`. -/
theorem filter_selected {w : World α} {l : Loc} {wrt : Filter α} (hw : wrt.WellFormed) {s : State (PyVal α)}
    (hs : getState (w.heap.length + 1) w.heap l = some s) : s.filter [wrt] = .ok [selected wrt l w] := by
  have hob := getState_obtainable hs
  simp only [selected, hs]
  cases hf : s.filter [wrt] with
  | error e =>
    exfalso
    rcases toPredicate_spec wrt with ⟨_, p', hp', _⟩ | ⟨h, _⟩
    · simp only [State.filter, splitState, ellipsisMisplaced, toPredicates, hp'] at hf
      simp at hf
    · exact h hw
  | ok ss =>
    have := (C04_filter_restricts hob hf).1
    match ss, this with
    | [t], _ => rfl


/-! ### The step without transforms -/

omit [DecidableEq α] in
theorem MakesArrays.plain {step : List (PyVal α) → Except Err (PyVal α)} (h : MakesArrays step) : KeepsPlain step := by
  intro x zs y hy _
  obtain ⟨c, a, rfl, _⟩ := h _ _ hy
  trivial

/-- The new parameters: a State of the kind of the old ones. -/
theorem newParams_like {w : World α} (wf : WFWorld w) {l : Loc} (hl : l < w.heap.length) {wrt : Filter α} (hw : wrt.WellFormed)
    {step : List (PyVal α) → Except Err (PyVal α)} (hstep : MakesArrays step) {g s : State (PyVal α)} (hc : CanStep step g (selected wrt l w))
    (hs : getState (w.heap.length + 1) w.heap l = some s) :
    ∃ p, newParams wrt step s g = .ok p ∧ LikeState (selected wrt l w) p ∧
      ∀ k v v', (selected wrt l w).get k = some v → p.get k = some v' → ∃ u, g.get k = some u ∧ Mapped (LeafApplied step [u]) v v' := by
  obtain ⟨_, s', d, nondiff, _, hpart, hpc, hcn, e1, e2⟩ := selected_spec wf hl hw
  have hs' := (hpart _ (Nat.lt_succ_self _)).2.1
  rw [hs] at hs'
  cases hs'
  have hcan : (selected wrt l w).Canonical := hpc.1 _ (by simp)
  have hT : TreeState (selected wrt l w) := ⟨hcan.nodup, hc.good⟩
  have hfl := filter_selected (l := l) hw hs
  rcases state_map_core hstep.plain hT (rest := [g]) (by simpa using hc.grads) (by simpa using hc.fits) with
    ⟨k, q, x, v, zs, e, h1, h2, h3, h4, h5, _⟩ | ⟨_, p, hp, hk, hn, hm⟩
  · exfalso
    match zs, h4.1 with
    | [z], _ =>
      obtain ⟨u, hu, hsub⟩ := h4.2 0 g z rfl rfl
      obtain ⟨y, hy⟩ := hc.defined k v u q x z h1 hu h2 h3 hsub
      rw [hy] at h5
      cases h5
  · have hnew : newParams wrt step s g = .ok p := by simp only [newParams, hfl, hp]
    have hgood := newParams_good hstep (getState_good wf.heap hl hs) hnew
    have hmap : ∀ k v v', (selected wrt l w).get k = some v → p.get k = some v' → ∃ u, g.get k = some u ∧ Mapped (LeafApplied step [u]) v v' := by
      intro k v v' hv hv'
      have hin : k ∈ g.keys := by
        rw [hc.fits.keys]
        exact dget_isSome.1 (by rw [show dget (selected wrt l w).mapping k = _ from hv]; rfl)
      obtain ⟨u, hu⟩ := Option.isSome_iff_exists.1 (dget_isSome.2 hin)
      refine ⟨u, hu, (hm k v v' hv hv').mono ?_⟩
      rintro q x y ⟨zs, ho, hy⟩
      refine ⟨zs, ⟨ho.1, ?_⟩, hy⟩
      intro i r z hr hz
      match i, hr with
      | 0, hr =>
        cases hr
        obtain ⟨u', hu', hsub⟩ := ho.2 0 g z rfl hz
        have : some u = some u' := hu.symm.trans hu'
        cases this
        exact hsub
    refine ⟨p, hnew, ⟨?_, ?_, ?_⟩, hmap⟩
    · have := hcan
      simp only [State.Canonical, StrictSorted] at this ⊢
      have h1 : (p.mapping.map (·.1)).Pairwise (fun a b => strLe a b = true ∧ a ≠ b) := by
        rw [show p.mapping.map (·.1) = (selected wrt l w).mapping.map (·.1) from hk]
        exact List.pairwise_map.2 this
      exact List.pairwise_map.1 h1
    · intro k
      rw [Bool.eq_iff_iff]
      exact (dget_isSome.trans (by rw [show dkeys p.mapping = dkeys (selected wrt l w).mapping from hk])).trans dget_isSome.symm
    · intro k u v hu hv
      obtain ⟨_, _, _, _, hnode⟩ := (state_paths wf.heap hl hs).1 k u ((e1 k u).1 hu).1
      have hM := hm k u v hu hv
      refine ⟨(hgood k v (dget_mem hv)).1, hM.isNode ?_ hnode, ?_⟩
      · rintro q x y ⟨zs, _, hy⟩ _
        obtain ⟨_, _, _, h⟩ := hstep _ _ hy
        exact h
      · rintro c x m rfl
        have hcb := hc.nodes k c x m hu
        cases hM with
        | leaf h _ => rw [h.1] at hcb; cases hcb
        | cont _ _ => exact ⟨_, rfl⟩
        | static => exact ⟨_, rfl⟩

variable {J : Jax α κ L}

/-- The training step without transforms. -/
theorem trainStep_plain (hlaw : GradLaw J.gradOf) {w wd : World α} (wf : WFWorld w) {l : Loc} (hl : l < w.heap.length) (hv : AllValid w l)
    {f : Routine α κ L β} (hf : f.Good) {wrt : Filter α} (hw : wrt.WellFormed) {step : List (PyVal α) → Except Err (PyVal α)}
    (hstep : MakesArrays step) {b : β} (hr : LossRuns J wrt f l w wd b) {loss : β → L}
    (hc : CanStep step (gradientAt J wrt loss f l w) (selected wrt l wd)) (j t : Nat) :
    ∃ wp sd st d, (trainStep j t wrt step loss f).plain J [l] w = (wp, .ok b) ∧ (trainStep j t wrt step loss f).Carried J [l] w ∧
      NodeWrites w wp l ∧ getState (wd.heap.length + 1) wd.heap l = some sd ∧ getState (wp.heap.length + 1) wp.heap l = some st ∧
      getModuleDef (wd.heap.length + 1) wd.heap l = some d ∧ getModuleDef (wp.heap.length + 1) wp.heap l = some d ∧
      Updated wrt step (gradientAt J wrt loss f l w) sd st ∧
      ∃ p, newParams wrt step sd (gradientAt J wrt loss f l w) = .ok p ∧ LikeState (selected wrt l wd) p ∧
        ∀ k, st.get k = (p.get k).or (sd.get k) := by
  have P := hf.parametric hlaw
  have hk := P.keeps l w wf hl
  have wfd := P.wf wf hl
  simp only [hr.returns] at hk wfd
  have hld := Nat.lt_of_lt_of_le hl hk.len
  have hvd := hr.writes.valid wf.heap hl hk hv
  obtain ⟨_, sd, d, nondiff, _, hpart, hpc, hcn, e1, e2⟩ := selected_spec wfd hld hw
  obtain ⟨hd, hs, _⟩ := hpart _ (Nat.lt_succ_self _)
  obtain ⟨p, hnp, hlike, hmap⟩ := newParams_like wfd hld hw hstep hc hs
  have hlk : ∀ k v, p.get k = some v → ∃ u, (selected wrt l wd).get k = some u ∧ sd.get k = some u ∧ LikeVal u v := by
    intro k v hp
    have := hlike.2.1 k
    rw [hp] at this
    obtain ⟨u, hu⟩ := Option.isSome_iff_exists.1 this.symm
    exact ⟨u, hu, ((e1 k u).1 hu).1, hlike.2.2 k u v hu hp⟩
  obtain ⟨wp, hu, wfp, so, hvp, hnw, _, _, hst⟩ := update_like wfd hld hvd hs hlike.1
    (fun k v hp => by obtain ⟨u, _, h1, h2⟩ := hlk k v hp; exact ⟨u, h1, h2⟩) (Nat.lt_succ_self _)
  obtain ⟨d', st, hd1, hd2, hst1, hget⟩ := hst (wd.heap.length + 1) (wp.heap.length + 1) (Nat.lt_succ_self _) (by rw [so.len]; exact Nat.lt_succ_self _)
  have := getModuleDef_det wfd.heap hld hd1 hd
  subst this
  have hg : gradientAt J wrt loss f l w =
    J.gradOf (directLoss (withLoss loss fun l w => f.plain J [l] w) (w.heap.length + 1) l w) (selected wrt l w) := rfl
  refine ⟨wp, sd, st, _, ?_, ?_, hr.writes.trans wf.heap hl hk.len hnw, hs, hst1, hd, hd2, ?_, p, hnp, hlike, hget⟩
  · simp only [trainStep, Routine.plain, List.getElem?_cons_zero, hr.returns, if_true, Op.run, hs, afterState, ← hg, hnp, hu, afterUpdate]
  · intro l' hl'
    cases hl'
    refine ⟨hr.carried, hr.elsewhere, ?_⟩
    intro w' b' hb'
    rw [hr.returns] at hb'
    cases hb'
    refine ⟨fun _ => hr.writes, ?_⟩
    intro x K' w' hx
    simp only [Op.run, List.getElem?_cons_zero, if_true, hs] at hx
    cases hx
    simp only [← hg, afterState, hnp]
    intro x K' w' hx
    simp only [Op.run, List.getElem?_cons_zero, hu] at hx
    cases hx
    trivial
  · constructor
    · intro k v hv hm
      have hsel := (e1 k v).2 ⟨hv, hm⟩
      have := hlike.2.1 k
      rw [hsel] at this
      obtain ⟨v', hv'⟩ := Option.isSome_iff_exists.1 this
      obtain ⟨u, h1, h2⟩ := hmap k v v' hsel hv'
      exact ⟨u, v', h1, by rw [hget, hv']; rfl, h2⟩
    · intro k v hv hm
      rw [hget]
      cases hp : p.get k with
      | none => exact hv
      | some v' =>
        obtain ⟨u, h1, h2, _⟩ := hlk k v' hp
        have h3 := ((e1 k u).1 h1).2
        rw [hv] at h2
        cases h2
        exact absurd h3 hm
    · intro k hk'
      rw [hget]
      cases hp : p.get k with
      | none => exact hk'
      | some v' =>
        obtain ⟨u, _, h2, _⟩ := hlk k v' hp
        rw [hk'] at h2
        cases h2

end Nnx
