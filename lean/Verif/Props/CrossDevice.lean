import Verif.Proofs.CrossDevice
import Verif.Props.Normalization

/-!
# C88: normalization across devices
-/

namespace Nnx
variable {𝕜 : Type} [Field 𝕜] [LinearOrder 𝕜] [IsStrictOrderedRing 𝕜]

omit [Field 𝕜] [LinearOrder 𝕜] [IsStrictOrderedRing 𝕜] in
theorem pick_ne_nil : ∀ {m : List Bool} {s : List Nat} {i : Nat}, i < s.length → m[i]? = some false →
    pick false m s ≠ []
  | [], _, i, _, h => by simp at h
  | _ :: _, [], i, h, _ => by simp at h
  | b :: m, d :: s, 0, _, h => by
    simp only [List.getElem?_cons_zero, Option.some.injEq] at h
    subst h
    simp [pick]
  | b :: m, d :: s, i + 1, h1, h => by
    have := pick_ne_nil (m := m) (s := s) (i := i) (by simpa using h1) (by simpa using h)
    rw [pick]
    split
    · simp
    · exact this

omit [Field 𝕜] [LinearOrder 𝕜] [IsStrictOrderedRing 𝕜] in
theorem pick_eq_nil : ∀ {m : List Bool} {s : List Nat}, (∀ b ∈ m, b = true) → pick false m s = []
  | [], _, _ => by simp [pick]
  | _ :: _, [], _ => by simp [pick]
  | b :: m, d :: s, h => by
    rw [pick, h b (by simp)]
    simp [pick_eq_nil (m := m) (s := s) fun b hb => h b (by simp [hb])]

/-- The averages of the devices' averages are the statistics of all their entries together. -/
theorem union_stats {xs : List (Tensor 𝕜)} {g : List Nat} (hg : g ≠ []) (hlt : ∀ e ∈ g, e < xs.length)
    {sample : Tensor 𝕜 → List 𝕜} {L : Nat} (hL : L ≠ 0) (hlen : ∀ x ∈ xs, (sample x).length = L) :
    ((g.filterMap fun e => xs[e]?).map fun x => avg (sample x)).sum / (g.length : 𝕜) = avg (together xs g sample) ∧
    max 0 (((g.filterMap fun e => xs[e]?).map fun x => avg ((sample x).map fun u => u * u)).sum / (g.length : 𝕜) -
      avg (together xs g sample) * avg (together xs g sample)) = variance (together xs g sample) := by
  have hmem : ∀ x ∈ g.filterMap fun e => xs[e]?, x ∈ xs := by
    intro x hx
    obtain ⟨e, -, he⟩ := List.mem_filterMap.1 hx
    exact List.mem_of_getElem? he
  have hl := filterMap_getElem?_length xs hlt
  have key : ∀ (h : 𝕜 → 𝕜), ((g.filterMap fun e => xs[e]?).map fun x => avg ((sample x).map h)).sum / (g.length : 𝕜) =
      avg ((together xs g sample).map h) := by
    intro h
    have := avg_flatten (𝕜 := 𝕜) hL (ls := (g.filterMap fun e => xs[e]?).map fun x => (sample x).map h) (by
      intro l hl'
      obtain ⟨x, hx, rfl⟩ := List.mem_map.1 hl'
      rw [List.length_map, hlen x (hmem x hx)])
    rw [List.length_map, hl, List.map_map] at this
    rw [together, List.map_flatMap, List.flatMap_def, this]
    rfl
  have k1 := key id
  simp only [List.map_id] at k1
  refine ⟨k1, ?_⟩
  rw [key]
  have hne : together xs g sample ≠ [] := by
    obtain ⟨e, g', rfl⟩ := List.exists_cons_of_ne_nil hg
    intro h0
    rw [together, List.filterMap_cons, List.getElem?_eq_getElem (hlt e (by simp))] at h0
    simp only [List.flatMap_cons, List.append_eq_nil_iff] at h0
    have := hlen _ (List.getElem_mem (hlt e (by simp)))
    rw [h0.1] at this
    exact hL this.symm
  obtain ⟨v1, v2⟩ := C60_variance (together xs g sample) hne
  rw [max_eq_right v2, v1]
  rfl

/-- **C88** (LayerNorm): with `axis_name`, the sample of a position consists of the entries that agree with it on the
axes outside `reduction_axes`, of the inputs of all devices of the group. -/
theorem C88_layer_norm (rsqrt : 𝕜 → 𝕜) (groups : Option (List (List Nat))) (lns : List (LayerNorm 𝕜))
    (xs : List (Tensor 𝕜)) (shape : List Nat) (hx : ∀ x ∈ xs, x.shape = shape) (d : Nat) (ln : LayerNorm 𝕜)
    (x : Tensor 𝕜) (hln : lns[d]? = some ln) (hxd : xs[d]? = some x) (g : List Nat)
    (hg : Involves groups xs.length d g) (a n : Nat)
    (hred : ValidAxes shape.length ln.reductionAxes) (hfeat : NamesAxis ln.featureAxes shape.length a)
    (hn : shape[a]? = some n) (hscale : ∀ q, ln.scale = some q → q.shape = [n])
    (hbias : ∀ q, ln.bias = some q → q.shape = [n])
    (hkeep : ∃ i, i < shape.length ∧ (i : Int) ∉ ln.reductionAxes ∧ (i : Int) - shape.length ∉ ln.reductionAxes) :
    ∃ y, (LayerNorm.callAcross rsqrt groups lns xs)[d]? = some (.ok y) ∧ y.shape = shape ∧
      ∀ idx f, Within idx shape → idx[a]? = some f →
        let sample := together xs g fun u => (cell shape
          (fun i => (i : Int) ∉ ln.reductionAxes ∧ (i : Int) - shape.length ∉ ln.reductionAxes) idx).map u.val
        y.val idx = (x.val idx - avg sample) * (rsqrt (variance sample + ln.epsilon) * vecAt ln.scale f 1) +
          vecAt ln.bias f 0 := by
  have hd : d < xs.length := (List.getElem?_eq_some_iff.1 hxd).1
  have hsx : x.shape = shape := hx x (List.mem_of_getElem? hxd)
  obtain ⟨d0, s0, hs⟩ : ∃ d0 s0, pick false (axisMask shape.length
      (canonicalizeAxes shape.length ln.reductionAxes)) shape = d0 :: s0 := by
    obtain ⟨i, hi, hk⟩ := hkeep
    have := (keptAxes (axes := ln.reductionAxes) i hi).1 hk
    cases hp : pick false (axisMask shape.length (canonicalizeAxes shape.length ln.reductionAxes)) shape with
    | cons d0 s0 => exact ⟨d0, s0, rfl⟩
    | nil =>
      refine (pick_ne_nil (m := axisMask shape.length (canonicalizeAxes shape.length ln.reductionAxes)) (i := i) hi ?_
        hp).elim
      simp only [axisMask, List.getElem?_map, List.getElem?_range hi, Option.map_some, this, decide_false]
  obtain ⟨m, v, h1, h2, h3, h4⟩ := deviceStats_spec (groups := groups) hx hred
    (fun i => (i : Int) ∉ ln.reductionAxes ∧ (i : Int) - shape.length ∉ ln.reductionAxes) keptAxes hs hd hg
  have c2 := canonical_one hfeat
  obtain ⟨y, y1, y2, y3⟩ := normalize_spec rsqrt (x := x) (mean := m) (var := v) (scale := ln.scale) (bias := ln.bias)
    (red := ln.reductionAxes) (feat := ln.featureAxes) ln.epsilon
    (by rw [hsx]; exact canonical_range hred.1)
    (by rw [hsx, c2]; intro b hb; simp only [List.mem_singleton] at hb; have := hfeat.1; omega)
    (by rw [hsx, hs, h2]) (by rw [hsx, hs, h3])
    (by intro q hq; rw [hsx, c2, pick_one hn rfl, hscale q hq]) (by intro q hq; rw [hsx, c2, pick_one hn rfl, hbias q hq])
  rw [hsx] at y2 y3
  refine ⟨y, ?_, y2, fun idx f hw hf => ?_⟩
  · rw [LayerNorm.callAcross, List.getElem?_mapIdx, (List.getElem?_zip_eq_some (z := (ln, x))).2 ⟨hln, hxd⟩]
    simp only [Option.map_some]
    rw [LayerNorm.callWith, h1]
    simp only [y1]
  · obtain ⟨f', hf', hlt⟩ := coord hw hn
    rw [hf] at hf'; cases hf'
    have := h4 idx hw
    simp only at this ⊢
    have hlen : ∀ u ∈ xs, ((cell shape (fun i => (i : Int) ∉ ln.reductionAxes ∧
        (i : Int) - shape.length ∉ ln.reductionAxes) idx).map u.val).length =
        (cell shape (fun i => (i : Int) ∉ ln.reductionAxes ∧ (i : Int) - shape.length ∉ ln.reductionAxes) idx).length :=
      fun u _ => List.length_map _
    have hL : (cell shape (fun i => (i : Int) ∉ ln.reductionAxes ∧ (i : Int) - shape.length ∉ ln.reductionAxes)
        idx).length ≠ 0 := by
      have : idx ∈ cell shape (fun i => (i : Int) ∉ ln.reductionAxes ∧ (i : Int) - shape.length ∉ ln.reductionAxes)
          idx := by simp [cell, mem_indices, hw]
      intro h0
      rw [List.length_eq_zero_iff.1 h0] at this
      cases this
    obtain ⟨u1, u2⟩ := union_stats (𝕜 := 𝕜) (involves_ne_nil hd hg) (involves_lt hg) hL hlen
    rw [u1, u2] at this
    have hwp := within_pick (b := false) (m := axisMask shape.length
      (canonicalizeAxes shape.length ln.reductionAxes)) hw
    rw [y3 idx hw, c2, h2, h3, ← hs, unravel_ravel hwp, this.1, this.2,
      paramAt_one hscale hn hw hf hlt, paramAt_one hbias hn hw hf hlt]

/-- **C88** (BatchNorm): a training step with `axis_name` moves the running statistics of every device towards the
statistics of the entries of all devices of its group together, and normalizes with those. -/
theorem C88_batch_norm (rsqrt : 𝕜 → 𝕜) (groups : Option (List (List Nat))) (bns : List (BatchNorm 𝕜))
    (xs : List (Tensor 𝕜)) (shape : List Nat) (hx : ∀ x ∈ xs, x.shape = shape) (hne : 0 < size shape) (d : Nat)
    (bn : BatchNorm 𝕜) (x : Tensor 𝕜) (hbn : bns[d]? = some bn) (hxd : xs[d]? = some x) (g : List Nat)
    (hg : Involves groups xs.length d g) (arg flag : Option Bool) (a n : Nat)
    (hmode : firstFrom [arg, bn.useRunningAverage, flag] = .ok false) (hfit : bn.Fits n)
    (haxis : NamesAxis bn.axis shape.length a) (hn : shape[a]? = some n) :
    ∃ mean var y, (BatchNorm.callAcross rsqrt groups bns xs arg flag)[d]? =
        some ({ bn with mean := mean, var := var }, .ok y) ∧
      mean.shape = [n] ∧ var.shape = [n] ∧
      (∀ f, f < n →
        mean.val [f] = bn.momentum * bn.mean.val [f] +
          (1 - bn.momentum) * avg (together xs g fun u => channel u a f) ∧
        var.val [f] = bn.momentum * bn.var.val [f] +
          (1 - bn.momentum) * variance (together xs g fun u => channel u a f)) ∧
      y.shape = shape ∧
      ∀ idx f, Within idx shape → idx[a]? = some f →
        y.val idx =
          (x.val idx - avg (together xs g fun u => channel u a f)) *
              (rsqrt (variance (together xs g fun u => channel u a f) + bn.epsilon) * vecAt bn.scale f 1) +
            vecAt bn.bias f 0 := by
  have hd : d < xs.length := (List.getElem?_eq_some_iff.1 hxd).1
  have hsx : x.shape = shape := hx x (List.mem_of_getElem? hxd)
  have ha : a < shape.length := (List.getElem?_eq_some_iff.1 hn).1
  have c1 := canonical_other shape.length [(a : Int)]
  have c3 := axisMask_other shape.length [(a : Int)]
  obtain ⟨m, v, h1, h2, h3, h4⟩ := deviceStats_spec (groups := groups) hx (otherAxes_valid shape.length [(a : Int)])
    (fun i => i = a) (by
      intro i hi
      rw [c1, mem_otherAxes]
      simp only [List.mem_singleton, Nat.cast_inj]
      constructor
      · rintro h ⟨-, h'⟩; exact h' h
      · intro h; by_contra hne; exact h ⟨⟨by omega, by omega⟩, hne⟩)
    (d0 := n) (s0 := []) (by rw [c1, c3, pick_not, pick_one hn rfl]) hd hg
  have stats : ∀ f, f < n → m.val [f] = avg (together xs g fun u => channel u a f) ∧
      v.val [f] = variance (together xs g fun u => channel u a f) := by
    intro f hf
    obtain ⟨idx, hw, hi⟩ := exists_position hne hn hf
    have := h4 idx hw
    simp only at this
    rw [c1, c3, pick_not, pick_one hi (within_length hw)] at this
    have hlen : ∀ u ∈ xs, (channel u a f).length = ((indices shape).filter fun j => decide (j[a]? = some f)).length := by
      intro u hu
      rw [channel, List.length_map, hx u hu]
    have hL : ((indices shape).filter fun j => decide (j[a]? = some f)).length ≠ 0 := by
      rw [← hlen x (List.mem_of_getElem? hxd)]
      intro h0
      exact channel_ne_nil (x := x) (by rw [hsx]; exact hn) (by rw [hsx]; exact hne) hf (List.length_eq_zero_iff.1 h0)
    obtain ⟨u1, u2⟩ := union_stats (𝕜 := 𝕜) (involves_ne_nil hd hg) (involves_lt hg) hL hlen
    have e : ∀ (h : List 𝕜 → 𝕜), ((g.filterMap fun e => xs[e]?).map fun x => h ((cell shape (fun i => i = a) idx).map x.val)) =
        (g.filterMap fun e => xs[e]?).map fun x => h (channel x a f) := by
      intro h
      apply List.map_congr_left
      intro u hu
      obtain ⟨e, -, he⟩ := List.mem_filterMap.1 hu
      have hs := hx u (List.mem_of_getElem? he)
      rw [← hs, cell_channel (by rw [hs]; exact ha) hi]
    rw [e avg, e (fun l => avg (l.map fun u => u * u)), u1] at this
    rw [u2] at this
    exact this
  obtain ⟨m', hm1, hm2, hm3⟩ := emaStep_vec (m := bn.momentum) hfit.mean h2
  obtain ⟨v', hv1, hv2, hv3⟩ := emaStep_vec (m := bn.momentum) hfit.var h3
  obtain ⟨y, y1, y2, y3⟩ := normalize_one rsqrt (x := x) bn.epsilon (by rw [hsx]; exact hn) h2 h3 hfit.scale hfit.bias
  rw [hsx] at y2 y3
  refine ⟨m', v', y, ?_, hm2, hv2, fun f hf => ?_, y2, fun idx f hw hf => ?_⟩
  · rw [BatchNorm.callAcross, List.getElem?_mapIdx, (List.getElem?_zip_eq_some (z := (bn, x))).2 ⟨hbn, hxd⟩]
    simp only [Option.map_some]
    rw [BatchNorm.callWith, hmode]
    simp only [Bool.false_eq_true, if_false]
    rw [hsx, canonical_one haxis, h1]
    simp only [hm1, hv1]
    rw [hsx] at y1
    rw [y1]
  · rw [hm3 f hf, hv3 f hf, (stats f hf).1, (stats f hf).2]
    exact ⟨rfl, rfl⟩
  · obtain ⟨f', hf', hlt⟩ := coord hw hn
    rw [hf] at hf'; cases hf'
    rw [y3 idx f hw hf, (stats f hlt).1, (stats f hlt).2]

omit [IsStrictOrderedRing 𝕜] in
/-- **C88**: with `use_running_average` the devices have nothing to do with each other: each call is that of a module
without `axis_name`. -/
theorem C88_running (rsqrt : 𝕜 → 𝕜) (groups : Option (List (List Nat))) (bns : List (BatchNorm 𝕜))
    (xs : List (Tensor 𝕜)) (arg flag : Option Bool) (d : Nat) (bn : BatchNorm 𝕜) (x : Tensor 𝕜)
    (hbn : bns[d]? = some bn) (hxd : xs[d]? = some x)
    (hmode : firstFrom [arg, bn.useRunningAverage, flag] = .ok true) :
    (BatchNorm.callAcross rsqrt groups bns xs arg flag)[d]? = some (bn.call rsqrt x arg flag) := by
  rw [BatchNorm.callAcross, List.getElem?_mapIdx, (List.getElem?_zip_eq_some (z := (bn, x))).2 ⟨hbn, hxd⟩]
  simp only [Option.map_some, BatchNorm.call, BatchNorm.callWith, hmode, if_true]

/-- **C88**: training data-parallel is training on the whole batch.  Replicas of one `BatchNorm` with `axis_name`, each
on its part of the batch, get the running statistics and the outputs that one `BatchNorm` without `axis_name` gets from
all parts stacked into one array. -/
theorem C88_data_parallel (rsqrt : 𝕜 → 𝕜) (bn : BatchNorm 𝕜) (axis : List Int) (xs : List (Tensor 𝕜))
    (shape : List Nat) (hx : ∀ x ∈ xs, x.shape = shape) (hne : 0 < size shape) (hxs : xs ≠ [])
    (arg flag : Option Bool) (a n : Nat)
    (hmode : firstFrom [arg, bn.useRunningAverage, flag] = .ok false) (hfit : bn.Fits n)
    (haxis : NamesAxis bn.axis shape.length a) (hn : shape[a]? = some n)
    (haxis' : NamesAxis axis (shape.length + 1) (a + 1)) :
    ∃ mean var y, ({ bn with axis := axis }).call rsqrt (wholeBatch xs shape) arg flag =
        ({ bn with axis := axis, mean := mean, var := var }, .ok y) ∧
      ∀ d, d < xs.length → ∃ mean' var' y',
        (BatchNorm.callAcross rsqrt none (List.replicate xs.length bn) xs arg flag)[d]? =
          some ({ bn with mean := mean', var := var' }, .ok y') ∧
        mean'.shape = mean.shape ∧ var'.shape = var.shape ∧ y.shape = xs.length :: y'.shape ∧
        (∀ pos, Within pos mean.shape → mean'.val pos = mean.val pos ∧ var'.val pos = var.val pos) ∧
        ∀ idx, Within idx shape → y'.val idx = y.val (d :: idx) := by
  have hpos : 0 < xs.length := List.length_pos_of_ne_nil hxs
  obtain ⟨m, v, y, h1, h2, h3, h4, h5, h6⟩ := C59_training rsqrt { bn with axis := axis } (wholeBatch xs shape) arg flag
    (a + 1) n hmode ⟨hfit.mean, hfit.var, hfit.scale, hfit.bias⟩ haxis' (by simpa [wholeBatch] using hn)
    (by show 0 < xs.length * size shape; exact Nat.mul_pos hpos hne)
  refine ⟨m, v, y, h1, fun d hd => ?_⟩
  obtain ⟨m', v', y', k1, k2, k3, k4, k5, k6⟩ := C88_batch_norm rsqrt none (List.replicate xs.length bn) xs shape hx hne
    d bn xs[d] (by simp [hd]) (List.getElem?_eq_getElem hd) (List.range xs.length) rfl arg flag a n hmode hfit haxis hn
  refine ⟨m', v', y', k1, k2.trans h2.symm, k3.trans h3.symm, by rw [h5, k5]; rfl, fun pos hw => ?_, fun idx hw => ?_⟩
  · rw [h2] at hw
    cases hw with
    | cons hf hr =>
      cases hr
      obtain ⟨p1, p2⟩ := h4 _ hf
      obtain ⟨q1, q2⟩ := k4 _ hf
      rw [channel_wholeBatch hx] at p1 p2
      exact ⟨q1.trans p1.symm, q2.trans p2.symm⟩
  · obtain ⟨f, hf, hlt⟩ := coord hw hn
    have := h6 (d :: idx) f (.cons hd hw) (by simpa using hf)
    rw [channel_wholeBatch hx] at this
    rw [k6 idx f hw hf, this]
    have e : (wholeBatch xs shape).val (d :: idx) = xs[d].val idx := by
      simp only [wholeBatch, List.getElem?_eq_getElem hd]
    rw [e]

/-- One step of all devices: their inputs, the `use_running_average` argument and the context flag. -/
structure AcrossCall (𝕜 : Type) where
  xs : List (Tensor 𝕜)
  arg : Option Bool
  flag : Option Bool

/-- The replicas after a sequence of steps. -/
def acrossRun (rsqrt : 𝕜 → 𝕜) : List (BatchNorm 𝕜) → List (AcrossCall 𝕜) → List (BatchNorm 𝕜)
  | bns, [] => bns
  | bns, c :: cs => acrossRun rsqrt ((BatchNorm.callAcross rsqrt none bns c.xs c.arg c.flag).map (·.1)) cs

omit [IsStrictOrderedRing 𝕜] in
/-- **C88**: replicas that are equal stay equal, whatever the devices are given and whether or not the calls succeed. -/
theorem C88_replicas (rsqrt : 𝕜 → 𝕜) (n : Nat) (bn : BatchNorm 𝕜) (calls : List (AcrossCall 𝕜))
    (hlen : ∀ c ∈ calls, c.xs.length = n) (hshape : ∀ c ∈ calls, ∀ x ∈ c.xs, ∀ x' ∈ c.xs, x.shape = x'.shape) :
    ∃ bn', acrossRun rsqrt (List.replicate n bn) calls = List.replicate n bn' := by
  induction calls generalizing bn with
  | nil => exact ⟨bn, rfl⟩
  | cons c cs ih =>
    have hl := hlen c (by simp)
    obtain ⟨bn1, h1⟩ : ∃ bn1, (BatchNorm.callAcross rsqrt none (List.replicate n bn) c.xs c.arg c.flag).map (·.1) =
        List.replicate n bn1 := by
      cases hc : c.xs with
      | nil => rw [hc] at hl; subst hl; exact ⟨bn, rfl⟩
      | cons x0 r =>
        have hx : ∀ x ∈ c.xs, x.shape = x0.shape := fun x hxm => hshape c (by simp) x hxm x0 (by simp [hc])
        have h0 : 0 < c.xs.length := by rw [hc]; simp
        rw [← hc]
        refine ⟨(bn.callWith rsqrt x0 c.arg c.flag (deviceStats none c.xs 0)).1, ?_⟩
        apply List.ext_getElem?
        intro i
        rw [List.getElem?_map, BatchNorm.callAcross, List.getElem?_mapIdx]
        by_cases hi : i < n
        · have hi' : i < c.xs.length := by rw [hl]; exact hi
          rw [(List.getElem?_zip_eq_some (z := (bn, c.xs[i]))).2
            ⟨by simp [hi], List.getElem?_eq_getElem hi'⟩]
          simp only [Option.map_some, List.getElem?_replicate, hi, if_true]
          rw [callWith_module (hx _ (List.getElem_mem hi'))
            (funext fun axes => deviceStats_same hx axes hi' h0)]
        · rw [List.getElem?_eq_none (by simp [hl]; omega), List.getElem?_eq_none (by simp; omega)]
          rfl
    rw [acrossRun, h1]
    exact ih bn1 (fun c' hc' => hlen c' (by simp [hc'])) (fun c' hc' => hshape c' (by simp [hc']))

/-- The steps made in training mode, in order. -/
def trainSteps (attr : Option Bool) (calls : List (AcrossCall 𝕜)) : List (AcrossCall 𝕜) :=
  calls.filter fun c => decide (firstFrom [c.arg, attr, c.flag] = .ok false)

/-- **C88**: after any sequence of steps, in any mix of modes, the statistics of every replica are the exponential
moving averages of the statistics that the training steps have over all devices. -/
theorem C88_history (rsqrt : 𝕜 → 𝕜) (k : Nat) (bn : BatchNorm 𝕜) (calls : List (AcrossCall 𝕜)) (n : Nat)
    (pos : Nat → Nat) (shape : AcrossCall 𝕜 → List Nat) (hfit : bn.Fits n)
    (hcalls : ∀ c ∈ calls, c.xs.length = k ∧ (∀ x ∈ c.xs, x.shape = shape c) ∧
      (∃ b, firstFrom [c.arg, bn.useRunningAverage, c.flag] = .ok b) ∧
      NamesAxis bn.axis (shape c).length (pos (shape c).length) ∧
      (shape c)[pos (shape c).length]? = some n ∧ 0 < size (shape c)) (d : Nat) (hd : d < k) :
    ∃ mean var, (acrossRun rsqrt (List.replicate k bn) calls)[d]? = some { bn with mean := mean, var := var } ∧
      mean.shape = [n] ∧ var.shape = [n] ∧
      ∀ f, f < n →
        mean.val [f] = movingAverage bn.momentum (bn.mean.val [f])
          ((trainSteps bn.useRunningAverage calls).map fun c =>
            avg (together c.xs (List.range k) fun u => channel u (pos (shape c).length) f)) ∧
        var.val [f] = movingAverage bn.momentum (bn.var.val [f])
          ((trainSteps bn.useRunningAverage calls).map fun c =>
            variance (together c.xs (List.range k) fun u => channel u (pos (shape c).length) f)) := by
  induction calls generalizing bn with
  | nil =>
    exact ⟨bn.mean, bn.var, by simp [acrossRun, hd], hfit.mean, hfit.var, fun f _ => by
      simp [trainSteps, movingAverage]⟩
  | cons c cs ih =>
    obtain ⟨hl, hx, ⟨b, hb⟩, hax, hn, hne⟩ := hcalls c (by simp)
    have hdl : d < c.xs.length := by rw [hl]; exact hd
    obtain ⟨bn1, h1⟩ := C88_replicas rsqrt k bn [c] (by simpa using hl) (by
      intro c' hc' x hxm x' hxm'
      simp only [List.mem_singleton] at hc'
      subst hc'
      rw [hx x hxm, hx x' hxm'])
    simp only [acrossRun] at h1
    have h1d : ((BatchNorm.callAcross rsqrt none (List.replicate k bn) c.xs c.arg c.flag).map (·.1))[d]? = some bn1 := by
      rw [h1]; simp [hd]
    rw [List.getElem?_map] at h1d
    cases b with
    | true =>
      rw [C88_running rsqrt none (List.replicate k bn) c.xs c.arg c.flag d bn c.xs[d] (by simp [hd])
        (List.getElem?_eq_getElem hdl) hb] at h1d
      have hsd := hx _ (List.getElem_mem hdl)
      obtain ⟨y, r1, -, -⟩ := C59_running rsqrt bn c.xs[d] c.arg c.flag (pos (shape c).length) n hb hfit
        (by rw [hsd]; exact hax) (by rw [hsd]; exact hn)
      rw [r1] at h1d
      cases h1d
      have e : trainSteps bn.useRunningAverage (c :: cs) = trainSteps bn.useRunningAverage cs := by
        simp [trainSteps, hb]
      rw [acrossRun, h1, e]
      exact ih bn hfit (fun c hc => hcalls c (by simp [hc]))
    | false =>
      obtain ⟨m, v, y, k1, k2, k3, k4, -, -⟩ := C88_batch_norm rsqrt none (List.replicate k bn) c.xs (shape c) hx hne
        d bn c.xs[d] (by simp [hd]) (List.getElem?_eq_getElem hdl) (List.range c.xs.length) rfl c.arg c.flag
        (pos (shape c).length) n hb hfit hax hn
      rw [k1] at h1d
      cases h1d
      rw [hl] at k4
      have e : trainSteps bn.useRunningAverage (c :: cs) = c :: trainSteps bn.useRunningAverage cs := by
        simp [trainSteps, hb]
      rw [acrossRun, h1, e]
      obtain ⟨m', v', i1, i2, i3, i4⟩ := ih { bn with mean := m, var := v } ⟨k2, k3, hfit.scale, hfit.bias⟩
        (fun c hc => hcalls c (by simp [hc]))
      refine ⟨m', v', i1, i2, i3, fun f hf => ?_⟩
      rw [List.map_cons, List.map_cons, movingAverage_cons, movingAverage_cons, ← (k4 f hf).1, ← (k4 f hf).2]
      exact i4 f hf

omit [IsStrictOrderedRing 𝕜] in
/-- **C88**: a `LayerNorm` with `axis_name` that reduces all axes of its input raises `ValueError` on every device:
`jnp.concatenate` does not take arrays without axes.  Without `axis_name` the same call succeeds (C76). -/
theorem C88_all_axes (rsqrt : 𝕜 → 𝕜) (groups : Option (List (List Nat))) (lns : List (LayerNorm 𝕜))
    (xs : List (Tensor 𝕜)) (shape : List Nat) (hx : ∀ x ∈ xs, x.shape = shape) (d : Nat) (ln : LayerNorm 𝕜)
    (x : Tensor 𝕜) (hln : lns[d]? = some ln) (hxd : xs[d]? = some x)
    (hred : ValidAxes shape.length ln.reductionAxes)
    (hall : ∀ i, i < shape.length → (i : Int) ∈ ln.reductionAxes ∨ (i : Int) - shape.length ∈ ln.reductionAxes) :
    (LayerNorm.callAcross rsqrt groups lns xs)[d]? = some (.error .valueError) := by
  rw [LayerNorm.callAcross, List.getElem?_mapIdx, (List.getElem?_zip_eq_some (z := (ln, x))).2 ⟨hln, hxd⟩]
  have hs : pick false (axisMask shape.length (canonicalizeAxes shape.length ln.reductionAxes)) shape = [] := by
    apply pick_eq_nil
    intro b hb
    obtain ⟨i, hi, rfl⟩ := List.mem_map.1 hb
    have hi := List.mem_range.1 hi
    rw [decide_eq_true_eq]
    by_contra hc
    obtain ⟨k1, k2⟩ := (keptAxes (axes := ln.reductionAxes) i hi).2 hc
    exact (hall i hi).elim k1 k2
  simp only [Option.map_some]
  have hloc : ∀ u ∈ xs, ∃ p, localMeans u ln.reductionAxes = .ok p ∧ p.1.shape = [] := by
    intro u hu
    have e := hx u hu
    obtain ⟨m, m2, h1, h2, -, -⟩ := localMeans_spec (x := u) (axes := ln.reductionAxes) (by rw [e]; exact hred)
      (fun i => (i : Int) ∉ ln.reductionAxes ∧ (i : Int) - u.shape.length ∉ ln.reductionAxes) keptAxes
    rw [e] at h2
    exact ⟨_, h1, h2.trans hs⟩
  obtain ⟨ms, hms, lms, gms⟩ := mapExcept_all (f := fun u => localMeans u ln.reductionAxes) (xs := xs)
    (fun u hu => (hloc u hu).imp fun p hp => hp.1)
  have hcat : mapExcept (fun p : Tensor 𝕜 × Tensor 𝕜 => concat0 p.1 p.2) ms = .error .valueError := by
    cases xs with
    | nil => simp at hxd
    | cons u us =>
      obtain ⟨q, hq, hu⟩ := gms 0 u rfl
      obtain ⟨q', hq', hs'⟩ := hloc u (by simp)
      rw [hu] at hq'
      cases hq'
      cases ms with
      | nil => simp at hq
      | cons q0 ms =>
        simp only [List.getElem?_cons_zero, Option.some.injEq] at hq
        subst hq
        rw [mapExcept, concat0, hs']
  rw [LayerNorm.callWith, deviceStats, statsAcross, hms]
  simp only [hcat]

/-! ### Examples -/

/-- What two devices have: a 3×2 batch of rationals, and one shifted by 100. -/
def exParts : List (Tensor ℚ) := [exBatch, exBatch.map fun v => v + 100]

example : ∀ x ∈ exParts, x.shape = [3, 2] := by
  intro x hx
  simp only [exParts, List.mem_cons, List.not_mem_nil, or_false] at hx
  rcases hx with rfl | rfl <;> rfl
example : together exParts [0, 1] (fun u => channel u 1 1) = [1, 11, 21, 101, 111, 121] := by decide +kernel
/-- The replicas after a training step, on either device: the mean of feature 1 over both is 61. -/
example : ∀ d < 2, ((acrossRun (fun _ => 1) (List.replicate 2 exBn) [⟨exParts, some false, none⟩])[d]?.map
    fun bn => bn.mean.val [1]) = some (61 / 10) := by decide +kernel
/-- Device 2 of 4 takes part in the statistics of devices 0 and 2. -/
example : Involves (some [[0, 2], [1, 3]]) 4 2 [0, 2] := by
  refine ⟨by decide, by decide, fun g hg h => ?_, by decide⟩
  simp only [List.mem_cons, List.not_mem_nil, or_false] at hg
  rcases hg with rfl | rfl
  · rfl
  · exact absurd h (by decide)
example : NamesAxis exBn.axis (List.length [3, 2] + 1) 2 := ⟨by decide, Or.inr rfl⟩
/-- A `LayerNorm` over the last axis, and one over both. -/
example : (∃ i : Nat, i < 2 ∧ (i : Int) ∉ [(-1 : Int)] ∧ (i : Int) - 2 ∉ [(-1 : Int)]) ∧
    ∀ i : Nat, i < 2 → (i : Int) ∈ [(0 : Int), -1] ∨ (i : Int) - 2 ∈ [(0 : Int), -1] := by
  constructor
  · exact ⟨0, by decide, by decide, by decide⟩
  · intro i hi
    have : i = 0 ∨ i = 1 := by omega
    rcases this with rfl | rfl <;> decide

end Nnx
