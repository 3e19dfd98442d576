import Verif.Proofs.ComplexNorm
import Verif.Props.Normalization

/-!
# C125: normalization of complex arrays
-/

namespace Nnx

/-- **C125, the statistics.** For every position of the input, the mean and the variance (the mean squared distance from the mean) of the entries that agree
with it on the axes not reduced; the variance is real and not negative. -/
theorem C125_stats (x : Tensor ℂ) (axes : List Int) (h : ValidAxes x.shape.length axes) :
    ∃ mean var, complexStats x axes = .ok (mean, var) ∧ mean.shape = var.shape ∧
      ∀ idx, Within idx x.shape → ∃ pos, Within pos mean.shape ∧
        mean.val pos = avg ((cell x.shape (fun i => (i : Int) ∉ axes ∧ (i : Int) - x.shape.length ∉ axes) idx).map x.val) ∧
        var.val pos = spread ((cell x.shape (fun i => (i : Int) ∉ axes ∧ (i : Int) - x.shape.length ∉ axes) idx).map x.val) ∧ 0 ≤ var.val pos := by
  obtain ⟨m, v, h1, h2, h3, h4⟩ := complexStats_spec h (fun i => (i : Int) ∉ axes ∧ (i : Int) - x.shape.length ∉ axes) keptAxes
  exact ⟨m, v, h1, h3.symm, fun idx hw => ⟨_, by rw [h2]; exact within_pick hw, (h4 idx hw).1, (h4 idx hw).2, by
    rw [(h4 idx hw).2]; exact spread_nonneg _⟩⟩

/-- **C125, LayerNorm.** -/
theorem C125_layer_norm (rsqrt : ℝ → ℝ) (ln : LayerNorm ℂ) {eps : ℝ} (heps : ln.epsilon = (eps : ℂ)) (x : Tensor ℂ) (a n : Nat)
    (hred : ValidAxes x.shape.length ln.reductionAxes) (hfeat : NamesAxis ln.featureAxes x.shape.length a)
    (hn : x.shape[a]? = some n) (hscale : ∀ q, ln.scale = some q → q.shape = [n]) (hbias : ∀ q, ln.bias = some q → q.shape = [n]) :
    ∃ y, ln.callC rsqrt x = .ok y ∧ y.shape = x.shape ∧
      ∀ idx f, Within idx x.shape → idx[a]? = some f →
        let sample := (cell x.shape (fun i => (i : Int) ∉ ln.reductionAxes ∧ (i : Int) - x.shape.length ∉ ln.reductionAxes) idx).map x.val
        y.val idx = (x.val idx - avg sample) * ((rsqrt (spread sample + eps) : ℂ) * vecAt ln.scale f 1) + vecAt ln.bias f 0 := by
  obtain ⟨m, v, h1, h2, h3, h4⟩ := complexStats_spec hred
    (fun i => (i : Int) ∉ ln.reductionAxes ∧ (i : Int) - x.shape.length ∉ ln.reductionAxes) keptAxes
  have c2 := canonical_one hfeat
  obtain ⟨y, y1, y2, y3⟩ := normalize_spec (rsqrtC rsqrt) (x := x) (mean := m) (var := v.map Complex.ofReal) (scale := ln.scale) (bias := ln.bias)
    (red := ln.reductionAxes) (feat := ln.featureAxes) ln.epsilon (canonical_range hred.1)
    (by rw [c2]; intro b hb; simp only [List.mem_singleton] at hb; have := hfeat.1; omega)
    (by rw [h2]) (by show size v.shape = _; rw [h3, h2])
    (by intro q hq; rw [c2, pick_one hn rfl, hscale q hq]) (by intro q hq; rw [c2, pick_one hn rfl, hbias q hq])
  refine ⟨y, by rw [LayerNorm.callC, LayerNorm.callWith, h1]; exact y1, y2, fun idx f hw hf => ?_⟩
  obtain ⟨f', hf', hlt⟩ := coord hw hn
  rw [hf] at hf'; cases hf'
  simp only
  rw [y3 idx hw, c2, show (v.map Complex.ofReal).shape = v.shape from rfl, h3, h2, unravel_ravel (within_pick hw), (h4 idx hw).1,
    paramAt_one hscale hn hw hf hlt, paramAt_one hbias hn hw hf hlt]
  simp only [Tensor.map, rsqrtC, heps, Complex.add_re, Complex.ofReal_re]
  rw [(h4 idx hw).2]

/-- **C125, BatchNorm with `use_running_average`** changes nothing and uses the stored statistics. -/
theorem C125_running (rsqrt : ℝ → ℝ) (bn : BatchNorm ℂ) {eps : ℝ} (heps : bn.epsilon = (eps : ℂ)) (x : Tensor ℂ) (arg flag : Option Bool) (a n : Nat)
    (hmode : firstFrom [arg, bn.useRunningAverage, flag] = .ok true)
    (hfit : bn.Fits n) (haxis : NamesAxis bn.axis x.shape.length a) (hn : x.shape[a]? = some n) :
    ∃ y, bn.callC rsqrt x arg flag = (bn, .ok y) ∧ y.shape = x.shape ∧
      ∀ idx f, Within idx x.shape → idx[a]? = some f →
        y.val idx = (x.val idx - bn.mean.val [f]) * ((rsqrt ((bn.var.val [f]).re + eps) : ℂ) * vecAt bn.scale f 1) + vecAt bn.bias f 0 := by
  obtain ⟨y, h1, h2, h3⟩ := normalize_one (rsqrtC rsqrt) (x := x) bn.epsilon hn hfit.mean hfit.var hfit.scale hfit.bias
  refine ⟨y, ?_, h2, fun idx f hw hf => ?_⟩
  · rw [BatchNorm.callC, BatchNorm.callWith, hmode, canonical_one haxis]
    simp only [if_true, h1]
  · rw [h3 idx f hw hf]
    simp only [rsqrtC, heps, Complex.add_re, Complex.ofReal_re]

/-- **C125, BatchNorm in training** moves the running mean and the running variance towards those of the batch, and normalizes with those of the batch. -/
theorem C125_training (rsqrt : ℝ → ℝ) (bn : BatchNorm ℂ) {eps : ℝ} (heps : bn.epsilon = (eps : ℂ)) (x : Tensor ℂ) (arg flag : Option Bool) (a n : Nat)
    (hmode : firstFrom [arg, bn.useRunningAverage, flag] = .ok false)
    (hfit : bn.Fits n) (haxis : NamesAxis bn.axis x.shape.length a) (hn : x.shape[a]? = some n) (hne : 0 < size x.shape) :
    ∃ mean var y, bn.callC rsqrt x arg flag = ({ bn with mean := mean, var := var }, .ok y) ∧ mean.shape = [n] ∧ var.shape = [n] ∧
      (∀ f, f < n →
        mean.val [f] = bn.momentum * bn.mean.val [f] + (1 - bn.momentum) * avg (channel x a f) ∧
        var.val [f] = bn.momentum * bn.var.val [f] + (1 - bn.momentum) * (spread (channel x a f) : ℂ)) ∧
      y.shape = x.shape ∧
      ∀ idx f, Within idx x.shape → idx[a]? = some f →
        y.val idx = (x.val idx - avg (channel x a f)) * ((rsqrt (spread (channel x a f) + eps) : ℂ) * vecAt bn.scale f 1) + vecAt bn.bias f 0 := by
  obtain ⟨m, v, s1, s2, s3, s4⟩ := complexStats_one hn hne
  obtain ⟨m', hm1, hm2, hm3⟩ := emaStep_vec (m := bn.momentum) hfit.mean s2
  obtain ⟨v', hv1, hv2, hv3⟩ := emaStep_vec (m := bn.momentum) hfit.var (show (v.map Complex.ofReal).shape = [n] from s3)
  obtain ⟨y, h1, h2, h3⟩ := normalize_one (rsqrtC rsqrt) (x := x) bn.epsilon hn s2 (show (v.map Complex.ofReal).shape = [n] from s3) hfit.scale hfit.bias
  refine ⟨m', v', y, ?_, hm2, hv2, fun f hf => ⟨?_, ?_⟩, h2, fun idx f hw hf => ?_⟩
  · rw [BatchNorm.callC, BatchNorm.callWith, hmode, canonical_one haxis]
    simp only [Bool.false_eq_true, if_false, s1, promoted, hm1, hv1, h1]
  · rw [hm3 f hf, (s4 f hf).1]
  · rw [hv3 f hf, ← (s4 f hf).2]; rfl
  · obtain ⟨f', hf', hlt⟩ := coord hw hn
    rw [hf] at hf'; cases hf'
    rw [h3 idx f hw hf, (s4 f hlt).1]
    simp only [Tensor.map, rsqrtC, heps, Complex.add_re, Complex.ofReal_re]
    rw [(s4 f hlt).2]

/-- **C125, the output**: in training, the output of BatchNorm has in every feature the mean `bias`, and the variance `var / (var + epsilon)` times the squared
absolute value of the scale. -/
theorem C125_output (rsqrt : ℝ → ℝ) (hrsqrt : ∀ v, 0 < v → rsqrt v * rsqrt v = 1 / v) (bn : BatchNorm ℂ) {eps : ℝ} (heps : bn.epsilon = (eps : ℂ))
    (hpos : 0 < eps) (x : Tensor ℂ) (arg flag : Option Bool) (a n : Nat) (hmode : firstFrom [arg, bn.useRunningAverage, flag] = .ok false)
    (hfit : bn.Fits n) (haxis : NamesAxis bn.axis x.shape.length a) (hn : x.shape[a]? = some n) (hne : 0 < size x.shape) :
    ∃ bn' y, bn.callC rsqrt x arg flag = (bn', .ok y) ∧ ∀ f, f < n →
      avg (channel y a f) = vecAt bn.bias f 0 ∧
      spread (channel y a f) = spread (channel x a f) / (spread (channel x a f) + eps) * Complex.normSq (vecAt bn.scale f 1) := by
  obtain ⟨m, v, y, h1, -, -, -, h5, h6⟩ := C125_training rsqrt bn heps x arg flag a n hmode hfit haxis hn hne
  refine ⟨_, y, h1, fun f hf => ?_⟩
  have hc := channel_affine h5 (c := avg (channel x a f)) (k := (rsqrt (spread (channel x a f) + eps) : ℂ) * vecAt bn.scale f 1) (b := vecAt bn.bias f 0)
    (fun idx hw hi => h6 idx f hw hi)
  have hmean : avg (channel y a f) = vecAt bn.bias f 0 := by rw [hc]; exact (avg_affine (channel_ne_nil hn hne hf) _ _).1
  refine ⟨hmean, ?_⟩
  have hk : Complex.normSq ((rsqrt (spread (channel x a f) + eps) : ℂ) * vecAt bn.scale f 1) =
      1 / (spread (channel x a f) + eps) * Complex.normSq (vecAt bn.scale f 1) := by
    rw [Complex.normSq_mul, Complex.normSq_ofReal, hrsqrt _ (add_pos_of_nonneg_of_pos (spread_nonneg _) hpos)]
  rw [spread, hmean, hc, List.map_map]
  rw [show ((fun z => Complex.normSq (z - vecAt bn.bias f 0)) ∘ fun z => (z - avg (channel x a f)) *
      ((rsqrt (spread (channel x a f) + eps) : ℂ) * vecAt bn.scale f 1) + vecAt bn.bias f 0) =
      fun z => Complex.normSq (z - avg (channel x a f)) * (1 / (spread (channel x a f) + eps) * Complex.normSq (vecAt bn.scale f 1)) from
    funext fun z => by simp only [Function.comp]; rw [add_sub_cancel_right, Complex.normSq_mul, hk]]
  have hk2 : ∀ k : ℝ, avg ((channel x a f).map fun z => Complex.normSq (z - avg (channel x a f)) * k) = spread (channel x a f) * k := by
    intro k
    rw [spread]
    generalize avg (channel x a f) = m
    rw [avg, List.length_map, List.sum_map_mul_right, avg, List.length_map]
    ring
  rw [hk2]
  ring

/-- **C125, real arrays.** On real arrays, and with real parameters, LayerNorm of complex arrays is LayerNorm of real arrays. -/
theorem C125_real_layer_norm (rsqrt : ℝ → ℝ) (ln : LayerNorm ℝ) (x : Tensor ℝ) :
    ln.ofReal.callC rsqrt (x.map Complex.ofReal) = resultOfReal (ln.call rsqrt x) := by
  have e := complexStats_ofReal x ln.reductionAxes
  simp only [LayerNorm.callC, LayerNorm.callWith, LayerNorm.call, LayerNorm.ofReal, e]
  cases computeStats x ln.reductionAxes with
  | error e => rfl
  | ok mv => exact normalize_ofReal rsqrt x mv.1 mv.2 ln.scale ln.bias ln.reductionAxes ln.featureAxes ln.epsilon

/-- **C125, real arrays.** So is BatchNorm: the module afterwards (its statistics stay real) and the result. -/
theorem C125_real_batch_norm (rsqrt : ℝ → ℝ) (bn : BatchNorm ℝ) (x : Tensor ℝ) (arg flag : Option Bool) :
    bn.ofReal.callC rsqrt (x.map Complex.ofReal) arg flag = ((bn.call rsqrt x arg flag).1.ofReal, resultOfReal (bn.call rsqrt x arg flag).2) := by
  simp only [BatchNorm.callC, BatchNorm.callWith, BatchNorm.call]
  show (match firstFrom [arg, bn.useRunningAverage, flag] with | .error e => _ | .ok r => _) = _
  cases firstFrom [arg, bn.useRunningAverage, flag] with
  | error e => rfl
  | ok running =>
    dsimp only
    cases running with
    | true => exact Prod.ext rfl (normalize_ofReal rsqrt x bn.mean bn.var bn.scale bn.bias _ _ bn.epsilon)
    | false =>
      have e := complexStats_ofReal x (otherAxes x.shape.length (canonicalizeAxes x.shape.length bn.axis))
      rw [if_neg (by decide), if_neg (by decide)]
      rw [show promoted (complexStats (x.map Complex.ofReal) (otherAxes (x.map Complex.ofReal).shape.length
        (canonicalizeAxes (x.map Complex.ofReal).shape.length bn.ofReal.axis))) = _ from e]
      cases computeStats x (otherAxes x.shape.length (canonicalizeAxes x.shape.length bn.axis)) with
      | error e => rfl
      | ok mv =>
        obtain ⟨m, v⟩ := mv
        dsimp only [BatchNorm.ofReal]
        rw [emaStep_ofReal]
        cases emaStep bn.momentum bn.mean m with
        | error e => rfl
        | ok nm =>
          dsimp only [resultOfReal]
          rw [emaStep_ofReal]
          cases emaStep bn.momentum bn.var v with
          | error e => rfl
          | ok nv => exact Prod.ext rfl (normalize_ofReal rsqrt x m v bn.scale bn.bias _ _ bn.epsilon)

/-- **C125, rotations.** Multiplying the input by a complex number of absolute value 1 multiplies the result of a LayerNorm without a bias by it. -/
theorem C125_rotation (rsqrt : ℝ → ℝ) (ln : LayerNorm ℂ) {eps : ℝ} (heps : ln.epsilon = (eps : ℂ)) (hb : ln.bias = none) (x : Tensor ℂ) (a n : Nat)
    (hred : ValidAxes x.shape.length ln.reductionAxes) (hfeat : NamesAxis ln.featureAxes x.shape.length a)
    (hn : x.shape[a]? = some n) (hscale : ∀ q, ln.scale = some q → q.shape = [n]) (u : ℂ) (hu : Complex.normSq u = 1) :
    ∃ y z, ln.callC rsqrt x = .ok y ∧ ln.callC rsqrt (x.map fun v => u * v) = .ok z ∧ y.shape = x.shape ∧ z.shape = x.shape ∧
      ∀ idx, Within idx x.shape → z.val idx = u * y.val idx := by
  have hbias : ∀ q, ln.bias = some q → q.shape = [n] := fun q hq => by rw [hb] at hq; cases hq
  obtain ⟨y, y1, y2, y3⟩ := C125_layer_norm rsqrt ln heps x a n hred hfeat hn hscale hbias
  obtain ⟨z, z1, z2, z3⟩ := C125_layer_norm rsqrt ln heps (x.map fun v => u * v) a n hred hfeat hn hscale hbias
  refine ⟨y, z, y1, z1, y2, z2, fun idx hw => ?_⟩
  obtain ⟨f, hf, _⟩ := coord hw hn
  have e1 := y3 idx f hw hf
  have e2 := z3 idx f hw hf
  simp only at e1 e2
  rw [e1, e2]
  generalize hs : (cell x.shape (fun i => (i : Int) ∉ ln.reductionAxes ∧ (i : Int) - x.shape.length ∉ ln.reductionAxes) idx).map x.val = l
  have hs2 : (cell (x.map fun v => u * v).shape (fun i => (i : Int) ∉ ln.reductionAxes ∧ (i : Int) - (x.map fun v => u * v).shape.length ∉ ln.reductionAxes)
      idx).map (x.map fun v => u * v).val = l.map fun v => u * v := by
    rw [← hs, List.map_map]; rfl
  rw [hs2, avg_mul_left, spread_mul_left, hu, one_mul, hb]
  simp only [vecAt, add_zero, Tensor.map]
  ring

/-! ### Examples -/

/-- A 2×2 complex batch. -/
noncomputable def exComplex : Tensor ℂ := ⟨[2, 2], fun idx => (idx.headD 0 : ℂ) + (idx.getD 1 0 : ℂ) * Complex.I⟩

/-- A `BatchNorm` over two features. -/
noncomputable def exComplexBn : BatchNorm ℂ :=
  { mean := ⟨[2], fun _ => 0⟩, var := ⟨[2], fun _ => 1⟩, scale := some ⟨[2], fun _ => Complex.I⟩, bias := none,
    useRunningAverage := none, axis := [-1], momentum := 9/10, epsilon := ((1/100 : ℝ) : ℂ) }

/-- The hypotheses of C125 for a LayerNorm and a BatchNorm. -/
example : ValidAxes exComplex.shape.length [-1] ∧ NamesAxis [-1] exComplex.shape.length 1 ∧ exComplex.shape[1]? = some 2 ∧ 0 < size exComplex.shape ∧
    exComplexBn.Fits 2 ∧ NamesAxis exComplexBn.axis exComplex.shape.length 1 ∧ exComplexBn.epsilon = ((1/100 : ℝ) : ℂ) ∧
    firstFrom [some false, exComplexBn.useRunningAverage, none] = .ok false ∧ Complex.normSq Complex.I = 1 :=
  ⟨⟨by decide, by decide⟩, ⟨by decide, .inr rfl⟩, rfl, by decide, ⟨rfl, rfl, fun q h => by cases h; rfl, fun q h => by cases h⟩, ⟨by decide, .inr rfl⟩, rfl,
    rfl, Complex.normSq_I⟩

/-- The points 1 and i have mean (1 + i)/2 and variance 1/2, not E[z²] - E[z]² = -i/2. -/
example : spread [1, Complex.I] = 1 / 2 := by
  rw [← spread_eq (by simp)]
  norm_num [avg, absSq]

end Nnx
