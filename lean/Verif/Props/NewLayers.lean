import Verif.Model.Initializers
import Verif.Props.Layers
import Verif.Props.Invariance
/-
C136: what layers compute before they are trained, with the default initialisers of biases and scales.
-/
namespace Nnx
variable {κ η 𝕜 : Type}

section
variable [Field 𝕜]

/-- **C136, Linear.** A new `Linear` with the default bias, or without bias, is linear, whatever initialised its kernel: it maps combinations of inputs to the same combinations of the
outputs. -/
theorem C136_linear (P : RngPrims κ η) {w : RngWorld κ} {c s : Nat} {st : RngStream κ} (h : ParamsStream w c s st) (a : LinearArgs κ 𝕜) (hk : a.kernelInit.Sized)
    (hb : a.biasInit = .zeros) (x x1 x2 : Tensor 𝕜) (a1 a2 : 𝕜) (B : List Nat) (hx : x.shape = B ++ [a.inFeatures]) (h1 : x1.shape = x.shape) (h2 : x2.shape = x.shape)
    (hc : ∀ idx, Within idx x.shape → x.val idx = a1 * x1.val idx + a2 * x2.val idx) :
    ∃ w' l y y1 y2, Linear.create P c a w = (w', .ok l) ∧ l.call x = .ok y ∧ l.call x1 = .ok y1 ∧ l.call x2 = .ok y2 ∧
      y.shape = B ++ [a.outFeatures] ∧ y1.shape = y.shape ∧ y2.shape = y.shape ∧
      ∀ idx, Within idx y.shape → y.val idx = a1 * y1.val idx + a2 * y2.val idx := by
  have hbs : a.biasInit.Sized := by rw [hb]; exact fun _ _ => rfl
  obtain ⟨w', l, y, e1, e2, e3, e4⟩ := C87_linear P h a hk hbs x B hx
  obtain ⟨w1, l1, y1, f1, f2, f3, f4⟩ := C87_linear P h a hk hbs x1 B (h1.trans hx)
  obtain ⟨w2, l2, y2, g1, g2, g3, g4⟩ := C87_linear P h a hk hbs x2 B (h2.trans hx)
  rw [e1] at f1 g1
  cases f1; cases g1
  refine ⟨_, _, y, y1, y2, e1, e2, f2, g2, e3, f3.trans e3.symm, g3.trans e3.symm, fun idx hw => ?_⟩
  rw [e3] at hw
  obtain ⟨b, r, rfl, hb', hr⟩ := within_split hw
  obtain ⟨j, rfl, hj⟩ := within_one hr
  have hz : (if a.useBias then (a.biasInit (st.keyNo P 1) [a.outFeatures]).val [j] else 0) = 0 := by
    rw [hb]; split <;> rfl
  rw [e4 b j hb' hj, f4 b j hb' hj, g4 b j hb' hj, hz, add_zero, add_zero, add_zero]
  apply sum_combination
  intro i hi
  rw [hc _ (by rw [hx]; exact within_append hb' (.cons (List.mem_range.1 hi) .nil))]
  ring

/-- **C136, Conv.** A new `Conv` with the default bias gives what a new `Conv` without bias gives that was made with the same context in the same state; so (C118) it is linear. -/
theorem C136_conv (P : RngPrims κ η) {w : RngWorld κ} {c s : Nat} {st : RngStream κ} (h : ParamsStream w c s st) (a : ConvArgs κ 𝕜) (sd : List SpatialDim) (inF : Nat)
    (hk : a.kernelInit.Sized) (hb : a.biasInit = .zeros)
    (hmask : ∀ f, a.maskFn = some f → ∀ t, (f t).shape = t.shape) (hsize : a.kernelSize = .seq (sd.map SpatialDim.kLen))
    (hstr : a.strides.Says (sd.map SpatialDim.stride)) (hid : a.inputDilation.Says (sd.map SpatialDim.inDil))
    (hkd : a.kernelDilation.Says (sd.map SpatialDim.kDil)) (hg : a.featureGroupCount ≠ 0)
    (hin : a.inFeatures = inF * a.featureGroupCount) (hout : a.outFeatures % a.featureGroupCount = 0)
    (x : Tensor 𝕜) (B : List Nat) (hx : x.shape = B ++ (sd.map SpatialDim.inLen ++ [a.inFeatures])) :
    ∃ w1 w2 cv cv0, Conv.create P c a w = (w1, .ok cv) ∧ Conv.create P c { a with useBias := false } w = (w2, .ok cv0) ∧
      (cv.PaddedAs sd → ∃ y y0, cv.call x = .ok y ∧ cv0.call x = .ok y0 ∧ y.shape = B ++ (sd.map SpatialDim.outLen ++ [a.outFeatures]) ∧ y0.shape = y.shape ∧
        ∀ idx, Within idx y.shape → y.val idx = y0.val idx) := by
  have hbs : a.biasInit.Sized := by rw [hb]; exact fun _ _ => rfl
  obtain ⟨w1, cv, e1, e2, e3, e4⟩ := C87_conv P h a sd inF hk hbs hmask hsize hstr hid hkd hg hin hout x B hx
  obtain ⟨w2, cv0, f1, f2, f3, f4⟩ := C87_conv P h { a with useBias := false } sd inF hk hbs hmask hsize hstr hid hkd hg hin hout x B hx
  refine ⟨w1, w2, cv, cv0, e1, f1, fun hpad => ?_⟩
  have hc1 := C86_conv P h a _ hsize hg
  have hc2 := C86_conv P h { a with useBias := false } _ hsize hg
  rw [e1] at hc1
  rw [f1] at hc2
  simp only [Prod.mk.injEq, Except.ok.injEq] at hc1 hc2
  have hpad0 : cv0.PaddedAs sd := by
    rw [hc1.2] at hpad
    rw [hc2.2]
    exact hpad
  have hreads : cv.reads sd = cv0.reads sd := by
    rw [hc1.2, hc2.2]; rfl
  have hker : cv.usedKernel = cv0.usedKernel := by rw [e3, f3]
  obtain ⟨y, y1, y2, y3⟩ := e4 hpad
  obtain ⟨z, z1, z2, z3⟩ := f4 hpad0
  refine ⟨y, z, y1, z1, y2, z2.trans y2.symm, fun idx hw => ?_⟩
  rw [y2] at hw
  obtain ⟨b, r, rfl, hb', hr⟩ := within_split hw
  obtain ⟨o, r, rfl, ho, hr1⟩ := within_split hr
  obtain ⟨f, rfl, hf⟩ := within_one hr1
  have hz : (if a.useBias then (a.biasInit (st.keyNo P 1) [a.outFeatures]).val [f] else 0) = 0 := by
    rw [hb]; split <;> rfl
  rw [y3 b o f hb' ho hf, z3 b o f hb' ho hf, hz, hreads, hker]
  simp

end

section
variable [Field 𝕜] [LinearOrder 𝕜] [IsStrictOrderedRing 𝕜]

/-- **C136, BatchNorm.** A new `BatchNorm` with the default bias and scale that uses running averages only divides by `sqrt(1 + epsilon)`. -/
theorem C136_batch_norm (P : RngPrims κ η) {w : RngWorld κ} {c s : Nat} {st : RngStream κ} (h : ParamsStream w c s st) (a : BatchNormArgs κ 𝕜)
    (hs : a.scaleInit = .ones) (hb : a.biasInit = .zeros) (rsqrt : 𝕜 → 𝕜) (x : Tensor 𝕜) (arg flag : Option Bool) (hmode : firstFrom [arg, a.useRunningAverage, flag] = .ok true)
    (p : Nat) (haxis : NamesAxis a.axis x.shape.length p) (hn : x.shape[p]? = some a.numFeatures) :
    ∃ w' bn y, BatchNorm.create P c a w = (w', .ok bn) ∧ bn.call rsqrt x arg flag = (bn, .ok y) ∧ y.shape = x.shape ∧
      ∀ idx, Within idx x.shape → y.val idx = x.val idx * rsqrt (1 + a.epsilon) := by
  obtain ⟨w', bn, y, e1, e2, e3, e4⟩ := C87_batch_norm P h a (by rw [hs]; exact fun _ _ => rfl) (by rw [hb]; exact fun _ _ => rfl) rsqrt [] (fun _ => p) (by simp)
    x arg flag hmode haxis hn
  refine ⟨w', bn, y, e1, e2, e3, fun idx hw => ?_⟩
  obtain ⟨f, hf, _⟩ := coord hw hn
  have := e4 idx f hw hf
  rw [hs, hb] at this
  simpa [trainBatches, movingAverage, Initializer.ones, Initializer.zeros] using this

/-- **C136, BatchNorm in training.** In training, the outputs of a new `BatchNorm` with the default bias and scale have mean zero and variance `v / (v + epsilon)` in every feature, where `v` is
the variance of this feature in the batch. -/
theorem C136_batch_norm_training (P : RngPrims κ η) {w : RngWorld κ} {c s : Nat} {st : RngStream κ} (h : ParamsStream w c s st) (a : BatchNormArgs κ 𝕜)
    (hs : a.scaleInit = .ones) (hb : a.biasInit = .zeros) (heps : 0 < a.epsilon) (rsqrt : 𝕜 → 𝕜) (hrsqrt : ∀ v, 0 < v → rsqrt v * rsqrt v = 1 / v)
    (x : Tensor 𝕜) (arg flag : Option Bool) (hmode : firstFrom [arg, a.useRunningAverage, flag] = .ok false)
    (p : Nat) (haxis : NamesAxis a.axis x.shape.length p) (hn : x.shape[p]? = some a.numFeatures) (hne : 0 < size x.shape) :
    ∃ w' bn bn' y, BatchNorm.create P c a w = (w', .ok bn) ∧ bn.call rsqrt x arg flag = (bn', .ok y) ∧
      ∀ f, f < a.numFeatures → avg (channel y p f) = 0 ∧ variance (channel y p f) = variance (channel x p f) / (variance (channel x p f) + a.epsilon) := by
  have he := C86_batch_norm P h a
  rw [hs, hb] at he
  generalize hbn : (BatchNorm.mk (𝕜 := 𝕜) _ _ _ _ _ _ _ _) = bn at he
  have hfit : bn.Fits a.numFeatures := by
    subst hbn
    refine ⟨rfl, rfl, ?_, ?_⟩ <;>
    · intro q hq
      dsimp only at hq
      split at hq
      · cases hq; rfl
      · cases hq
  have hbias : ∀ f, vecAt bn.bias f 0 = 0 := by
    intro f; subst hbn; cases a.useBias <;> rfl
  have hscale : ∀ f, vecAt bn.scale f 1 = 1 := by
    intro f; subst hbn; cases a.useScale <;> rfl
  have e1 : bn.useRunningAverage = a.useRunningAverage := by subst hbn; rfl
  have e2 : bn.axis = a.axis := by subst hbn; rfl
  have e3 : bn.epsilon = a.epsilon := by subst hbn; rfl
  obtain ⟨bn1, y1, c1, m1⟩ := C60_mean_zero rsqrt bn x arg flag p a.numFeatures (by rw [e1]; exact hmode) hfit (by rw [e2]; exact haxis) hn hne
  obtain ⟨bn2, y2, c2, m2⟩ := C60_output_variance rsqrt hrsqrt bn (by rw [e3]; exact heps) x arg flag p a.numFeatures (by rw [e1]; exact hmode) hfit (by rw [e2]; exact haxis) hn hne
  rw [c1] at c2
  cases c2
  refine ⟨_, bn, bn1, y1, he, c1, fun f hf => ⟨?_, ?_⟩⟩
  · rw [m1 f hf, hbias]
  · rw [m2 f hf, hscale, e3, mul_one, mul_one]

/-- **C136, LayerNorm.** The outputs of a new `LayerNorm` with the default bias and scale have mean zero, and variance `v / (v + epsilon)`, where `v` is that of the inputs, among
the entries that are normalized together. `hrsqrt` is what `1/sqrt(v)` satisfies. -/
theorem C136_layer_norm (P : RngPrims κ η) {w : RngWorld κ} {c s : Nat} {st : RngStream κ} (h : ParamsStream w c s st)
    (a : LayerNormArgs κ 𝕜) (hs : a.scaleInit = .ones) (hb : a.biasInit = .zeros) (heps : 0 < a.epsilon) (rsqrt : 𝕜 → 𝕜) (hrsqrt : ∀ v, 0 < v → rsqrt v * rsqrt v = 1 / v)
    (x : Tensor 𝕜) (p : Nat) (hred : ValidAxes x.shape.length a.reductionAxes)
    (hfeat : NamesAxis a.featureAxes x.shape.length p) (hn : x.shape[p]? = some a.numFeatures) :
    ∃ w' ln y, LayerNorm.create P c a w = (w', .ok ln) ∧ ln.call rsqrt x = .ok y ∧ y.shape = x.shape ∧
      ∀ idx, Within idx x.shape →
        let together := cell x.shape (fun i => (i : Int) ∉ a.reductionAxes ∧ (i : Int) - x.shape.length ∉ a.reductionAxes) idx
        avg (together.map y.val) = 0 ∧ variance (together.map y.val) = variance (together.map x.val) / (variance (together.map x.val) + a.epsilon) := by
  obtain ⟨w', ln, y, e1, e2, e3, e4⟩ := C87_layer_norm P h a (by rw [hs]; exact fun _ _ => rfl) (by rw [hb]; exact fun _ _ => rfl) rsqrt x p hred hfeat hn
  refine ⟨w', ln, y, e1, e2, e3, fun idx hw => ?_⟩
  intro together
  have hsame : ∀ j ∈ together, Within j x.shape ∧
      cell x.shape (fun i => (i : Int) ∉ a.reductionAxes ∧ (i : Int) - x.shape.length ∉ a.reductionAxes) j = together := by
    intro j hj
    simp only [together, cell, List.mem_filter, mem_indices, decide_eq_true_eq] at hj
    refine ⟨hj.1, ?_⟩
    simp only [together, cell]
    apply List.filter_congr
    intro k _
    rw [decide_eq_decide]
    exact ⟨fun H i hi hk => (H i hi hk).trans (hj.2 i hi hk), fun H i hi hk => (H i hi hk).trans (hj.2 i hi hk).symm⟩
  have hval : together.map y.val = (together.map x.val).map fun v => (v - avg (together.map x.val)) * rsqrt (variance (together.map x.val) + a.epsilon) + 0 := by
    rw [List.map_map]
    apply List.map_congr_left
    intro j hj
    obtain ⟨hwj, hcj⟩ := hsame j hj
    obtain ⟨f, hf, _⟩ := coord hwj hn
    have := e4 j f hwj hf
    rw [hs, hb] at this
    simp only [Initializer.ones, Initializer.zeros, ite_self, mul_one, hcj] at this
    simpa using this
  have hne : together.map x.val ≠ [] := by
    have := self_mem_cell hw (fun i => (i : Int) ∉ a.reductionAxes ∧ (i : Int) - x.shape.length ∉ a.reductionAxes)
    intro e
    rw [List.map_eq_nil_iff] at e
    have h' : idx ∈ together := this
    rw [e] at h'
    cases h'
  rw [hval]
  obtain ⟨m1, m2⟩ := avg_affine hne (rsqrt (variance (together.map x.val) + a.epsilon)) 0
  refine ⟨m1, ?_⟩
  rw [m2, hrsqrt _ (add_pos_of_nonneg_of_pos (variance_nonneg _) heps)]
  ring

end

/-! ### Examples -/

/-- Layers with the default biases and scales; the kernels depend on the keys. -/
def exDefaultLinear : LinearArgs SymKey ℚ := { inFeatures := 2, outFeatures := 3, kernelInit := exInit, biasInit := .zeros }

def exDefaultBatchNorm : BatchNormArgs SymKey ℚ := { numFeatures := 2, momentum := 1/2, epsilon := 3, biasInit := .zeros, scaleInit := .ones }

def exDefaultLayerNorm : LayerNormArgs SymKey ℚ := { numFeatures := 2, epsilon := 3, biasInit := .zeros, scaleInit := .ones }

/-- `1/sqrt(v)` at the squares that occur below. -/
def exRsqrt : ℚ → ℚ := fun v => if v = 4 then 1/2 else if v = 16 then 1/4 else 0

def exRows : Tensor ℚ := ⟨[2, 2], fun idx => match idx with
  | [0, 0] => 1
  | [0, 1] => 3
  | [1, 0] => 8
  | _ => 10⟩

/-- The hypotheses hold of the world after making one context. -/
example : ParamsStream exRng2 0 1 ⟨.prng 0, 1, []⟩ ∧ exDefaultLinear.kernelInit.Sized ∧ exDefaultLinear.biasInit = .zeros ∧ exDefaultBatchNorm.scaleInit = .ones ∧
    firstFrom [some true, exDefaultBatchNorm.useRunningAverage, none] = .ok true ∧ exRows.shape[1]? = some exDefaultBatchNorm.numFeatures ∧ exRows.shape[1]? = some exDefaultLayerNorm.numFeatures :=
  ⟨exParams, exInit_sized, rfl, rfl, rfl, rfl, rfl⟩

/-- With epsilon 3, a new `BatchNorm` halves its input in evaluation, and a new `LayerNorm` maps the rows (1, 3) and (8, 10) to (-1/2, 1/2). -/
example : (match (BatchNorm.create symPrims 0 exDefaultBatchNorm exRng2).2 with
    | .ok bn => ((bn.call exRsqrt exRows (some true) none).2.map fun y : Tensor ℚ => (indices y.shape).map y.val)
    | .error e => .error e) = .ok [1/2, 3/2, 4, 5] ∧
    (match (LayerNorm.create symPrims 0 exDefaultLayerNorm exRng2).2 with
    | .ok ln => (ln.call exRsqrt exRows).map fun y : Tensor ℚ => (indices y.shape).map y.val
    | .error e => .error e) = .ok [-1/2, 1/2, -1/2, 1/2] := by
  decide +kernel

/-- `1/√v` satisfies the hypothesis on `rsqrt`. -/
example (v : ℝ) (hv : 0 < v) : (1 / √v) * (1 / √v) = 1 / v := by
  rw [div_mul_div_comm, one_mul, Real.mul_self_sqrt hv.le]

/-- A convolution with the default bias and one without bias, of a sequence of three numbers. -/
def exDefaultConv : ConvArgs SymKey ℚ := { inFeatures := 1, outFeatures := 2, kernelSize := .seq [2], padding := .str (py! "VALID"), kernelInit := exInit, biasInit := .zeros }

example : (([true, false].map fun b => match (Conv.create symPrims 0 { exDefaultConv with useBias := b } exRng2).2 with
    | .ok cv => (cv.call ⟨[1, 3, 1], fun idx => idx.sum + 1⟩).map fun y : Tensor ℚ => (indices y.shape).map y.val
    | .error e => .error e)) = [.ok [32, 35, 53, 58], .ok [32, 35, 53, 58]] := by
  decide +kernel

end Nnx
