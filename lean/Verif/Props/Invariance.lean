import Verif.Props.Conv
import Verif.Props.Normalization
import Verif.Props.PerExample
import Mathlib.Analysis.Real.Sqrt
/-
Properties C117 (normalization does not see shifts and scalings of its input) and C118 (convolutions are linear, their
groups are independent, and those with kernels of size 1 are linear layers).
-/
namespace Nnx
variable {𝕜 : Type} [Field 𝕜] [LinearOrder 𝕜] [IsStrictOrderedRing 𝕜]

theorem avg_map_affine {l : List 𝕜} (h : l ≠ []) (a c : 𝕜) : avg (l.map fun v => a * v + c) = a * avg l + c := by
  have hl : (l.length : 𝕜) ≠ 0 := by
    rw [Nat.cast_ne_zero]
    exact fun h0 => h (List.length_eq_zero_iff.1 h0)
  have : ∀ l : List 𝕜, (l.map fun v => a * v + c).sum = a * l.sum + l.length * c := by
    intro l
    induction l with
    | nil => simp
    | cons x l ih => simp only [List.map_cons, List.sum_cons, ih, List.length_cons, Nat.cast_succ]; ring
  unfold avg
  rw [this, List.length_map]
  field_simp

theorem variance_map_affine {l : List 𝕜} (h : l ≠ []) (a c : 𝕜) : variance (l.map fun v => a * v + c) = a * a * variance l := by
  unfold variance
  rw [avg_map_affine h, List.map_map]
  have : (fun v => (v - (a * avg l + c)) * (v - (a * avg l + c))) ∘ (fun v => a * v + c) =
      (fun v => a * a * v + 0) ∘ fun v => (v - avg l) * (v - avg l) := by
    funext v; simp only [Function.comp]; ring
  rw [this, ← List.map_map, avg_map_affine (by simpa using h), add_zero]

theorem layer_norm_affine (rsqrt : 𝕜 → 𝕜) (ln : LayerNorm 𝕜) (a : 𝕜) (hr : ∀ v, 0 ≤ v → a * rsqrt (a * a * (v + ln.epsilon)) = rsqrt (v + ln.epsilon))
    (x z : Tensor 𝕜) (c : List Nat → 𝕜) (ax n : Nat)
    (hred : ValidAxes x.shape.length ln.reductionAxes) (hfeat : NamesAxis ln.featureAxes x.shape.length ax)
    (hn : x.shape[ax]? = some n) (hscale : ∀ q, ln.scale = some q → q.shape = [n]) (hbias : ∀ q, ln.bias = some q → q.shape = [n])
    (hz : z.shape = x.shape) (hzx : ∀ idx, Within idx x.shape → z.val idx = a * x.val idx + c idx)
    (hc : ∀ idx idx', Within idx x.shape → Within idx' x.shape →
      (∀ i : Nat, (i : Int) ∉ ln.reductionAxes → (i : Int) - x.shape.length ∉ ln.reductionAxes → idx[i]? = idx'[i]?) → c idx = c idx') :
    ∃ y u, ln.call rsqrt x = .ok y ∧ LayerNorm.call rsqrt { ln with epsilon := a * a * ln.epsilon } z = .ok u ∧
      y.shape = x.shape ∧ u.shape = x.shape ∧ ∀ idx, Within idx x.shape → u.val idx = y.val idx := by
  obtain ⟨y, h1, h2, h3⟩ := C76_layer_norm rsqrt ln x ax n hred hfeat hn hscale hbias
  obtain ⟨u, g1, g2, g3⟩ := C76_layer_norm rsqrt { ln with epsilon := a * a * ln.epsilon } z ax n (by rw [hz]; exact hred)
    (by rw [hz]; exact hfeat) (by rw [hz]; exact hn) hscale hbias
  refine ⟨y, u, h1, g1, h2, g2.trans hz, fun idx hw => ?_⟩
  obtain ⟨f, hf, -⟩ := coord hw hn
  have e := h3 idx f hw hf
  have e' := g3 idx f (by rw [hz]; exact hw) hf
  simp only [hz] at e e'
  rw [e, e']
  have hmap : ∀ L : List (List Nat), (∀ r ∈ L, Within r x.shape ∧ c r = c idx) →
      L.map z.val = (L.map x.val).map fun v => a * v + c idx := by
    intro L hL
    rw [List.map_map]
    apply List.map_congr_left
    intro r hr
    simp only [Function.comp]
    rw [hzx r (hL r hr).1, (hL r hr).2]
  have hmem : ∀ r ∈ cell x.shape (fun i => (i : Int) ∉ ln.reductionAxes ∧ (i : Int) - x.shape.length ∉ ln.reductionAxes) idx,
      Within r x.shape ∧ c r = c idx := by
    intro r hr
    unfold cell at hr
    rw [List.mem_filter] at hr
    have hrw := mem_indices.1 hr.1
    refine ⟨hrw, hc r idx hrw hw fun i h1 h2 => ?_⟩
    have h := of_decide_eq_true hr.2
    by_cases hi : i < x.shape.length
    · exact h i hi ⟨h1, h2⟩
    · rw [List.getElem?_eq_none (by rw [within_length hrw]; omega), List.getElem?_eq_none (by rw [within_length hw]; omega)]
  have hne : (cell x.shape (fun i => (i : Int) ∉ ln.reductionAxes ∧ (i : Int) - x.shape.length ∉ ln.reductionAxes) idx).map x.val ≠ [] := by
    intro h0
    have := self_mem_cell hw (fun i => (i : Int) ∉ ln.reductionAxes ∧ (i : Int) - x.shape.length ∉ ln.reductionAxes)
    rw [List.map_eq_nil_iff] at h0
    rw [h0] at this
    simp at this
  rw [hmap _ hmem, avg_map_affine hne, variance_map_affine hne, hzx idx hw]
  rw [← mul_add, ← hr _ (variance_nonneg _)]
  ring

/-- **C117.** A `LayerNorm` whose epsilon is in proportion does not see a scaling of its input by `a > 0`, nor an offset that is
the same for all entries that are normalized together. `hr` is what `rsqrt(v) = 1/sqrt(v)` satisfies. -/
theorem C117_layer_norm (rsqrt : 𝕜 → 𝕜) (ln : LayerNorm 𝕜) (a : 𝕜) (hr : ∀ v, 0 < v → a * rsqrt (a * a * v) = rsqrt v)
    (heps : 0 < ln.epsilon) (x z : Tensor 𝕜) (c : List Nat → 𝕜) (ax n : Nat)
    (hred : ValidAxes x.shape.length ln.reductionAxes) (hfeat : NamesAxis ln.featureAxes x.shape.length ax)
    (hn : x.shape[ax]? = some n) (hscale : ∀ q, ln.scale = some q → q.shape = [n]) (hbias : ∀ q, ln.bias = some q → q.shape = [n])
    (hz : z.shape = x.shape) (hzx : ∀ idx, Within idx x.shape → z.val idx = a * x.val idx + c idx)
    (hc : ∀ idx idx', Within idx x.shape → Within idx' x.shape →
      (∀ i : Nat, (i : Int) ∉ ln.reductionAxes → (i : Int) - x.shape.length ∉ ln.reductionAxes → idx[i]? = idx'[i]?) → c idx = c idx') :
    ∃ y u, ln.call rsqrt x = .ok y ∧ LayerNorm.call rsqrt { ln with epsilon := a * a * ln.epsilon } z = .ok u ∧
      y.shape = x.shape ∧ u.shape = x.shape ∧ ∀ idx, Within idx x.shape → u.val idx = y.val idx :=
  layer_norm_affine rsqrt ln a (fun _ hv => hr _ (add_pos_of_nonneg_of_pos hv heps)) x z c ax n hred hfeat hn hscale hbias hz hzx hc

/-- **C117, shifts.** Whatever epsilon and `rsqrt` are, a `LayerNorm` does not see an offset that is the same for all entries
that are normalized together. -/
theorem C117_layer_norm_shift (rsqrt : 𝕜 → 𝕜) (ln : LayerNorm 𝕜) (x z : Tensor 𝕜) (c : List Nat → 𝕜) (ax n : Nat)
    (hred : ValidAxes x.shape.length ln.reductionAxes) (hfeat : NamesAxis ln.featureAxes x.shape.length ax)
    (hn : x.shape[ax]? = some n) (hscale : ∀ q, ln.scale = some q → q.shape = [n]) (hbias : ∀ q, ln.bias = some q → q.shape = [n])
    (hz : z.shape = x.shape) (hzx : ∀ idx, Within idx x.shape → z.val idx = x.val idx + c idx)
    (hc : ∀ idx idx', Within idx x.shape → Within idx' x.shape →
      (∀ i : Nat, (i : Int) ∉ ln.reductionAxes → (i : Int) - x.shape.length ∉ ln.reductionAxes → idx[i]? = idx'[i]?) → c idx = c idx') :
    ∃ y u, ln.call rsqrt x = .ok y ∧ ln.call rsqrt z = .ok u ∧
      y.shape = x.shape ∧ u.shape = x.shape ∧ ∀ idx, Within idx x.shape → u.val idx = y.val idx := by
  have := layer_norm_affine rsqrt ln 1 (fun _ _ => by simp) x z c ax n hred hfeat hn hscale hbias hz
    (fun idx hw => by rw [one_mul]; exact hzx idx hw) hc
  simpa using this

omit [LinearOrder 𝕜] [IsStrictOrderedRing 𝕜] in
theorem channel_map_affine {x z : Tensor 𝕜} {ax f : Nat} {a c : 𝕜} (hz : z.shape = x.shape)
    (h : ∀ idx, Within idx x.shape → idx[ax]? = some f → z.val idx = a * x.val idx + c) :
    channel z ax f = (channel x ax f).map fun v => a * v + c := by
  unfold channel
  rw [hz, List.map_map]
  apply List.map_congr_left
  intro r hr
  rw [List.mem_filter] at hr
  exact h r (mem_indices.1 hr.1) (of_decide_eq_true hr.2)

/-- **C117, BatchNorm.** In training, a `BatchNorm` whose epsilon is in proportion does not see a scaling of its input by `a > 0`,
nor an offset for each feature; its running averages see both. -/
theorem C117_batch_norm (rsqrt : 𝕜 → 𝕜) (bn : BatchNorm 𝕜) (a : 𝕜) (hr : ∀ v, 0 < v → a * rsqrt (a * a * v) = rsqrt v)
    (heps : 0 < bn.epsilon) (x z : Tensor 𝕜) (c : Nat → 𝕜) (arg flag : Option Bool) (ax n : Nat)
    (hmode : firstFrom [arg, bn.useRunningAverage, flag] = .ok false)
    (hfit : bn.Fits n) (haxis : NamesAxis bn.axis x.shape.length ax) (hn : x.shape[ax]? = some n) (hne : 0 < size x.shape)
    (hz : z.shape = x.shape) (hzx : ∀ idx f, Within idx x.shape → idx[ax]? = some f → z.val idx = a * x.val idx + c f) :
    ∃ bx y bz u, bn.call rsqrt x arg flag = (bx, .ok y) ∧
      BatchNorm.call rsqrt { bn with epsilon := a * a * bn.epsilon } z arg flag = (bz, .ok u) ∧
      y.shape = x.shape ∧ u.shape = x.shape ∧ (∀ idx, Within idx x.shape → u.val idx = y.val idx) ∧
      ∀ f, f < n →
        bz.mean.val [f] - bn.momentum * bn.mean.val [f] = a * (bx.mean.val [f] - bn.momentum * bn.mean.val [f]) + (1 - bn.momentum) * c f ∧
        bz.var.val [f] - bn.momentum * bn.var.val [f] = a * a * (bx.var.val [f] - bn.momentum * bn.var.val [f]) := by
  obtain ⟨m, v, y, h1, -, -, h4, h5, h6⟩ := C59_training rsqrt bn x arg flag ax n hmode hfit haxis hn hne
  obtain ⟨m', v', u, g1, -, -, g4, g5, g6⟩ := C59_training rsqrt { bn with epsilon := a * a * bn.epsilon } z arg flag ax n hmode
    ⟨hfit.mean, hfit.var, hfit.scale, hfit.bias⟩ (by rw [hz]; exact haxis) (by rw [hz]; exact hn) (by rw [hz]; exact hne)
  refine ⟨_, y, _, u, h1, g1, h5, g5.trans hz, fun idx hw => ?_, fun f hf => ?_⟩
  · obtain ⟨f, hf, hlt⟩ := coord hw hn
    have hch := channel_map_affine hz (fun idx hw hi => hzx idx f hw hi)
    have hnn := channel_ne_nil hn hne hlt
    rw [h6 idx f hw hf, g6 idx f (by rw [hz]; exact hw) hf, hch, avg_map_affine hnn, variance_map_affine hnn, hzx idx f hw hf]
    simp only
    rw [← mul_add, ← hr _ (add_pos_of_nonneg_of_pos (variance_nonneg _) heps)]
    ring
  · have hch := channel_map_affine hz (fun idx hw hi => hzx idx f hw hi)
    have hnn := channel_ne_nil hn hne hf
    have e := h4 f hf
    have e' := g4 f hf
    simp only at e e' ⊢
    rw [e.1, e.2, e'.1, e'.2, hch, avg_map_affine hnn, variance_map_affine hnn]
    constructor <;> ring

/-! ### The hypotheses can be met -/

/-- `1/√v` satisfies the hypothesis on `rsqrt`, for every factor. -/
example (a : ℝ) (ha : 0 < a) (v : ℝ) (hv : 0 < v) : a * (1 / √(a * a * v)) = 1 / √v := by
  rw [Real.sqrt_mul (by positivity), Real.sqrt_mul_self ha.le]
  have := Real.sqrt_pos.2 hv
  field_simp

noncomputable def exRealBn : BatchNorm ℝ :=
  { axis := [-1], epsilon := 1 / 10, momentum := 9 / 10, mean := ⟨[2], fun _ => 0⟩, var := ⟨[2], fun _ => 1⟩,
    scale := some ⟨[2], fun _ => 3⟩, bias := none, useRunningAverage := none }

noncomputable def exRealIn : Tensor ℝ := ⟨[3, 2], fun idx => (idx.headD 0 : ℝ) * 10 + (idx.getD 1 0 : ℝ)⟩

/-- Three times the input, with other offsets for the two features. -/
noncomputable def exRealScaled : Tensor ℝ := ⟨[3, 2], fun idx => 3 * exRealIn.val idx + (7 * (idx.getD 1 0 : ℝ) + 1)⟩

example : firstFrom [some false, exRealBn.useRunningAverage, none] = .ok false ∧ exRealBn.Fits 2 ∧
    NamesAxis exRealBn.axis exRealIn.shape.length 1 ∧ exRealIn.shape[1]? = some 2 ∧ 0 < size exRealIn.shape ∧
    exRealScaled.shape = exRealIn.shape ∧ 0 < exRealBn.epsilon ∧
    ∀ (idx : List Nat) (f : Nat), Within idx exRealIn.shape → idx[1]? = some f → exRealScaled.val idx = 3 * exRealIn.val idx + (7 * (f : ℝ) + 1) := by
  refine ⟨rfl, ⟨rfl, rfl, fun q h => by cases h; rfl, fun q h => (by cases h)⟩, ⟨by decide, Or.inr rfl⟩, by decide, by decide, rfl,
    by norm_num [exRealBn], fun idx f _ h => ?_⟩
  simp only [exRealScaled, List.getD_eq_getElem?_getD, h, Option.getD_some]

/-- A `LayerNorm` over the features of each row, and an offset for each row. -/
example : ValidAxes 2 [-1] ∧ NamesAxis [-1] exRealIn.shape.length 1 ∧
    (∀ idx idx', Within idx exRealIn.shape → Within idx' exRealIn.shape →
      (∀ i : Nat, (i : Int) ∉ ([-1] : List Int) → (i : Int) - exRealIn.shape.length ∉ ([-1] : List Int) → idx[i]? = idx'[i]?) →
      (fun r : List Nat => (r.headD 0 : ℝ)) idx = (fun r : List Nat => (r.headD 0 : ℝ)) idx') := by
  refine ⟨⟨by decide, by decide⟩, ⟨by decide, Or.inr rfl⟩, fun idx idx' h h' hc => ?_⟩
  have := hc 0 (by decide) (by decide)
  cases h
  cases h'
  simp at this ⊢
  exact this

section Conv
omit [LinearOrder 𝕜] [IsStrictOrderedRing 𝕜]

omit [Field 𝕜] in
/-- The positions a fitting layer reads are positions of its input. -/
theorem reads_within (cv : Conv 𝕜) {sd : List SpatialDim} (hpad : cv.PaddedAs sd) {o k q : List Nat}
    (ho : Within o (sd.map SpatialDim.outLen)) (hk : Within k (sd.map SpatialDim.kLen)) (h : cv.reads sd o k = some q) :
    Within q (sd.map SpatialDim.inLen) := by
  have ho := within_length ho
  have hk := within_length hk
  rw [List.length_map] at ho hk
  unfold Conv.reads at h
  split at h
  · next hc =>
    cases h
    apply wrapSources_within _ ho hk
    rcases hpad with ⟨-, h⟩ | ⟨h, -⟩ | ⟨h, -⟩ | ⟨h, -⟩ | ⟨_, h, -⟩ | ⟨_, h, -⟩
    · exact fun s hs => (h s hs).2.2.1
    all_goals rw [hc] at h; revert h; simp
  · exact sources_within ho hk h

omit [Field 𝕜] in
/-- The input features of the group of an output feature are input features. -/
theorem group_feature_lt {cv : Conv 𝕜} {sd : List SpatialDim} {inF outF f i : Nat} (hfit : cv.Fits sd inF outF) (hf : f < outF) (hi : i < inF) :
    f / (outF / cv.featureGroupCount) * inF + i < inF * cv.featureGroupCount := by
  have hg := hfit.groups
  have hd := Nat.div_mul_cancel (Nat.dvd_of_mod_eq_zero hfit.outGroups)
  generalize outF / cv.featureGroupCount = q at hd ⊢
  have : f / q < cv.featureGroupCount := Nat.div_lt_of_lt_mul (by rw [hd]; exact hf)
  calc f / q * inF + i < f / q * inF + inF := by omega
    _ = (f / q + 1) * inF := by ring
    _ ≤ cv.featureGroupCount * inF := Nat.mul_le_mul_right _ this
    _ = inF * cv.featureGroupCount := mul_comm _ _

theorem indices_ones : ∀ {sd : List SpatialDim}, (∀ s ∈ sd, s.kLen = 1) → indices (sd.map SpatialDim.kLen) = [sd.map fun _ => 0]
  | [], _ => rfl
  | s :: sd, h => by
    rw [List.map_cons, indices, h s (by simp), indices_ones (fun s hs => h s (by simp [hs]))]
    rfl

theorem wrapSources_here : ∀ {sd : List SpatialDim} {o : List Nat}, (∀ s ∈ sd, s.stride = 1 ∧ s.lo = 0) →
    Within o (sd.map SpatialDim.inLen) → wrapSources sd o (sd.map fun _ => 0) = o
  | [], o, _, h => by cases h; rfl
  | s :: sd, o, hs, h => by
    cases h with
    | cons h1 h2 =>
      rw [List.map_cons, wrapSources, wrapSources_here (fun s h => hs s (by simp [h])) h2, SpatialDim.wrapSource,
        (hs s (by simp)).1, (hs s (by simp)).2]
      congr 1
      simp only [mul_one, zero_mul, add_zero, sub_zero]
      rw [Int.emod_eq_of_lt (by omega) (by omega)]
      rfl

theorem sources_here : ∀ {sd : List SpatialDim} {o : List Nat}, (∀ s ∈ sd, s.stride = 1 ∧ s.inDil = 1 ∧ s.lo = 0) →
    Within o (sd.map SpatialDim.inLen) → sources sd o (sd.map fun _ => 0) = some o
  | [], o, _, h => by cases h; rfl
  | s :: sd, o, hs, h => by
    cases h with
    | @cons a _ o _ h1 h2 =>
      obtain ⟨k1, k2, k3⟩ := hs s (by simp)
      have : s.source a 0 = some a := by
        unfold SpatialDim.source
        simp only [k1, k2, k3]
        rw [if_pos ⟨by simp, by simp, by simpa using h1⟩]
        simp
      rw [List.map_cons, sources, sources_here (fun s h => hs s (by simp [h])) h2, this]

/-- **C118, linearity.** Without bias, the convolution of a linear combination is the linear combination of the convolutions. -/
theorem C118_combination (cv : Conv 𝕜) (hb : cv.useBias = false) (x x1 x2 : Tensor 𝕜) (a1 a2 : 𝕜) (sd : List SpatialDim) (B : List Nat)
    (inF outF : Nat) (hfit : cv.Fits sd inF outF) (hpad : cv.PaddedAs sd)
    (hx : x.shape = B ++ (sd.map SpatialDim.inLen ++ [inF * cv.featureGroupCount])) (h1 : x1.shape = x.shape) (h2 : x2.shape = x.shape)
    (hc : ∀ idx, Within idx x.shape → x.val idx = a1 * x1.val idx + a2 * x2.val idx) :
    ∃ y y1 y2, cv.call x = .ok y ∧ cv.call x1 = .ok y1 ∧ cv.call x2 = .ok y2 ∧ y1.shape = y.shape ∧ y2.shape = y.shape ∧
      y.shape = B ++ (sd.map SpatialDim.outLen ++ [outF]) ∧
      ∀ idx, Within idx y.shape → y.val idx = a1 * y1.val idx + a2 * y2.val idx := by
  obtain ⟨y, e1, e2, e3⟩ := C64_conv cv x sd B inF outF hfit hpad hx
  obtain ⟨y1, f1, f2, f3⟩ := C64_conv cv x1 sd B inF outF hfit hpad (h1.trans hx)
  obtain ⟨y2, g1, g2, g3⟩ := C64_conv cv x2 sd B inF outF hfit hpad (h2.trans hx)
  refine ⟨y, y1, y2, e1, f1, g1, f2.trans e2.symm, g2.trans e2.symm, e2, fun idx hw => ?_⟩
  rw [e2] at hw
  obtain ⟨b, r, rfl, hb', hr⟩ := within_split hw
  obtain ⟨o, r, rfl, ho, hr1⟩ := within_split hr
  obtain ⟨f, rfl, hf⟩ := within_one hr1
  rw [e3 b o f hb' ho hf, f3 b o f hb' ho hf, g3 b o f hb' ho hf]
  simp only [Conv.biasAt, hb, Bool.false_eq_true, if_false, add_zero]
  unfold convEntry
  apply sum_combination
  intro k hk
  apply sum_combination
  intro i hi
  cases hq : cv.reads sd o k with
  | none => simp
  | some q =>
    have hq := reads_within cv hpad ho (mem_indices.1 hk) hq
    have hlt : f / (outF / cv.featureGroupCount) * inF + i < inF * cv.featureGroupCount := group_feature_lt hfit hf (List.mem_range.1 hi)
    simp only
    rw [hc _ (by rw [hx]; exact within_append hb' (within_append hq (.cons hlt .nil)))]
    ring

/-- **C118, groups.** An output feature depends only on the input features of its own group, and only on its own batch entry. -/
theorem C118_groups (cv : Conv 𝕜) (x z : Tensor 𝕜) (sd : List SpatialDim) (B : List Nat) (inF outF : Nat)
    (hfit : cv.Fits sd inF outF) (hpad : cv.PaddedAs sd)
    (hx : x.shape = B ++ (sd.map SpatialDim.inLen ++ [inF * cv.featureGroupCount])) (hz : z.shape = x.shape)
    (b : List Nat) (f : Nat) (hb : Within b B) (hf : f < outF)
    (h : ∀ q i, Within q (sd.map SpatialDim.inLen) → i < inF * cv.featureGroupCount → i / inF = f / (outF / cv.featureGroupCount) →
      z.val (b ++ (q ++ [i])) = x.val (b ++ (q ++ [i]))) :
    ∃ y u, cv.call x = .ok y ∧ cv.call z = .ok u ∧ y.shape = B ++ (sd.map SpatialDim.outLen ++ [outF]) ∧ u.shape = y.shape ∧
      ∀ o, Within o (sd.map SpatialDim.outLen) → u.val (b ++ (o ++ [f])) = y.val (b ++ (o ++ [f])) := by
  obtain ⟨y, e1, e2, e3⟩ := C64_conv cv x sd B inF outF hfit hpad hx
  obtain ⟨u, f1, f2, f3⟩ := C64_conv cv z sd B inF outF hfit hpad (hz.trans hx)
  refine ⟨y, u, e1, f1, e2, f2.trans e2.symm, fun o ho => ?_⟩
  rw [e3 b o f hb ho hf, f3 b o f hb ho hf]
  congr 1
  unfold convEntry
  congr 1
  apply List.map_congr_left
  intro k hk
  congr 1
  apply List.map_congr_left
  intro i hi
  cases hq : cv.reads sd o k with
  | none => rfl
  | some q =>
    have hq := reads_within cv hpad ho (mem_indices.1 hk) hq
    have hi := List.mem_range.1 hi
    simp only
    rw [h q _ hq (group_feature_lt hfit hf hi) (by
      rw [mul_comm _ inF, Nat.mul_add_div (by omega), Nat.div_eq_of_lt hi, add_zero])]

/-- The linear layer a convolution with kernels of size 1 amounts to: its kernel at the only position. -/
def Conv.asLinear (cv : Conv 𝕜) (inF outF : Nat) : Linear 𝕜 where
  kernel := ⟨[inF, outF], fun idx => cv.usedKernel.val (cv.kernelSize.map (fun _ => 0) ++ idx)⟩
  bias := if cv.useBias then cv.bias else none

/-- **C118, kernels of size 1.** With one group, kernel size 1, strides 1, no input dilation and a padding given by name, a
convolution is a linear layer applied at every position. -/
theorem C118_pointwise (cv : Conv 𝕜) (x : Tensor 𝕜) (sd : List SpatialDim) (B : List Nat) (inF outF : Nat)
    (hfit : cv.Fits sd inF outF) (hpad : cv.PaddedAs sd) (hname : ∃ n, cv.padding = .str n) (hg : cv.featureGroupCount = 1)
    (hone : ∀ s ∈ sd, s.kLen = 1 ∧ s.stride = 1 ∧ s.inDil = 1 ∧ 0 < s.inLen)
    (hx : x.shape = B ++ (sd.map SpatialDim.inLen ++ [inF * cv.featureGroupCount])) :
    ∃ y u, cv.call x = .ok y ∧ (cv.asLinear inF outF).call x = .ok u ∧
      y.shape = B ++ (sd.map SpatialDim.inLen ++ [outF]) ∧ u.shape = y.shape ∧ ∀ idx, Within idx y.shape → y.val idx = u.val idx := by
  have hzero : ∀ s ∈ sd, s.lo = 0 ∧ s.hi = 0 := by
    intro s hs
    obtain ⟨k1, k2, k3, k4⟩ := hone s hs
    obtain ⟨n, hn⟩ := hname
    rcases hpad with ⟨-, h⟩ | ⟨-, s', hs', h⟩ | ⟨-, h⟩ | ⟨-, h⟩ | ⟨_, h, -⟩ | ⟨_, h, -⟩
    · obtain ⟨-, -, -, h4, h5⟩ := h s hs
      rw [k1] at h4 h5
      simp at h4 h5
      exact ⟨h4, h5⟩
    · rw [hs'] at hs
      cases List.mem_singleton.1 hs
      obtain ⟨-, h4, h5⟩ := h
      rw [k1] at h4
      simp at h4
      exact ⟨h4, h5⟩
    · exact h s hs
    · have := (h s hs).pads
      simp [samePads, k1, k2, dilated] at this
      constructor <;> omega
    all_goals rw [hn] at h; cases h
  have hout : ∀ s ∈ sd, s.outLen = s.inLen := by
    intro s hs
    obtain ⟨k1, k2, k3, k4⟩ := hone s hs
    obtain ⟨l1, l2⟩ := hzero s hs
    have : dilated s.inLen 1 = s.inLen := dilated_one _
    simp only [SpatialDim.outLen, k1, k2, k3, l1, l2, this]
    have h1 : dilated 1 s.kDil = 1 := by simp [dilated]
    rw [h1]
    split
    · omega
    · simp; omega
  have houtm : sd.map SpatialDim.outLen = sd.map SpatialDim.inLen := List.map_congr_left hout
  obtain ⟨y, e1, e2, e3⟩ := C64_conv cv x sd B inF outF hfit hpad hx
  rw [houtm] at e2 e3
  obtain ⟨u, f1, f2, f3⟩ := C77_linear (cv.asLinear inF outF) x (B ++ sd.map SpatialDim.inLen) inF outF
    (by rw [hx, hg, mul_one, List.append_assoc]) rfl (by
      intro b hb
      unfold Conv.asLinear at hb
      simp only at hb
      split at hb
      · next hu =>
        obtain ⟨b', h1, h2⟩ := hfit.bias hu
        rw [h1] at hb; cases hb; exact h2
      · cases hb)
  rw [List.append_assoc] at f2
  refine ⟨y, u, e1, f1, e2, f2.trans e2.symm, fun idx hw => ?_⟩
  rw [e2] at hw
  obtain ⟨b, r, rfl, hb', hr⟩ := within_split hw
  obtain ⟨o, r, rfl, ho, hr1⟩ := within_split hr
  obtain ⟨f, rfl, hf⟩ := within_one hr1
  rw [e3 b o f hb' ho hf, ← List.append_assoc b o [f], f3 (b ++ o) f (within_append hb' ho) hf]
  have hkz : cv.kernelSize.map (fun _ => 0) = sd.map fun _ => 0 := by rw [hfit.kernelSize, List.map_map]; rfl
  have hind : indices (sd.map SpatialDim.kLen) = [sd.map fun _ => 0] := indices_ones (fun s hs => (hone s hs).1)
  have hread : cv.reads sd o (sd.map fun _ => 0) = some o := by
    unfold Conv.reads
    split
    · rw [wrapSources_here (fun s hs => ⟨(hone s hs).2.1, (hzero s hs).1⟩) ho]
    · exact sources_here (fun s hs => ⟨(hone s hs).2.1, (hone s hs).2.2.1, (hzero s hs).1⟩) ho
  congr 1
  · unfold convEntry
    rw [hind]
    simp only [List.map_cons, List.map_nil, List.sum_cons, List.sum_nil, add_zero, hread]
    congr 1
    apply List.map_congr_left
    intro i _
    rw [hg, Nat.div_one, Nat.div_eq_of_lt hf, zero_mul, zero_add, List.append_assoc]
    simp only [Conv.asLinear, hkz]
  · simp only [Conv.biasAt, Conv.asLinear]
    split <;> rfl

end Conv

/-- Two groups of two input features each, no bias. -/
def exGrouped : Conv ℚ where
  kernel := ⟨[3, 2, 4], fun idx => (idx.getD 0 0 : Nat) + 2 * (idx.getD 1 0 : Nat) + 5 * (idx.getD 2 0 : Nat)⟩
  bias := none
  inFeatures := 4
  kernelSize := [3]
  padding := .str (py! "CIRCULAR")
  featureGroupCount := 2
  useBias := false

def exGroupedDim : SpatialDim := ⟨5, 3, 1, 1, 1, 1, 1⟩

example : exGrouped.Fits [exGroupedDim] 2 4 ∧ exGrouped.PaddedAs [exGroupedDim] ∧ exGrouped.useBias = false ∧
    ([2, 5, 4] : List Nat) = [2] ++ ([exGroupedDim].map SpatialDim.inLen ++ [2 * exGrouped.featureGroupCount]) := by
  refine ⟨⟨rfl, .single 1, .single 1, .single 1, rfl, by decide, rfl, rfl, fun h => (by cases h)⟩, .inl ⟨rfl, ?_⟩, rfl, rfl⟩
  intro s hs
  cases List.mem_singleton.1 hs
  exact ⟨rfl, by decide, by decide, by decide, by decide⟩

/-- A kernel of size 1 in two dimensions, with the default padding 'SAME'. -/
def exPointwise : Conv ℚ where
  kernel := ⟨[1, 1, 3, 2], fun idx => (idx.getD 2 0 : Nat) + 4 * (idx.getD 3 0 : Nat)⟩
  bias := some ⟨[2], fun idx => (idx.headD 0 : Nat)⟩
  inFeatures := 3
  kernelSize := [1, 1]

example : ∃ sd, exPointwise.Fits sd 3 2 ∧ exPointwise.PaddedAs sd ∧ (∃ n, exPointwise.padding = .str n) ∧
    exPointwise.featureGroupCount = 1 ∧ (∀ s ∈ sd, s.kLen = 1 ∧ s.stride = 1 ∧ s.inDil = 1 ∧ 0 < s.inLen) ∧
    ([2, 4, 5, 3] : List Nat) = [2] ++ (sd.map SpatialDim.inLen ++ [3 * exPointwise.featureGroupCount]) := by
  refine ⟨[⟨4, 1, 1, 0, 0, 1, 1⟩, ⟨5, 1, 1, 0, 0, 1, 1⟩], ⟨rfl, .inr (.inl ⟨1, rfl, by simp⟩), .inr (.inl ⟨1, rfl, by simp⟩),
    .inr (.inl ⟨1, rfl, by simp⟩), rfl, by decide, rfl, rfl, fun _ => ⟨_, rfl, rfl⟩⟩,
    .inr (.inr (.inr (.inl ⟨rfl, ?_⟩))), ⟨_, rfl⟩, rfl, by simp, rfl⟩
  intro s hs
  simp only [List.mem_cons, List.not_mem_nil, or_false] at hs
  rcases hs with rfl | rfl <;> exact ⟨.inl rfl, by decide⟩

end Nnx
