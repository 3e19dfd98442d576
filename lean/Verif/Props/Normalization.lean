import Verif.Proofs.BatchNorm
import Mathlib.Algebra.Order.Field.Rat
import Mathlib.Data.Rat.Cast.Order
import Mathlib.Tactic.NormNum
import Mathlib.Tactic.Positivity

/-!
# Normalization layers: C57, C59, C60, C61, C76
-/

namespace Nnx

/-! ### C57 -/

/-- C57: `first_from` returns the argument that is preceded only by `None`s. -/
theorem C57_first_from {A : Type} (args : List (Option A)) (v : A) :
    firstFrom args = .ok v ↔ ∃ before after, args = before ++ some v :: after ∧ ∀ a ∈ before, a = none := by
  induction args with
  | nil => simp [firstFrom]
  | cons a args ih =>
    cases a with
    | none =>
      rw [firstFrom, ih]
      constructor
      · rintro ⟨b, c, rfl, h⟩
        exact ⟨none :: b, c, rfl, by simpa using h⟩
      · rintro ⟨b, c, e, h⟩
        cases b with
        | nil => simp at e
        | cons x b =>
          simp only [List.cons_append, List.cons.injEq] at e
          exact ⟨b, c, e.2, fun a ha => h a (by simp [ha])⟩
    | some u =>
      rw [firstFrom]
      constructor
      · intro h; cases h; exact ⟨[], args, rfl, by simp⟩
      · rintro ⟨b, c, e, h⟩
        cases b with
        | nil => simp at e; rw [e.1]
        | cons x b =>
          simp only [List.cons_append, List.cons.injEq] at e
          have := h x (by simp)
          rw [← e.1] at this; cases this

/-- C57: it raises `ValueError` exactly when nothing is specified, and raises nothing else. -/
theorem C57_raises {A : Type} (args : List (Option A)) (e : Err) :
    firstFrom args = .error e ↔ e = .valueError ∧ ∀ a ∈ args, a = none := by
  induction args with
  | nil => simp [firstFrom, eq_comm]
  | cons a args ih =>
    cases a with
    | none => rw [firstFrom, ih]; simp
    | some u => simp [firstFrom]

/-- C57: a call argument wins over the attribute, which wins over the context flag; `False` counts as specified. -/
theorem C57_precedence (arg attr flag : Option Bool) (b : Bool) :
    firstFrom [arg, attr, flag] = .ok b ↔
      arg = some b ∨ (arg = none ∧ attr = some b) ∨ (arg = none ∧ attr = none ∧ flag = some b) := by
  cases arg <;> cases attr <;> cases flag <;> simp [firstFrom]

example : firstFrom [none, some false, some true] = .ok false := rfl

/-- C57: the flag a layer reads from the context it is given. `nnx.context(flags=...)` keeps the value given for each name; there is
nothing for another name, or without a context. -/
theorem C57_context_flag {κ η : Type} (P : RngPrims κ η) (params : Option (RngSpec κ)) {flags : Dict Str Bool} (hn : DNodup flags)
    (rngs : List (Str × RngSpec κ)) (w : RngWorld κ) (name : Str) :
    (∀ b, ctxFlag (newContext P params flags rngs w).1 (some (newContext P params flags rngs w).2) name = some b ↔ (name, b) ∈ flags) ∧
      ctxFlag w none name = none := by
  refine ⟨fun b => ?_, rfl⟩
  simp only [ctxFlag, newContext, List.getElem?_concat_length, CtxObj.getFlag]
  exact ⟨dget_mem, mem_dget hn⟩

variable {𝕜 : Type} [Field 𝕜] [LinearOrder 𝕜]

/-! ### C60 -/

section
variable [IsStrictOrderedRing 𝕜]

/-- C60: the statistics returned for any in-range axes are, for every position of the input, the mean and the
variance (the mean squared deviation from the mean) of the entries that agree with it on the axes not reduced; so the
clipping at 0 changes nothing. -/
theorem C60_stats (x : Tensor 𝕜) (axes : List Int) (h : ValidAxes x.shape.length axes) :
    ∃ mean var, computeStats x axes = .ok (mean, var) ∧ mean.shape = var.shape ∧
      ∀ idx, Within idx x.shape → ∃ pos, Within pos mean.shape ∧
        mean.val pos = avg ((cell x.shape (fun i => (i : Int) ∉ axes ∧ (i : Int) - x.shape.length ∉ axes) idx).map x.val) ∧
        var.val pos =
          variance ((cell x.shape (fun i => (i : Int) ∉ axes ∧ (i : Int) - x.shape.length ∉ axes) idx).map x.val) := by
  obtain ⟨m, v, h1, h2, h3, h4⟩ := computeStats_spec h
    (fun i => (i : Int) ∉ axes ∧ (i : Int) - x.shape.length ∉ axes) keptAxes
  exact ⟨m, v, h1, h3.symm, fun idx hw => ⟨_, by rw [h2]; exact within_pick hw, h4 idx hw⟩⟩

/-- C60: for a non-empty sample the difference of the mean square and the squared mean is the variance. -/
theorem C60_variance (l : List 𝕜) (h : l ≠ []) :
    avg (l.map fun v => v * v) - avg l * avg l = avg (l.map fun v => (v - avg l) * (v - avg l)) ∧
      0 ≤ avg (l.map fun v => v * v) - avg l * avg l := by
  have := variance_eq h
  exact ⟨this, this ▸ variance_nonneg l⟩

end

/-- C60: the returned variance is never negative, whatever the arithmetic does before the clipping. -/
theorem C60_nonneg (x : Tensor 𝕜) (axes : List Int) (mean var : Tensor 𝕜)
    (h : computeStats x axes = .ok (mean, var)) (idx : List Nat) : 0 ≤ var.val idx := by
  rw [computeStats] at h
  split at h
  · cases h
  · rw [statsOf] at h
    split at h
    · cases h
    · cases h
      exact le_max_left _ _

/-! ### C61 -/

omit [Field 𝕜] [LinearOrder 𝕜] in
/-- C61: the canonical axes are the listed axes with negative ones counted from the end, each once. -/
theorem C61_canonicalize (rank : Nat) (axes : List Int) :
    (canonicalizeAxes rank axes).Nodup ∧
    (∀ a, a ∈ canonicalizeAxes rank axes ↔ (0 ≤ a ∧ a ∈ axes) ∨ (a < rank ∧ a - rank ∈ axes)) := by
  refine ⟨nodup_dedup _, fun a => ?_⟩
  rw [mem_canonicalizeAxes]
  constructor
  · rintro ⟨b, hb, rfl⟩
    split
    · right; refine ⟨by omega, ?_⟩
      rw [add_sub_cancel_left]; exact hb
    · left; exact ⟨by omega, hb⟩
  · rintro (⟨h1, h2⟩ | ⟨h1, h2⟩)
    · exact ⟨a, h2, by rw [if_neg (by omega)]⟩
    · exact ⟨_, h2, by rw [if_pos (by omega)]; omega⟩

/-- C61: for in-range feature axes, every axis of the input is a feature axis or a reduction axis, not both, and
occurs once. -/
theorem C61_cover (rank : Nat) (axis : List Int) (h : ∀ a ∈ axis, -(rank : Int) ≤ a ∧ a < rank) :
    (canonicalizeAxes rank axis ++ otherAxes rank (canonicalizeAxes rank axis)).Nodup ∧
    ∀ a : Int, a ∈ canonicalizeAxes rank axis ++ otherAxes rank (canonicalizeAxes rank axis) ↔ 0 ≤ a ∧ a < rank := by
  have hr := canonical_range h
  constructor
  · rw [List.nodup_append]
    refine ⟨nodup_dedup _, nodup_otherAxes _ _, ?_⟩
    rintro a ha b hb rfl
    exact (mem_otherAxes.1 hb).2 ha
  · intro a
    rw [List.mem_append, mem_otherAxes]
    constructor
    · rintro (h | h)
      · exact hr a h
      · exact h.1
    · intro ha
      by_cases hm : a ∈ canonicalizeAxes rank axis
      · exact .inl hm
      · exact .inr ⟨ha, hm⟩

example : canonicalizeAxes 3 [-1, 0, 2] = [2, 0] ∧ otherAxes 3 [2, 0] = [1] := by decide

/-- C61: without the range condition the cover fails: an axis below `-rank` is not rejected by `BatchNorm`, which
then reduces over every axis of the input. -/
theorem C61_out_of_range : canonicalizeAxes 2 [-3] = [-1] ∧ otherAxes 2 (canonicalizeAxes 2 [-3]) = [0, 1] := by
  decide

/-- A `BatchNorm` over three features with the given axis, that keeps only the statistics of the last batch. -/
def exBnFar (axis : Int) : BatchNorm ℚ where
  mean := ⟨[3], fun _ => 0⟩
  var := ⟨[3], fun _ => 1⟩
  scale := some ⟨[3], fun i => 10 + (i.headD 0 : Nat)⟩
  bias := none
  useRunningAverage := none
  axis := [axis]
  momentum := 0
  epsilon := 1

/-- The rows 1, 2, 3 and 4, 5, 6. -/
def exFar : Tensor ℚ := ⟨[2, 3], fun i => 3 * (i.headD 0 : Nat) + (i.getD 1 0 : Nat) + 1⟩

/-- C61: a call of such a `BatchNorm` succeeds, and takes the mean of the whole array for the mean of every feature. -/
theorem C61_out_of_range_call (rsqrt : ℚ → ℚ) (axis : Int) (ha : axis = -3 ∨ axis = -5) :
    ∃ bn y, (exBnFar axis).call rsqrt exFar (some false) none = (bn, .ok y) ∧ y.shape = [2, 3] ∧
    bn.mean.val [0] = 7 / 2 ∧ bn.mean.val [1] = 7 / 2 ∧ bn.mean.val [2] = 7 / 2 := by
  rcases ha with rfl | rfl
  · exact ⟨_, _, rfl, rfl, by decide +kernel, by decide +kernel, by decide +kernel⟩
  · exact ⟨_, _, rfl, rfl, by decide +kernel, by decide +kernel, by decide +kernel⟩

/-! ### C59 -/

/-- The parameters and statistics of a `BatchNorm` over `n` features. -/
structure BatchNorm.Fits (bn : BatchNorm 𝕜) (n : Nat) : Prop where
  mean : bn.mean.shape = [n]
  var : bn.var.shape = [n]
  scale : ∀ q, bn.scale = some q → q.shape = [n]
  bias : ∀ q, bn.bias = some q → q.shape = [n]

/-- C59: with `use_running_average` the module is unchanged, and the stored statistics are used. -/
theorem C59_running (rsqrt : 𝕜 → 𝕜) (bn : BatchNorm 𝕜) (x : Tensor 𝕜) (arg flag : Option Bool) (a n : Nat)
    (hmode : firstFrom [arg, bn.useRunningAverage, flag] = .ok true)
    (hfit : bn.Fits n) (haxis : NamesAxis bn.axis x.shape.length a) (hn : x.shape[a]? = some n) :
    ∃ y, bn.call rsqrt x arg flag = (bn, .ok y) ∧ y.shape = x.shape ∧
      ∀ idx f, Within idx x.shape → idx[a]? = some f →
        y.val idx = (x.val idx - bn.mean.val [f]) * (rsqrt (bn.var.val [f] + bn.epsilon) * vecAt bn.scale f 1) +
          vecAt bn.bias f 0 := by
  obtain ⟨y, h1, h2, h3⟩ := normalize_one rsqrt (x := x) bn.epsilon hn hfit.mean hfit.var hfit.scale hfit.bias
  refine ⟨y, ?_, h2, h3⟩
  rw [BatchNorm.call, BatchNorm.callWith, hmode, canonical_one haxis]
  simp only [if_true, h1]

variable [IsStrictOrderedRing 𝕜]

/-- C59: otherwise the running statistics move towards the statistics of the batch, nothing else about the module
changes, and the batch's own statistics are used for normalization. -/
theorem C59_training (rsqrt : 𝕜 → 𝕜) (bn : BatchNorm 𝕜) (x : Tensor 𝕜) (arg flag : Option Bool) (a n : Nat)
    (hmode : firstFrom [arg, bn.useRunningAverage, flag] = .ok false)
    (hfit : bn.Fits n) (haxis : NamesAxis bn.axis x.shape.length a) (hn : x.shape[a]? = some n)
    (hne : 0 < size x.shape) :
    ∃ mean var y, bn.call rsqrt x arg flag = ({ bn with mean := mean, var := var }, .ok y) ∧
      mean.shape = [n] ∧ var.shape = [n] ∧
      (∀ f, f < n →
        mean.val [f] = bn.momentum * bn.mean.val [f] + (1 - bn.momentum) * avg (channel x a f) ∧
        var.val [f] = bn.momentum * bn.var.val [f] + (1 - bn.momentum) * variance (channel x a f)) ∧
      y.shape = x.shape ∧
      ∀ idx f, Within idx x.shape → idx[a]? = some f →
        y.val idx =
          (x.val idx - avg (channel x a f)) *
              (rsqrt (variance (channel x a f) + bn.epsilon) * vecAt bn.scale f 1) +
            vecAt bn.bias f 0 := by
  obtain ⟨m, v, s1, s2, s3, s4⟩ := computeStats_one hn hne
  obtain ⟨m', hm1, hm2, hm3⟩ := emaStep_vec (m := bn.momentum) hfit.mean s2
  obtain ⟨v', hv1, hv2, hv3⟩ := emaStep_vec (m := bn.momentum) hfit.var s3
  obtain ⟨y, h1, h2, h3⟩ := normalize_one rsqrt (x := x) bn.epsilon hn s2 s3 hfit.scale hfit.bias
  refine ⟨m', v', y, ?_, hm2, hv2, fun f hf => ⟨?_, ?_⟩, h2, fun idx f hw hf => ?_⟩
  · rw [BatchNorm.call, BatchNorm.callWith, hmode, canonical_one haxis]
    simp only [Bool.false_eq_true, if_false, s1, hm1, hv1, h1]
  · rw [hm3 f hf, (s4 f hf).1]
  · rw [hv3 f hf, (s4 f hf).2]
  · obtain ⟨f', hf', hlt⟩ := coord hw hn
    rw [hf] at hf'; cases hf'
    rw [h3 idx f hw hf, (s4 f hlt).1, (s4 f hlt).2]

/-- C60: in training mode the normalized output has mean zero in every feature (mean `bias` if there is one). -/
theorem C60_mean_zero (rsqrt : 𝕜 → 𝕜) (bn : BatchNorm 𝕜) (x : Tensor 𝕜) (arg flag : Option Bool) (a n : Nat)
    (hmode : firstFrom [arg, bn.useRunningAverage, flag] = .ok false)
    (hfit : bn.Fits n) (haxis : NamesAxis bn.axis x.shape.length a) (hn : x.shape[a]? = some n)
    (hne : 0 < size x.shape) :
    ∃ bn' y, bn.call rsqrt x arg flag = (bn', .ok y) ∧ ∀ f, f < n → avg (channel y a f) = vecAt bn.bias f 0 := by
  obtain ⟨m, v, y, h1, -, -, -, h5, h6⟩ := C59_training rsqrt bn x arg flag a n hmode hfit haxis hn hne
  refine ⟨_, y, h1, fun f hf => ?_⟩
  rw [channel_affine h5 (c := avg (channel x a f))
    (k := rsqrt (variance (channel x a f) + bn.epsilon) * vecAt bn.scale f 1) (b := vecAt bn.bias f 0)
    (fun idx hw hi => h6 idx f hw hi)]
  exact (avg_affine (channel_ne_nil hn hne hf) _ _).1

/-- C60: and its variance in feature `f` is `var / (var + epsilon)`, times the square of the scale. -/
theorem C60_output_variance (rsqrt : 𝕜 → 𝕜) (hrsqrt : ∀ v, 0 < v → rsqrt v * rsqrt v = 1 / v)
    (bn : BatchNorm 𝕜) (heps : 0 < bn.epsilon) (x : Tensor 𝕜) (arg flag : Option Bool) (a n : Nat)
    (hmode : firstFrom [arg, bn.useRunningAverage, flag] = .ok false)
    (hfit : bn.Fits n) (haxis : NamesAxis bn.axis x.shape.length a) (hn : x.shape[a]? = some n)
    (hne : 0 < size x.shape) :
    ∃ bn' y, bn.call rsqrt x arg flag = (bn', .ok y) ∧ ∀ f, f < n →
      variance (channel y a f) =
        variance (channel x a f) / (variance (channel x a f) + bn.epsilon) *
          (vecAt bn.scale f 1 * vecAt bn.scale f 1) := by
  obtain ⟨m, v, y, h1, -, -, -, h5, h6⟩ := C59_training rsqrt bn x arg flag a n hmode hfit haxis hn hne
  refine ⟨_, y, h1, fun f hf => ?_⟩
  rw [channel_affine h5 (c := avg (channel x a f))
    (k := rsqrt (variance (channel x a f) + bn.epsilon) * vecAt bn.scale f 1) (b := vecAt bn.bias f 0)
    (fun idx hw hi => h6 idx f hw hi)]
  rw [(avg_affine (channel_ne_nil hn hne hf) _ _).2]
  have hpos : 0 < variance (channel x a f) + bn.epsilon := add_pos_of_nonneg_of_pos (variance_nonneg _) heps
  have := hrsqrt _ hpos
  calc variance (channel x a f) * ((rsqrt (variance (channel x a f) + bn.epsilon) * vecAt bn.scale f 1) *
        (rsqrt (variance (channel x a f) + bn.epsilon) * vecAt bn.scale f 1))
      = variance (channel x a f) * (rsqrt (variance (channel x a f) + bn.epsilon) *
          rsqrt (variance (channel x a f) + bn.epsilon)) * (vecAt bn.scale f 1 * vecAt bn.scale f 1) := by ring
    _ = _ := by rw [this]; ring

/-- One call of a `BatchNorm`: the input, the `use_running_average` argument and the context flag. -/
structure BnCall (𝕜 : Type) where
  x : Tensor 𝕜
  arg : Option Bool
  flag : Option Bool

/-- The module after a sequence of calls. -/
def bnRun (rsqrt : 𝕜 → 𝕜) : BatchNorm 𝕜 → List (BnCall 𝕜) → BatchNorm 𝕜
  | bn, [] => bn
  | bn, c :: cs => bnRun rsqrt (bn.call rsqrt c.x c.arg c.flag).1 cs

/-- The batches a module was called on in training mode, in order. -/
def trainBatches (attr : Option Bool) (calls : List (BnCall 𝕜)) : List (Tensor 𝕜) :=
  (calls.filter fun c => decide (firstFrom [c.arg, attr, c.flag] = .ok false)).map (·.x)

/-- C59: after any sequence of calls, in any mix of modes, the running mean is the exponential moving average of the
means of the training batches alone, likewise the running variance, and nothing else about the module has changed.
`pos` gives the number of the feature axis for arrays of each rank. -/
theorem C59_history (rsqrt : 𝕜 → 𝕜) (bn : BatchNorm 𝕜) (calls : List (BnCall 𝕜)) (n : Nat) (pos : Nat → Nat)
    (hfit : bn.Fits n)
    (hcalls : ∀ c ∈ calls, (∃ b, firstFrom [c.arg, bn.useRunningAverage, c.flag] = .ok b) ∧
      NamesAxis bn.axis c.x.shape.length (pos c.x.shape.length) ∧
      c.x.shape[pos c.x.shape.length]? = some n ∧ 0 < size c.x.shape) :
    ∃ mean var, bnRun rsqrt bn calls = { bn with mean := mean, var := var } ∧
      mean.shape = [n] ∧ var.shape = [n] ∧
      ∀ f, f < n →
        mean.val [f] = movingAverage bn.momentum (bn.mean.val [f])
          ((trainBatches bn.useRunningAverage calls).map fun x => avg (channel x (pos x.shape.length) f)) ∧
        var.val [f] = movingAverage bn.momentum (bn.var.val [f])
          ((trainBatches bn.useRunningAverage calls).map fun x => variance (channel x (pos x.shape.length) f)) := by
  induction calls generalizing bn with
  | nil => exact ⟨bn.mean, bn.var, rfl, hfit.mean, hfit.var, fun f _ => by simp [trainBatches, movingAverage]⟩
  | cons c cs ih =>
    obtain ⟨⟨b, hb⟩, hax, hn, hne⟩ := hcalls c (by simp)
    cases b with
    | true =>
      obtain ⟨y, h1, -, -⟩ := C59_running rsqrt bn c.x c.arg c.flag _ n hb hfit hax hn
      have e : trainBatches bn.useRunningAverage (c :: cs) = trainBatches bn.useRunningAverage cs := by
        simp [trainBatches, hb]
      rw [bnRun, h1, e]
      exact ih bn hfit (fun c hc => hcalls c (by simp [hc]))
    | false =>
      obtain ⟨m, v, y, h1, h2, h3, h4, -, -⟩ := C59_training rsqrt bn c.x c.arg c.flag _ n hb hfit hax hn hne
      have e : trainBatches bn.useRunningAverage (c :: cs) = c.x :: trainBatches bn.useRunningAverage cs := by
        simp [trainBatches, hb]
      rw [bnRun, h1, e]
      obtain ⟨m', v', i1, i2, i3, i4⟩ := ih { bn with mean := m, var := v } ⟨h2, h3, hfit.scale, hfit.bias⟩
        (fun c hc => hcalls c (by simp [hc]))
      refine ⟨m', v', i1, i2, i3, fun f hf => ?_⟩
      rw [List.map_cons, List.map_cons, movingAverage_cons, movingAverage_cons, ← (h4 f hf).1, ← (h4 f hf).2]
      exact i4 f hf

/-- C59: for momentum in [0,1] the running mean never leaves the range of the initial value and the batch means; the
running variance stays non-negative. -/
theorem C59_range (rsqrt : 𝕜 → 𝕜) (bn : BatchNorm 𝕜) (calls : List (BnCall 𝕜)) (n : Nat) (pos : Nat → Nat)
    (hfit : bn.Fits n) (hm0 : 0 ≤ bn.momentum) (hm1 : bn.momentum ≤ 1)
    (hcalls : ∀ c ∈ calls, (∃ b, firstFrom [c.arg, bn.useRunningAverage, c.flag] = .ok b) ∧
      NamesAxis bn.axis c.x.shape.length (pos c.x.shape.length) ∧
      c.x.shape[pos c.x.shape.length]? = some n ∧ 0 < size c.x.shape)
    (f : Nat) (hf : f < n) (lo hi : 𝕜) (h0 : lo ≤ bn.mean.val [f] ∧ bn.mean.val [f] ≤ hi)
    (hx : ∀ c ∈ calls, ∀ v ∈ channel c.x (pos c.x.shape.length) f, lo ≤ v ∧ v ≤ hi)
    (hv0 : 0 ≤ bn.var.val [f]) :
    lo ≤ (bnRun rsqrt bn calls).mean.val [f] ∧ (bnRun rsqrt bn calls).mean.val [f] ≤ hi ∧
      0 ≤ (bnRun rsqrt bn calls).var.val [f] := by
  obtain ⟨m, v, h1, -, -, h4⟩ := C59_history rsqrt bn calls n pos hfit hcalls
  rw [h1]
  obtain ⟨e1, e2⟩ := h4 f hf
  simp only
  rw [e1, e2]
  have key : ∀ x ∈ trainBatches bn.useRunningAverage calls, ∃ c ∈ calls, x = c.x := by
    intro x hx
    simp only [trainBatches, List.mem_map, List.mem_filter] at hx
    obtain ⟨c, ⟨hc, -⟩, rfl⟩ := hx
    exact ⟨c, hc, rfl⟩
  have hlo := movingAverage_bounds hm0 hm1 (lo := lo) (hi := hi) h0
    (l := (trainBatches bn.useRunningAverage calls).map fun x => avg (channel x (pos x.shape.length) f)) (by
      intro u hu
      obtain ⟨x, hxm, rfl⟩ := List.mem_map.1 hu
      obtain ⟨c, hc, rfl⟩ := key x hxm
      obtain ⟨-, -, hn, hne⟩ := hcalls c hc
      exact avg_bounds (channel_ne_nil hn hne hf) (hx c hc))
  refine ⟨hlo.1, hlo.2, ?_⟩
  apply movingAverage_nonneg hm0 hm1 hv0
  intro u hu
  obtain ⟨x, hxm, rfl⟩ := List.mem_map.1 hu
  exact variance_nonneg _

/-! ### LayerNorm -/

/-- C76: `LayerNorm` normalizes every entry with the mean and variance of the entries that agree with it on all axes
outside `reduction_axes`, and scales and shifts it by the parameters of its feature. -/
theorem C76_layer_norm (rsqrt : 𝕜 → 𝕜) (ln : LayerNorm 𝕜) (x : Tensor 𝕜) (a n : Nat)
    (hred : ValidAxes x.shape.length ln.reductionAxes) (hfeat : NamesAxis ln.featureAxes x.shape.length a)
    (hn : x.shape[a]? = some n) (hscale : ∀ q, ln.scale = some q → q.shape = [n])
    (hbias : ∀ q, ln.bias = some q → q.shape = [n]) :
    ∃ y, ln.call rsqrt x = .ok y ∧ y.shape = x.shape ∧
      ∀ idx f, Within idx x.shape → idx[a]? = some f →
        let sample := (cell x.shape
          (fun i => (i : Int) ∉ ln.reductionAxes ∧ (i : Int) - x.shape.length ∉ ln.reductionAxes) idx).map x.val
        y.val idx = (x.val idx - avg sample) * (rsqrt (variance sample + ln.epsilon) * vecAt ln.scale f 1) +
          vecAt ln.bias f 0 := by
  obtain ⟨m, v, h1, h2, h3, h4⟩ := computeStats_spec hred
    (fun i => (i : Int) ∉ ln.reductionAxes ∧ (i : Int) - x.shape.length ∉ ln.reductionAxes) keptAxes
  have c2 := canonical_one hfeat
  obtain ⟨y, y1, y2, y3⟩ := normalize_spec rsqrt (x := x) (mean := m) (var := v) (scale := ln.scale) (bias := ln.bias)
    (red := ln.reductionAxes) (feat := ln.featureAxes) ln.epsilon (canonical_range hred.1)
    (by rw [c2]; intro b hb; simp only [List.mem_singleton] at hb; have := hfeat.1; omega)
    (by rw [h2]) (by rw [h3, h2])
    (by intro q hq; rw [c2, pick_one hn rfl, hscale q hq]) (by intro q hq; rw [c2, pick_one hn rfl, hbias q hq])
  refine ⟨y, by rw [LayerNorm.call, LayerNorm.callWith, h1]; exact y1, y2, fun idx f hw hf => ?_⟩
  obtain ⟨f', hf', hlt⟩ := coord hw hn
  rw [hf] at hf'; cases hf'
  simp only
  rw [y3 idx hw, c2, h3, h2, unravel_ravel (within_pick hw), (h4 idx hw).1, (h4 idx hw).2,
    paramAt_one hscale hn hw hf hlt, paramAt_one hbias hn hw hf hlt]

/-! ### Examples -/

/-- A 3×2 batch of rationals. -/
def exBatch : Tensor ℚ := ⟨[3, 2], fun idx => (idx.headD 0 : ℚ) * 10 + (idx.getD 1 0 : ℚ)⟩

/-- A `BatchNorm` over two features. -/
def exBn : BatchNorm ℚ :=
  { mean := ⟨[2], fun _ => 0⟩, var := ⟨[2], fun _ => 1⟩, scale := some ⟨[2], fun _ => 2⟩, bias := none,
    useRunningAverage := none, axis := [-1], momentum := 9/10, epsilon := 1/100 }

example : exBn.Fits 2 := ⟨rfl, rfl, fun q h => by cases h; rfl, fun q h => by cases h⟩
example : NamesAxis exBn.axis exBatch.shape.length 1 := ⟨by decide, Or.inr rfl⟩
example : exBatch.shape[1]? = some 2 ∧ 0 < size exBatch.shape := by decide
example : firstFrom [some false, exBn.useRunningAverage, some true] = .ok false := rfl
example : channel exBatch 1 1 = [1, 11, 21] := by norm_num [channel, exBatch, indices, List.range, List.range.loop]
example : ValidAxes 2 [-1] := by
  refine ⟨by decide, by decide⟩
/-- The running mean of feature 1 after two training calls and one evaluation call. -/
example : (bnRun (fun _ => 1) exBn [⟨exBatch, some false, none⟩, ⟨exBatch, some true, none⟩, ⟨exBatch, some false, none⟩]).mean.val [1] =
    (9/10) * ((9/10) * 0 + (1/10) * 11) + (1/10) * 11 := by
  obtain ⟨m, v, h1, -, -, h4⟩ := C59_history (fun _ => 1) exBn
    [⟨exBatch, some false, none⟩, ⟨exBatch, some true, none⟩, ⟨exBatch, some false, none⟩] 2 (fun r => r - 1)
    ⟨rfl, rfl, fun q h => by cases h; rfl, fun q h => by cases h⟩ (by
      have hx : NamesAxis exBn.axis exBatch.shape.length (exBatch.shape.length - 1) := ⟨by decide, Or.inr rfl⟩
      intro c hc
      simp only [List.mem_cons, List.not_mem_nil, or_false] at hc
      rcases hc with rfl | rfl | rfl <;> exact ⟨⟨_, rfl⟩, hx, by decide, by decide⟩)
  rw [h1]
  have hc : channel exBatch 1 1 = [1, 11, 21] := by
    norm_num [channel, exBatch, indices, List.range, List.range.loop]
  have := (h4 1 (by decide)).1
  have e : trainBatches exBn.useRunningAverage
    [⟨exBatch, some false, none⟩, ⟨exBatch, some true, none⟩, ⟨exBatch, some false, none⟩] = [exBatch, exBatch] := rfl
  rw [e] at this
  simp only [List.map_cons, List.map_nil] at this
  rw [show exBatch.shape.length - 1 = 1 from rfl, hc] at this
  simp only
  rw [this]
  norm_num [movingAverage, avg, exBn]

/-! ### Inputs with another number of features -/

section
variable {𝕜 : Type} [Field 𝕜]

/-- The statistics of `n` features cannot be used for an input that has another number of features. -/
theorem normalize_other (rsqrt : 𝕜 → 𝕜) {x mean var : Tensor 𝕜} {scale bias : Option (Tensor 𝕜)} {a n m : Nat} (eps : 𝕜)
    (hs : x.shape[a]? = some m) (hm : mean.shape = [n]) (hne : m ≠ n) :
    normalize rsqrt x mean var scale bias (otherAxes x.shape.length [(a : Int)]) [(a : Int)] eps = .error .typeError := by
  have c1 := canonical_other x.shape.length [(a : Int)]
  have c3 := axisMask_other x.shape.length [(a : Int)]
  have hr : mean.reshape (onesAt (axisMask x.shape.length (otherAxes x.shape.length [(a : Int)])) x.shape) = .error .typeError := by
    rw [Tensor.reshape, if_neg]
    rw [size_onesAt (axisMask_length _ _), c3, pick_not, pick_one hs rfl, hm]
    simpa [size] using hne
  rw [normalize]
  simp only [c1, pySetAll_one (fun b hb => (mem_otherAxes.1 hb).1), hr]

variable [LinearOrder 𝕜]

/-- C59: a `BatchNorm` made for `n` features that uses its running statistics rejects an input with another number of
features. -/
theorem C59_other_features_running (rsqrt : 𝕜 → 𝕜) (bn : BatchNorm 𝕜) (x : Tensor 𝕜) (arg flag : Option Bool) (a n m : Nat)
    (hmode : firstFrom [arg, bn.useRunningAverage, flag] = .ok true)
    (hfit : bn.Fits n) (haxis : NamesAxis bn.axis x.shape.length a) (hm : x.shape[a]? = some m) (hne : m ≠ n) :
    bn.call rsqrt x arg flag = (bn, .error .typeError) := by
  rw [BatchNorm.call, BatchNorm.callWith, hmode, canonical_one haxis]
  simp only [if_true, normalize_other rsqrt bn.epsilon hm hfit.mean hne]

variable [IsStrictOrderedRing 𝕜]

/-- C59: and so does one in training, without having changed its statistics, unless one of the two numbers is 1. -/
theorem C59_other_features_training (rsqrt : 𝕜 → 𝕜) (bn : BatchNorm 𝕜) (x : Tensor 𝕜) (arg flag : Option Bool) (a n m : Nat)
    (hmode : firstFrom [arg, bn.useRunningAverage, flag] = .ok false)
    (hfit : bn.Fits n) (haxis : NamesAxis bn.axis x.shape.length a) (hm : x.shape[a]? = some m) (hne : m ≠ n)
    (hp : 0 < size x.shape) (hm1 : m ≠ 1) (hn1 : n ≠ 1) :
    bn.call rsqrt x arg flag = (bn, .error .typeError) := by
  obtain ⟨mu, v, s1, s2, _, _⟩ := computeStats_one hm hp
  have he : emaStep bn.momentum bn.mean mu = .error .typeError := by
    simp only [emaStep, Tensor.bin, Tensor.map, hfit.mean, s2, broadcastShape, List.reverse_singleton, broadcastRev]
    rw [if_neg]
    rintro (h | h | h)
    · exact hne h.symm
    · exact hn1 h
    · exact hm1 h
  rw [BatchNorm.call, BatchNorm.callWith, hmode, canonical_one haxis]
  simp only [Bool.false_eq_true, if_false, s1, he]

/-- C59: a `BatchNorm` made for one feature, without parameters, that is called in training with an input of `m` features
does not reject it: it becomes a `BatchNorm` for `m` features. -/
theorem C59_one_feature_grows (rsqrt : 𝕜 → 𝕜) (bn : BatchNorm 𝕜) (x : Tensor 𝕜) (arg flag : Option Bool) (a m : Nat)
    (hmode : firstFrom [arg, bn.useRunningAverage, flag] = .ok false)
    (hfit : bn.Fits 1) (haxis : NamesAxis bn.axis x.shape.length a) (hm : x.shape[a]? = some m)
    (hp : 0 < size x.shape) (hs : bn.scale = none) (hb : bn.bias = none) :
    ∃ mean var y, bn.call rsqrt x arg flag = ({ bn with mean := mean, var := var }, .ok y) ∧
      mean.shape = [m] ∧ var.shape = [m] ∧ y.shape = x.shape := by
  obtain ⟨mu, v, s1, s2, s3, _⟩ := computeStats_one hm hp
  have hema : ∀ {old new : Tensor 𝕜}, old.shape = [1] → new.shape = [m] →
      ∃ t, emaStep bn.momentum old new = .ok t ∧ t.shape = [m] := by
    intro old new h1 h2
    simp only [emaStep, Tensor.bin, Tensor.map, h1, h2, broadcastShape, List.reverse_singleton, broadcastRev]
    rw [if_pos (by simp)]
    exact ⟨_, rfl, by simp⟩
  obtain ⟨m', e1, e2⟩ := hema hfit.mean s2
  obtain ⟨v', e3, e4⟩ := hema hfit.var s3
  obtain ⟨y, y1, y2, _⟩ := normalize_one rsqrt (x := x) (scale := bn.scale) (bias := bn.bias) bn.epsilon hm s2 s3
    (by rw [hs]; intro q h; cases h) (by rw [hb]; intro q h; cases h)
  refine ⟨m', v', y, ?_, e2, e4, y2⟩
  rw [BatchNorm.call, BatchNorm.callWith, hmode, canonical_one haxis]
  simp only [Bool.false_eq_true, if_false, s1, e1, e3, y1]

end

/-- With a scale the call raises, but the statistics have been overwritten with ones of another shape by then. -/
theorem C59_one_feature_spoilt (rsqrt : ℚ → ℚ) :
    ∃ bn, ({ exBn with mean := ⟨[1], fun _ => 0⟩, var := ⟨[1], fun _ => 1⟩, scale := some ⟨[1], fun _ => 2⟩ } : BatchNorm ℚ).call
      rsqrt exBatch (some false) none = (bn, .error .typeError) ∧ bn.mean.shape = [2] ∧ bn.var.shape = [2] :=
  ⟨_, rfl, rfl, rfl⟩

/-- The hypotheses of the four theorems: two features against one, three and none. -/
example : NamesAxis [-1] (⟨[2, 3], fun _ => (0 : ℚ)⟩ : Tensor ℚ).shape.length 1 ∧ (3 : Nat) ≠ 2 ∧
    exBn.call (fun _ => 1) ⟨[2, 3], fun _ => 0⟩ (some true) none = (exBn, .error .typeError) ∧
    exBn.call (fun _ => 1) ⟨[2, 3], fun _ => 0⟩ (some false) none = (exBn, .error .typeError) :=
  ⟨⟨by decide, Or.inr rfl⟩, by decide, rfl, rfl⟩

end Nnx
