import Verif.Proofs.BatchNorm
import Verif.Props.Context
import Mathlib.Algebra.Order.Field.Rat
import Mathlib.Tactic.NormNum

/-!
# Dropout: C58
-/

namespace Nnx

variable {𝕜 : Type} [Field 𝕜] [LinearOrder 𝕜] {κ η : Type}

theorem pySet_norm {A : Type} {xs : List A} {i : Int} {v : A} (h : -(xs.length : Int) ≤ i ∧ i < xs.length) :
    pySet xs i v = pySet xs (if i < 0 then xs.length + i else i) v := by
  by_cases h0 : i < 0
  · rw [if_pos h0, pySet, if_neg (by omega), if_pos ⟨h.1, h0⟩, pySet, if_pos ⟨by omega, by omega⟩]
  · rw [if_neg h0]

theorem pySetAll_norm {A : Type} (v : A) : ∀ {is : List Int} {xs : List A},
    (∀ i ∈ is, -(xs.length : Int) ≤ i ∧ i < xs.length) →
    pySetAll v is xs = pySetAll v (is.map fun i : Int => if i < 0 then (xs.length : Int) + i else i) xs
  | [], _, _ => rfl
  | i :: is, xs, h => by
    have hi := h i (by simp)
    rw [List.map_cons, pySetAll, pySetAll, ← pySet_norm hi]
    cases hs : pySet xs i v with
    | error e => rfl
    | ok ys =>
      have hl : ys.length = xs.length := by
        unfold pySet at hs
        split at hs
        · cases hs; simp
        · split at hs
          · cases hs; simp
          · cases hs
      simp only
      rw [pySetAll_norm v (is := is) (xs := ys) (by intro j hj; rw [hl]; exact h j (by simp [hj])), hl]

/-- The mask's shape: the input's, with 1 on the broadcast axes. -/
theorem broadcast_shape {dims : List Int} {s : List Nat} (h : ∀ i ∈ dims, -(s.length : Int) ≤ i ∧ i < s.length) :
    pySetAll 1 dims s = .ok (onesAt (axisMask s.length (canonicalizeAxes s.length dims)) s) := by
  rw [pySetAll_norm 1 h, pySetAll_one]
  · congr 2
    rw [axisMask, axisMask]
    apply List.map_congr_left
    intro i _
    rw [decide_eq_decide, canonicalizeAxes, mem_dedup]
  · intro a ha
    obtain ⟨b, hb, rfl⟩ := List.mem_map.1 ha
    have := h b hb
    split <;> omega

/-- C58: deterministic, or rate 0: the input is returned and nothing else happens. -/
theorem C58_identity (P : RngPrims κ η) (bernoulli : κ → 𝕜 → List Nat → List Nat → Bool) (d : Dropout 𝕜)
    (x : Tensor 𝕜) (arg : Option Bool) (ctx : Option Nat) (w : RngWorld κ) (det : Bool)
    (hmode : firstFrom [arg, d.deterministic, ctxFlag w ctx (py! "deterministic")] = .ok det)
    (h : det = true ∨ d.rate = 0) :
    d.call P bernoulli x arg ctx w = (w, .ok x) := by
  rw [Dropout.call.eq_def, hmode]
  simp only
  rw [if_pos h.symm]

/-- C58: rate 1: all zeros, and no key is consumed. -/
theorem C58_rate_one (P : RngPrims κ η) (bernoulli : κ → 𝕜 → List Nat → List Nat → Bool) (d : Dropout 𝕜)
    (x : Tensor 𝕜) (arg : Option Bool) (ctx : Option Nat) (w : RngWorld κ)
    (hmode : firstFrom [arg, d.deterministic, ctxFlag w ctx (py! "deterministic")] = .ok false)
    (h : d.rate = 1) :
    ∃ y, d.call P bernoulli x arg ctx w = (w, .ok y) ∧ y.shape = x.shape ∧ ∀ idx, y.val idx = 0 := by
  refine ⟨⟨x.shape, fun _ => 0⟩, ?_, rfl, fun _ => rfl⟩
  rw [Dropout.call.eq_def, hmode]
  simp only
  rw [if_neg (by rw [h]; simp), if_pos h]

/-- C58: otherwise exactly one key is consumed, from the stream named by `rng_collection` (its count goes up by one,
and nothing else changes); every element is kept and divided by `1 - rate`, or dropped; elements that differ only
along `broadcast_dims` are kept or dropped together, and the decision at a position is the draw of `bernoulli`, with
probability `1 - rate`, at that position of the mask. -/
theorem C58_mask (P : RngPrims κ η) (bernoulli : κ → 𝕜 → List Nat → List Nat → Bool) (d : Dropout 𝕜)
    (x : Tensor 𝕜) (arg : Option Bool) (c : Nat) (w : RngWorld κ) (ctx : CtxObj) (s : Nat) (st : RngStream κ)
    (hmode : firstFrom [arg, d.deterministic, ctxFlag w (some c) (py! "deterministic")] = .ok false)
    (h0 : d.rate ≠ 0) (h1 : d.rate ≠ 1)
    (hdims : ∀ i ∈ d.broadcastDims, -(x.shape.length : Int) ≤ i ∧ i < x.shape.length)
    (hctx : w.ctxs[c]? = some ctx) (htr : ctx.trace = w.curTrace) (hs : dget ctx.rngs d.rngCollection = some s)
    (hst : w.streams[s]? = some st) :
    ∃ y maskShape, ∃ keep : List Nat → Bool,
      d.call P bernoulli x arg (some c) w =
        ({ w with streams := w.streams.set s { st with count := st.count + 1 } }, .ok y) ∧
      y.shape = x.shape ∧
      (∀ idx, y.val idx = if keep idx then x.val idx / (1 - d.rate) else 0) ∧
      (∀ idx idx', Within idx x.shape → Within idx' x.shape →
        (∀ a : Nat, (a : Int) ∉ d.broadcastDims → (a : Int) - x.shape.length ∉ d.broadcastDims → idx[a]? = idx'[a]?) →
        keep idx = keep idx') ∧
      (∀ idx, Within idx maskShape → Within idx x.shape →
        keep idx = bernoulli (P.foldIn st.key (P.hash (encodeCounts (st.path ++ [st.count])))) (1 - d.rate)
          maskShape idx) ∧
      maskShape.length = x.shape.length ∧
      (∀ a : Nat, a < x.shape.length → maskShape[a]? =
        if (a : Int) ∈ d.broadcastDims ∨ (a : Int) - x.shape.length ∈ d.broadcastDims then some 1 else x.shape[a]?) := by
  have hml : (axisMask x.shape.length (canonicalizeAxes x.shape.length d.broadcastDims)).length = x.shape.length :=
    axisMask_length _ _
  have hmem : ∀ i, i < x.shape.length → ((i : Int) ∈ canonicalizeAxes x.shape.length d.broadcastDims ↔
      (i : Int) ∈ d.broadcastDims ∨ (i : Int) - x.shape.length ∈ d.broadcastDims) := by
    intro i hi
    have := keptAxes (axes := d.broadcastDims) i hi
    tauto
  let mask : Tensor Bool :=
    ⟨onesAt (axisMask x.shape.length (canonicalizeAxes x.shape.length d.broadcastDims)) x.shape,
      bernoulli (P.foldIn st.key (P.hash (encodeCounts (st.path ++ [st.count])))) (1 - d.rate)
        (onesAt (axisMask x.shape.length (canonicalizeAxes x.shape.length d.broadcastDims)) x.shape)⟩
  refine ⟨⟨x.shape, fun idx => if mask.bget idx then x.val idx / (1 - d.rate) else 0⟩, mask.shape, mask.bget, ?_, rfl,
    fun idx => rfl, ?_, ?_, onesAt_length hml, ?_⟩
  · rw [Dropout.call.eq_def, hmode]
    simp only
    rw [if_neg (by simp [h0]), if_neg h1]
    simp only [makeRng, hctx, hs, htr, if_true, hst, broadcast_shape hdims, bump]
    rfl
  · intro idx idx' hw hw' hag
    have hcl : clip (onesAt (axisMask x.shape.length (canonicalizeAxes x.shape.length d.broadcastDims)) x.shape) idx =
        clip (onesAt (axisMask x.shape.length (canonicalizeAxes x.shape.length d.broadcastDims)) x.shape) idx' := by
      apply List.ext_getElem
      · simp [clip, onesAt_length hml, within_length hw, within_length hw']
      · intro i hi1 hi2
        have hi : i < x.shape.length := by
          simp [clip, onesAt_length hml, within_length hw] at hi1; exact hi1
        simp only [clip, onesAt, axisMask, List.getElem_zipWith, List.getElem_map, List.getElem_range]
        have l1 : i < idx.length := by rw [within_length hw]; exact hi
        have l2 : i < idx'.length := by rw [within_length hw']; exact hi
        by_cases hm : (i : Int) ∈ canonicalizeAxes x.shape.length d.broadcastDims
        · simp [hm]
        · have hm' := hm
          rw [hmem i hi, not_or] at hm'
          have := hag i hm'.1 hm'.2
          rw [List.getElem?_eq_getElem l1, List.getElem?_eq_getElem l2, Option.some.injEq] at this
          rw [this]
    rw [bget_same mask (by rw [onesAt_length hml, within_length hw]),
      bget_same mask (by rw [onesAt_length hml, within_length hw'])]
    show mask.val _ = mask.val _
    rw [hcl]
  · intro idx hw hwx
    rw [bget_same mask (by rw [onesAt_length hml, within_length hwx]), clip_within hw]
  · intro a ha
    show (onesAt _ _)[a]? = _
    unfold onesAt
    rw [List.getElem?_zipWith, axisMask_getElem _ _ _ ha, List.getElem?_eq_getElem ha]
    simp only [decide_eq_true_eq, hmem a ha]
    split <;> rfl

/-- C58: nothing specifies whether to drop: `ValueError` (even with rate 0). -/
theorem C58_unspecified (P : RngPrims κ η) (bernoulli : κ → 𝕜 → List Nat → List Nat → Bool) (d : Dropout 𝕜)
    (x : Tensor 𝕜) (ctx : Option Nat) (w : RngWorld κ) (h : d.deterministic = none)
    (hf : ctxFlag w ctx (py! "deterministic") = none) :
    d.call P bernoulli x none ctx w = (w, .error .valueError) := by
  rw [Dropout.call.eq_def, h, hf]; rfl

/-- C58: a mask is needed but there is no context: `ValueError`. -/
theorem C58_no_context (P : RngPrims κ η) (bernoulli : κ → 𝕜 → List Nat → List Nat → Bool) (d : Dropout 𝕜)
    (x : Tensor 𝕜) (arg : Option Bool) (w : RngWorld κ) (h0 : d.rate ≠ 0) (h1 : d.rate ≠ 1)
    (hmode : firstFrom [arg, d.deterministic, none] = .ok false) :
    d.call P bernoulli x arg none w = (w, .error .valueError) := by
  rw [Dropout.call.eq_def, ctxFlag, hmode]
  simp only
  rw [if_neg (by simp [h0]), if_neg h1]

/-- C58: a mask is needed but the context has no such stream: `ValueError`, nothing consumed. -/
theorem C58_no_stream (P : RngPrims κ η) (bernoulli : κ → 𝕜 → List Nat → List Nat → Bool) (d : Dropout 𝕜)
    (x : Tensor 𝕜) (arg : Option Bool) (c : Nat) (w : RngWorld κ) (ctx : CtxObj) (h0 : d.rate ≠ 0) (h1 : d.rate ≠ 1)
    (hmode : firstFrom [arg, d.deterministic, ctxFlag w (some c) (py! "deterministic")] = .ok false)
    (hctx : w.ctxs[c]? = some ctx) (hs : dget ctx.rngs d.rngCollection = none) :
    d.call P bernoulli x arg (some c) w = (w, .error .valueError) := by
  rw [Dropout.call.eq_def, hmode]
  simp only
  rw [if_neg (by simp [h0]), if_neg h1]
  simp only [makeRng, hctx, hs]

/-- C58: the world only changes by the count of the one stream, in every outcome. -/
theorem C58_world (P : RngPrims κ η) (bernoulli : κ → 𝕜 → List Nat → List Nat → Bool) (d : Dropout 𝕜)
    (x : Tensor 𝕜) (arg : Option Bool) (ctx : Option Nat) (w : RngWorld κ) :
    (d.call P bernoulli x arg ctx w).1 = w ∨
    ∃ c, ctx = some c ∧ (d.call P bernoulli x arg ctx w).1 = (makeRng P c d.rngCollection w).1 := by
  unfold Dropout.call
  split
  · exact .inl rfl
  · split
    · exact .inl rfl
    · split
      · exact .inl rfl
      · split
        · exact .inl rfl
        · right
          refine ⟨_, rfl, ?_⟩
          split
          · rename_i h; rw [h]
          · rename_i h
            split <;> simp [h]

/-! A 2×2 input, rate 1/4, the mask shared along the last axis, in a context with a "dropout" stream. -/

/-- The layer. -/
def exDrop : Dropout ℚ := { rate := 1/4, broadcastDims := [-1] }
/-- The input. -/
def exDropIn : Tensor ℚ := ⟨[2, 2], fun _ => 3⟩
/-- The stream the context of `exRng1` calls "dropout". -/
def exDropStream : Option (RngStream SymKey) := exRng1.streams[0]?

example : ∃ ctx st s, exRng1.ctxs[0]? = some ctx ∧ ctx.trace = exRng1.curTrace ∧
    dget ctx.rngs exDrop.rngCollection = some s ∧ exRng1.streams[s]? = some st :=
  ⟨_, _, _, rfl, rfl, rfl, rfl⟩
example : firstFrom [some false, exDrop.deterministic, ctxFlag exRng1 (some 0) (py! "deterministic")] = .ok false := rfl
example : exDrop.rate ≠ 0 ∧ exDrop.rate ≠ 1 := by norm_num [exDrop]
example : ∀ i ∈ exDrop.broadcastDims, -(exDropIn.shape.length : Int) ≤ i ∧ i < exDropIn.shape.length := by
  decide

end Nnx
