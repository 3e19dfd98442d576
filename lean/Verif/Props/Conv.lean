import Verif.Proofs.ConvPad
import Mathlib.Tactic.NormNum

/-!
# C62-C64, C77, C78: Conv, Linear, Embed
-/

namespace Nnx

variable {𝕜 : Type} [Field 𝕜]

/-! ### C62 -/

theorem collectPads_length : ∀ (l : List PadElem), (collectPads l).length ≤ l.length
  | [] => by simp [collectPads]
  | .int p :: l => by simpa [collectPads] using collectPads_length l
  | .tuple [] :: l => by simp [collectPads]
  | .tuple [_] :: l => by simp [collectPads]
  | .tuple [_, _] :: l => by simpa [collectPads] using collectPads_length l
  | .tuple (_ :: _ :: _ :: _) :: l => by simp [collectPads]
  | .other :: l => by simp [collectPads]

theorem collectPads_iff : ∀ {l : List PadElem} {ps : List (Int × Int)},
    (collectPads l).length = l.length ∧ collectPads l = ps ↔ List.Forall₂ PadElem.Pair l ps
  | [], ps => by
    cases ps <;> simp [collectPads]
  | e :: l, ps => by
    have ih := @collectPads_iff l
    have hle := collectPads_length l
    constructor
    · rintro ⟨h1, rfl⟩
      match e with
      | .int p =>
        simp only [collectPads] at h1 ⊢
        exact .cons (.inl ⟨rfl, rfl⟩) (ih.1 ⟨by simpa using h1, rfl⟩)
      | .tuple [a, b] =>
        simp only [collectPads] at h1 ⊢
        exact .cons (.inr rfl) (ih.1 ⟨by simpa using h1, rfl⟩)
      | .tuple [] => simp [collectPads] at h1
      | .tuple [_] => simp [collectPads] at h1
      | .tuple (_ :: _ :: _ :: _) => simp [collectPads] at h1
      | .other => simp [collectPads] at h1
    · intro h
      cases h with
      | @cons _ pr _ ps h1 h2 =>
        obtain ⟨h3, h4⟩ := ih.2 h2
        rcases h1 with ⟨rfl, h⟩ | rfl
        · constructor
          · simp [collectPads, h3]
          · rw [collectPads, h4, ← h]
            obtain ⟨a, b⟩ := pr
            simp only at h
            rw [h]
        · constructor
          · simp [collectPads, h3]
          · rw [collectPads, h4]

/-- **C62** (padding): a string is returned as it is. -/
theorem C62_string (s : Str) (rank : Nat) : canonicalizePadding (.str s) rank = .ok (.str s) := rfl

/-- **C62** (padding): anything else is canonicalised to exactly `rank` pairs - an int standing for itself on both
sides of every dimension, a sequence element int for both sides of its dimension and a pair for itself - or is
rejected. -/
theorem C62_pairs {padding : Padding} {rank : Nat} {ps : List (Int × Int)} :
    canonicalizePadding padding rank = .ok (.pairs ps) ↔
      ps.length = rank ∧ ((∃ p, padding = .int p ∧ ∀ q ∈ ps, q = (p, p)) ∨
        ∃ es, padding = .seq es ∧ List.Forall₂ PadElem.Pair es ps) := by
  cases padding with
  | str s => simp [canonicalizePadding]
  | other => simp [canonicalizePadding]
  | int p =>
    simp only [canonicalizePadding, Except.ok.injEq, LaxPadding.pairs.injEq, Padding.int.injEq, reduceCtorEq,
      false_and, exists_false, or_false, exists_eq_left']
    rw [eq_comm, List.eq_replicate_iff]
  | seq es =>
    simp only [canonicalizePadding, reduceCtorEq, false_and, exists_false, false_or, Padding.seq.injEq, exists_eq_left']
    constructor
    · intro h
      split at h
      · rename_i h1
        split at h
        · rename_i h2
          cases h
          exact ⟨h2, collectPads_iff.1 ⟨by omega, rfl⟩⟩
        · cases h
      · cases h
    · rintro ⟨h1, h2⟩
      obtain ⟨h3, rfl⟩ := collectPads_iff.2 h2
      rw [if_pos (by omega), if_pos h1]

/-- **C62** (padding): what is neither a string nor canonicalised is rejected with a ValueError. -/
theorem C62_rejects {padding : Padding} {rank : Nat} (h1 : ∀ s, padding ≠ .str s)
    (h2 : ¬∃ ps : List (Int × Int), ps.length = rank ∧ ((∃ p, padding = .int p ∧ ∀ q ∈ ps, q = (p, p)) ∨
        ∃ es, padding = .seq es ∧ List.Forall₂ PadElem.Pair es ps)) :
    canonicalizePadding padding rank = .error .valueError := by
  cases h : canonicalizePadding padding rank with
  | ok lp =>
    cases lp with
    | pairs ps => exact (h2 ⟨ps, C62_pairs.1 h⟩).elim
    | str s =>
      cases padding with
      | str s' => exact (h1 s' rfl).elim
      | other => simp [canonicalizePadding] at h
      | int p => simp [canonicalizePadding] at h
      | seq es => simp only [canonicalizePadding] at h; split at h <;> (try split at h) <;> cases h
  | error e =>
    cases padding with
    | str s' => exact (h1 s' rfl).elim
    | other => simp only [canonicalizePadding] at h; cases h; rfl
    | int p => simp [canonicalizePadding] at h
    | seq es =>
      simp only [canonicalizePadding] at h
      split at h
      · split at h
        · cases h
        · cases h; rfl
      · cases h; rfl

example : canonicalizePadding (.int 2) 3 = .ok (.pairs [(2, 2), (2, 2), (2, 2)]) ∧
    canonicalizePadding (.seq [.int 1, .tuple [0, 3]]) 2 = .ok (.pairs [(1, 1), (0, 3)]) ∧
    canonicalizePadding (.seq [.int 1, .tuple [0, 3, 1]]) 2 = .error .valueError ∧
    canonicalizePadding (.seq [.int 1]) 2 = .error .valueError := by decide

theorem perm_swap_range (m : Nat) : List.Perm ((m + 1) :: List.range' 1 m) (List.range' 1 (m + 1)) := by
  rw [show List.range' 1 (m + 1) = List.range' 1 m ++ [1 + m] by rw [List.range'_concat]; simp]
  have := (List.perm_append_singleton (m + 1) (List.range' 1 m)).symm
  simpa [Nat.add_comm] using this

/-- **C62** (dimension numbers): for inputs of every rank from 2, each of the three dimension numbers is a permutation
of the axes `0, …, ndim - 1`. -/
theorem C62_permutations (ndim : Nat) (h : 2 ≤ ndim) :
    List.Perm (convDimensionNumbers ndim).lhs (List.range ndim) ∧
    List.Perm (convDimensionNumbers ndim).rhs (List.range ndim) ∧
    List.Perm (convDimensionNumbers ndim).out (List.range ndim) := by
  obtain ⟨m, rfl⟩ : ∃ m, ndim = m + 2 := ⟨ndim - 2, by omega⟩
  have h1 : List.Perm (0 :: (m + 1) :: List.range' 1 m) (List.range (m + 2)) := by
    rw [List.range_eq_range', List.range'_succ]
    exact (perm_swap_range m).cons 0
  rw [convDims_lhs, convDims_rhs, convDims_out]
  refine ⟨h1, ?_, h1⟩
  rw [List.range_eq_range', show List.range' 0 (m + 2) = List.range' 0 m ++ [m] ++ [m + 1] by
    rw [List.range'_concat, List.range'_concat]; simp]
  have e1 := (List.perm_append_singleton m (List.range' 0 m)).symm
  have e2 := (List.perm_append_singleton (m + 1) (List.range' 0 m ++ [m])).symm
  exact (e1.cons (m + 1)).trans e2

/-- **C62** (dimension numbers): they name the batch axis first, the feature axis last and the spatial axes in order
between them; the kernel has its spatial axes first, then input features, then output features. -/
theorem C62_axes (ndim : Nat) (h : 2 ≤ ndim) :
    ((convDimensionNumbers ndim).lhs[0]? = some 0 ∧ (convDimensionNumbers ndim).lhs[1]? = some (ndim - 1) ∧
      ∀ j, j + 2 < ndim → (convDimensionNumbers ndim).lhs[j + 2]? = some (j + 1)) ∧
    ((convDimensionNumbers ndim).rhs[0]? = some (ndim - 1) ∧ (convDimensionNumbers ndim).rhs[1]? = some (ndim - 2) ∧
      ∀ j, j + 2 < ndim → (convDimensionNumbers ndim).rhs[j + 2]? = some j) ∧
    (convDimensionNumbers ndim).out = (convDimensionNumbers ndim).lhs := by
  obtain ⟨m, rfl⟩ : ∃ m, ndim = m + 2 := ⟨ndim - 2, by omega⟩
  rw [convDims_lhs, convDims_rhs, convDims_out]
  refine ⟨⟨rfl, rfl, fun j hj => ?_⟩, ⟨rfl, rfl, fun j hj => ?_⟩, rfl⟩
  · show (List.range' 1 m)[j]? = _
    rw [List.getElem?_range' (by omega)]; congr 1; omega
  · show (List.range' 0 m)[j]? = _
    rw [List.getElem?_range' (by omega)]; congr 1; omega

example : convDimensionNumbers 4 = ⟨[0, 3, 1, 2], [3, 2, 0, 1], [0, 3, 1, 2]⟩ := by decide

/-! ### C64 -/

theorem SpatialDim.Same.pads {s : SpatialDim} (h : s.Same) : (s.lo, s.hi) = samePads s.inLen (dilated s.kLen s.kDil) s.stride := by
  obtain ⟨h1, h2⟩ := h
  simp only [samePads, ← h2, Prod.mk.injEq]
  omega

omit [Field 𝕜] in
theorem resolve_eq (cv : Conv 𝕜) (sd : List SpatialDim) (h : cv.PaddedAs sd)
    (h1 : cv.padding ≠ .str (py! "CIRCULAR")) (h2 : cv.padding ≠ .str (py! "CAUSAL")) :
    ∃ p, canonicalizePadding cv.padding sd.length = .ok p ∧ p ≠ .str (py! "CIRCULAR") ∧ p ≠ .str (py! "CAUSAL") ∧
      resolvePads p (sd.map SpatialDim.inLen) (sd.map SpatialDim.kLen) (sd.map SpatialDim.stride)
        (sd.map SpatialDim.kDil) = .ok (sd.map fun s => (s.lo, s.hi)) := by
  rcases h with ⟨h, -⟩ | ⟨h, -⟩ | ⟨h, hs⟩ | ⟨h, hs⟩ | ⟨p, h, hs⟩ | ⟨ps, h, hs⟩
  · exact (h1 h).elim
  · exact (h2 h).elim
  · refine ⟨_, by rw [h]; rfl, by decide, by decide, ?_⟩
    rw [resolvePads, if_pos rfl, List.map_map]
    congr 1
    apply List.map_congr_left
    intro s hm
    simp [(hs s hm).1, (hs s hm).2]
  · refine ⟨_, by rw [h]; rfl, by decide, by decide, ?_⟩
    rw [resolvePads, if_neg (by decide), if_pos rfl]
    congr 1
    clear h1 h2 h
    induction sd with
    | nil => rfl
    | cons s sd ih =>
      simp only [List.map_cons, List.zip_cons_cons, List.zipWith_cons_cons]
      rw [ih (fun s hm => hs s (by simp [hm])), ← (hs s (by simp)).pads]
  · refine ⟨.pairs (sd.map fun s => (s.lo, s.hi)), ?_, by simp, by simp, rfl⟩
    rw [C62_pairs]
    refine ⟨by simp, .inl ⟨p, h, ?_⟩⟩
    intro q hq
    obtain ⟨s, hm, rfl⟩ := List.mem_map.1 hq
    rw [(hs s hm).1, (hs s hm).2]
  · refine ⟨.pairs (sd.map fun s => (s.lo, s.hi)), ?_, by simp, by simp, rfl⟩
    rw [C62_pairs]
    exact ⟨by simp, .inr ⟨ps, h, hs⟩⟩

/-- **C64** (what is computed): inputs with any batch dimensions `B` (none, one or several) give an output with
exactly the same batch dimensions, and each output entry is the convolution formula applied to the batch entry's own
inputs, for every padding. -/
theorem C64_conv (cv : Conv 𝕜) (x : Tensor 𝕜) (sd : List SpatialDim) (B : List Nat) (inF outF : Nat)
    (hfit : cv.Fits sd inF outF) (hpad : cv.PaddedAs sd)
    (hx : x.shape = B ++ (sd.map SpatialDim.inLen ++ [inF * cv.featureGroupCount])) :
    ∃ y, cv.call x = .ok y ∧ y.shape = B ++ (sd.map SpatialDim.outLen ++ [outF]) ∧
      ∀ b o f, Within b B → Within o (sd.map SpatialDim.outLen) → f < outF →
        y.val (b ++ (o ++ [f])) =
          convEntry (sd.map SpatialDim.kLen) inF (f / (outF / cv.featureGroupCount)) (cv.reads sd o)
            (fun q i => x.val (b ++ (q ++ [i]))) cv.usedKernel f + cv.biasAt f := by
  by_cases h1 : cv.padding = .str (py! "CIRCULAR")
  · have hc : ∀ s ∈ sd, s.Circular := by
      rcases hpad with ⟨-, h⟩ | ⟨h, -⟩ | ⟨h, -⟩ | ⟨h, -⟩ | ⟨_, h, -⟩ | ⟨_, h, -⟩
      · exact h
      all_goals rw [h1] at h; revert h; simp
    obtain ⟨y, hy1, hy2, hy3⟩ := conv_circular cv x sd B inF outF hfit h1 hx hc
    refine ⟨y, hy1, hy2, fun b o f hb ho hf => ?_⟩
    rw [hy3 b o f hb ho hf]
    congr 2
    funext k
    rw [Conv.reads, if_pos h1]
  · have hr : ∀ o, cv.reads sd o = sources sd o := by
      intro o; funext k; rw [Conv.reads, if_neg h1]
    simp only [hr]
    by_cases h2 : cv.padding = .str (py! "CAUSAL")
    · have hc : ∃ s, sd = [s] ∧ s.Causal := by
        rcases hpad with ⟨h, -⟩ | ⟨-, h⟩ | ⟨h, -⟩ | ⟨h, -⟩ | ⟨_, h, -⟩ | ⟨_, h, -⟩
        · exact (h1 h).elim
        · exact h
        all_goals rw [h2] at h; revert h; simp
      obtain ⟨s, rfl, hs1, hs2, hs3⟩ := hc
      obtain ⟨y, hy1, hy2, hy3⟩ := conv_causal cv x s B inF outF hfit h2 hx hs1 hs2 hs3
      refine ⟨y, hy1, hy2, fun b o f hb ho hf => ?_⟩
      cases ho with
      | cons ho hn => cases hn; exact hy3 b _ f hb ho hf
    · obtain ⟨p, hp1, hp2, hp3, hp4⟩ := resolve_eq cv sd hpad h1 h2
      exact conv_lax cv x sd B inF outF p hfit hx hp1 hp2 hp3 hp4

/-- **C64** (batching): convolving a batch convolves each of its entries: the output of a batch entry is the output of
the layer for that entry alone, given without batch dimensions. -/
theorem C64_batch (cv : Conv 𝕜) (x : Tensor 𝕜) (sd : List SpatialDim) (B : List Nat) (inF outF : Nat)
    (hfit : cv.Fits sd inF outF) (hpad : cv.PaddedAs sd)
    (hx : x.shape = B ++ (sd.map SpatialDim.inLen ++ [inF * cv.featureGroupCount])) :
    ∃ y, cv.call x = .ok y ∧ ∃ out, y.shape = B ++ out ∧ ∀ b, Within b B →
      ∃ y1, cv.call ⟨sd.map SpatialDim.inLen ++ [inF * cv.featureGroupCount], fun r => x.val (b ++ r)⟩ = .ok y1 ∧
        y1.shape = out ∧ ∀ r, Within r out → y.val (b ++ r) = y1.val r := by
  obtain ⟨y, hy1, hy2, hy3⟩ := C64_conv cv x sd B inF outF hfit hpad hx
  refine ⟨y, hy1, _, hy2, fun b hb => ?_⟩
  obtain ⟨y1, h1, h2, h3⟩ := C64_conv cv ⟨sd.map SpatialDim.inLen ++ [inF * cv.featureGroupCount], fun r => x.val (b ++ r)⟩
    sd [] inF outF hfit hpad rfl
  refine ⟨y1, h1, h2, fun r hr => ?_⟩
  have hl := within_length hr
  obtain ⟨o, f, rfl⟩ : ∃ o f, r = o ++ [f] := by
    rcases List.eq_nil_or_concat r with rfl | ⟨o, f, rfl⟩
    · simp at hl
    · exact ⟨o, f, by simp⟩
  simp only [List.length_append, List.length_cons, List.length_nil] at hl
  have ho : Within o (sd.map SpatialDim.outLen) ∧ f < outF := by
    rw [Within, List.forall₂_iff_get] at hr
    obtain ⟨-, hr⟩ := hr
    constructor
    · rw [Within, List.forall₂_iff_get]
      refine ⟨by omega, fun i h1 h2 => ?_⟩
      have := hr i (by simp; omega) (by simp at h2 ⊢; omega)
      simp only [List.get_eq_getElem] at this ⊢
      rwa [List.getElem_append_left h1, List.getElem_append_left h2] at this
    · have := hr o.length (by simp) (by simp at hl ⊢; omega)
      simp only [List.get_eq_getElem] at this
      rw [List.getElem_append_right (by omega), List.getElem_append_right (by simp at hl ⊢; omega)] at this
      simpa using this
  rw [hy3 b o f hb ho.1 ho.2]
  exact (h3 [] o f .nil ho.1 ho.2).symm

/-- **C64** ('SAME'): without input dilation the output length is the input length divided by the stride, rounded up. -/
theorem C64_same_length (s : SpatialDim) (h : s.Same)
    (h1 : s.inDil = 1) (h2 : 0 < s.stride) (h3 : 0 < s.kLen) :
    s.outLen = (s.inLen + s.stride - 1) / s.stride := by
  have hw : dilated s.kLen s.kDil = (s.kLen - 1) * s.kDil + 1 := by rw [dilated, if_neg (by omega)]
  replace h := h.pads
  simp only [samePads, Prod.mk.injEq] at h
  rw [SpatialDim.outLen, h1, dilated_one]
  rw [hw] at h ⊢
  generalize (s.kLen - 1) * s.kDil = w at h ⊢
  have hd := Nat.div_add_mod (s.inLen + s.stride - 1) s.stride
  have hm := Nat.mod_lt (s.inLen + s.stride - 1) h2
  generalize hO : (s.inLen + s.stride - 1) / s.stride = O at h hd ⊢
  have hsum : s.lo + s.hi = max (((O : Int) - 1) * s.stride + ((w + 1 : Nat) : Int) - s.inLen) 0 := by
    rw [h.1, h.2]; ring
  have hmul : ((O : Int) - 1) * s.stride = ((s.stride * O : Nat) : Int) - s.stride := by push_cast; ring
  rw [add_assoc, hsum]
  have hO1 : O = 0 ∨ 1 ≤ O := by omega
  rw [hmul]
  have hcases : ∀ t : Int, t = max (((s.stride * O : Nat) : Int) - s.stride + ((w + 1 : Nat) : Int) - s.inLen) 0 →
      (if (s.inLen : Int) + t < ((w + 1 : Nat) : Int) then 0
        else (((s.inLen : Int) + t - ((w + 1 : Nat) : Int)) / s.stride).toNat + 1) = O := by
    intro t ht
    rcases hO1 with h0 | h0
    · subst h0
      rw [if_pos (by omega)]
    · have hge : s.stride ≤ s.stride * O := Nat.le_mul_of_pos_right _ h0
      rw [if_neg (by omega)]
      -- the quotient is O - 1
      have hq : (((s.inLen : Int) + t - ((w + 1 : Nat) : Int)) / s.stride) = (O : Int) - 1 := by
        rw [Int.ediv_eq_iff_of_pos (by omega)]
        constructor
        · rw [hmul]; omega
        · rw [hmul]; omega
      rw [hq]; omega
  exact hcases _ rfl

/-! ### C63 -/

theorem causal_outLen {s : SpatialDim} (h : s.Causal) (h2 : 0 < s.kLen) (hs : s.stride = 1) :
    s.outLen = s.inLen := by
  obtain ⟨h1, hlo, hhi⟩ := h
  have hw : dilated s.kLen s.kDil = s.kDil * (s.kLen - 1) + 1 := by
    rw [dilated, if_neg (by omega), Nat.mul_comm]
  rw [SpatialDim.outLen, h1, dilated_one, hw, hlo, hhi, hs]
  generalize s.kDil * (s.kLen - 1) = w
  simp only [Nat.cast_one, Int.ediv_one]
  split <;> omega

/-- **C63** ('CAUSAL', length): with stride 1 the output has the input's length, for every kernel size and dilation. -/
theorem C63_causal_length (cv : Conv 𝕜) (x : Tensor 𝕜) (s : SpatialDim) (B : List Nat) (inF outF : Nat)
    (hfit : cv.Fits [s] inF outF) (hpad : cv.padding = .str (py! "CAUSAL")) (hc : s.Causal) (hs : s.stride = 1)
    (hk : 0 < s.kLen) (hx : x.shape = B ++ [s.inLen, inF * cv.featureGroupCount]) :
    ∃ y, cv.call x = .ok y ∧ y.shape = B ++ [s.inLen, outF] := by
  obtain ⟨y, h1, h2, -⟩ := C64_conv cv x [s] B inF outF hfit (.inr (.inl ⟨hpad, s, rfl, hc⟩)) hx
  refine ⟨y, h1, ?_⟩
  rw [h2]
  simp [causal_outLen hc hk hs]

/-- **C63** ('CAUSAL'): the output at a time only depends on the inputs up to that time: inputs that agree up to time
`t` give outputs that agree up to time `t`. -/
theorem C63_causal (cv : Conv 𝕜) (x x' : Tensor 𝕜) (s : SpatialDim) (B : List Nat) (inF outF t : Nat)
    (hfit : cv.Fits [s] inF outF) (hpad : cv.padding = .str (py! "CAUSAL")) (hc : s.Causal) (hs : s.stride = 1)
    (hk : 0 < s.kLen) (hx : x.shape = B ++ [s.inLen, inF * cv.featureGroupCount]) (hx' : x'.shape = x.shape)
    (hag : ∀ b q c, Within (b ++ [q, c]) x.shape → q ≤ t → x.val (b ++ [q, c]) = x'.val (b ++ [q, c])) :
    ∃ y y', cv.call x = .ok y ∧ cv.call x' = .ok y' ∧ y'.shape = y.shape ∧
      ∀ b o f, Within b B → o < s.inLen → o ≤ t → f < outF → y.val (b ++ [o, f]) = y'.val (b ++ [o, f]) := by
  have hp : cv.PaddedAs [s] := .inr (.inl ⟨hpad, s, rfl, hc⟩)
  obtain ⟨y, h1, h2, h3⟩ := C64_conv cv x [s] B inF outF hfit hp hx
  obtain ⟨y', h1', h2', h3'⟩ := C64_conv cv x' [s] B inF outF hfit hp (by rw [hx']; exact hx)
  refine ⟨y, y', h1, h1', by rw [h2, h2'], fun b o f hb ho hot hf => ?_⟩
  have ho' : Within [o] ([s].map SpatialDim.outLen) := .cons (by rw [causal_outLen hc hk hs]; exact ho) .nil
  have e := h3 b [o] f hb ho' hf
  have e' := h3' b [o] f hb ho' hf
  simp only [List.cons_append, List.nil_append] at e e'
  rw [e, e']
  congr 1
  apply convEntry_congr
  intro k hkw i hi
  rw [Conv.reads, if_neg (by rw [hpad]; decide)]
  cases hkw with
  | @cons k _ _ _ hk1 hk2 =>
    cases hk2
    cases hsrc : sources [s] [o] [k] with
    | none => rfl
    | some q =>
      have hq := sources_within rfl rfl hsrc
      rw [sources] at hsrc
      split at hsrc
      · rename_i q0 qs hq0 hqs
        cases hsrc
        cases hqs
        -- the time read is at most o
        have hle : q0 ≤ o := by
          obtain ⟨c1, c2, c3⟩ := hc
          simp only [SpatialDim.source, c1, c2, hs] at hq0
          have e1 : ∀ z : Int, z % ((1 : Nat) : Int) = 0 := fun z => by simp
          have e2 : ∀ z : Int, z / ((1 : Nat) : Int) = z := fun z => by simp
          simp only [e1, e2, true_and] at hq0
          split at hq0
          · cases hq0
            have hkk : k * s.kDil ≤ s.kDil * (s.kLen - 1) := by
              rw [Nat.mul_comm]; exact Nat.mul_le_mul_left _ (by change k < s.kLen at hk1; omega)
            have hcast : ((k : Int) * s.kDil) = ((k * s.kDil : Nat) : Int) := by push_cast; ring
            rw [hcast]
            generalize k * s.kDil = a at hkk
            generalize s.kDil * (s.kLen - 1) = w at hkk
            simp only [Nat.cast_one, mul_one]
            omega
          · cases hq0
        refine hag b q0 _ ?_ (by omega)
        rw [hx]
        refine within_append hb (.cons ?_ (.cons (group_lt hf hfit.groups hfit.outGroups hi) .nil))
        cases hq with
        | cons h _ => exact h
      · cases hsrc

/-- **C63** ('CAUSAL'): only 1-dimensional kernels are accepted. -/
theorem C63_causal_rank (cv : Conv 𝕜) (x : Tensor 𝕜) (B R : List Nat) (hpad : cv.padding = .str (py! "CAUSAL"))
    (hx : x.shape = B ++ R) (hR : R.length = cv.kernelSize.length + 1) (hk : cv.kernelSize.length ≠ 1) :
    cv.call x = .error .valueError := by
  have hflat := flatten_spec hx
  have hB : x.shape.length - (cv.kernelSize.length + 1) = B.length := by rw [hx, List.length_append]; omega
  have ht : x.shape.take B.length = B := by rw [hx]; simp
  have hd : x.shape.drop B.length = R := by rw [hx]; simp
  have hpe : ∀ (ds : List Nat) (t : Tensor 𝕜), Conv.pad cv.kernelSize ds cv.padding t = .error .valueError := by
    intro ds t
    rw [Conv.pad.eq_def, hpad, canonicalizePadding_str]
    simp only
    rw [if_neg (by decide), if_pos trivial]
    match hks : cv.kernelSize with
    | [] => rfl
    | [_] => rw [hks] at hk; exact (hk rfl).elim
    | _ :: _ :: _ => rfl
  simp only [Conv.call]
  rw [if_neg (by rw [hx, List.length_append]; omega), hB, ht, hd]
  by_cases h : B.length = 1
  · simp only [h, ne_eq, not_true_eq_false, if_false, hpe]
  · obtain ⟨t, htt, -⟩ := hflat
    simp only [ne_eq, h, not_false_eq_true, if_true, htt, hpe]

theorem circular_outLen {s : SpatialDim} (h : s.Circular) (hs : s.stride = 1) : s.outLen = s.inLen := by
  obtain ⟨h1, h2, h3, hlo, hhi⟩ := h
  have hw : dilated s.kLen s.kDil = (s.kLen - 1) * s.kDil + 1 := by rw [dilated, if_neg (by omega)]
  rw [SpatialDim.outLen, h1, dilated_one, hw, hlo, hhi, hs]
  generalize (s.kLen - 1) * s.kDil = w
  simp only [Nat.cast_one, Int.ediv_one]
  split <;> omega

theorem circular_outLens {sd : List SpatialDim} (hc : ∀ s ∈ sd, s.Circular) (hs : ∀ s ∈ sd, s.stride = 1) :
    sd.map SpatialDim.outLen = sd.map SpatialDim.inLen :=
  List.map_congr_left fun s hm => circular_outLen (hc s hm) (hs s hm)

/-- **C63** ('CIRCULAR', length): with stride 1 the output has the input's length in every spatial dimension. -/
theorem C63_circular_length (cv : Conv 𝕜) (x : Tensor 𝕜) (sd : List SpatialDim) (B : List Nat) (inF outF : Nat)
    (hfit : cv.Fits sd inF outF) (hpad : cv.padding = .str (py! "CIRCULAR")) (hc : ∀ s ∈ sd, s.Circular)
    (hs : ∀ s ∈ sd, s.stride = 1)
    (hx : x.shape = B ++ (sd.map SpatialDim.inLen ++ [inF * cv.featureGroupCount])) :
    ∃ y, cv.call x = .ok y ∧ y.shape = B ++ (sd.map SpatialDim.inLen ++ [outF]) := by
  obtain ⟨y, h1, h2, -⟩ := C64_conv cv x sd B inF outF hfit (.inl ⟨hpad, hc⟩) hx
  exact ⟨y, h1, by rw [h2, circular_outLens hc hs]⟩

theorem cyclicShift_within : ∀ {sd : List SpatialDim} {r o : List Nat}, (∀ s ∈ sd, 0 < s.inLen) → r.length = sd.length →
    o.length = sd.length → Within (cyclicShift (sd.map SpatialDim.inLen) r o) (sd.map SpatialDim.inLen)
  | [], r, o, _, h1, h2 => by
    have : cyclicShift ([].map SpatialDim.inLen) r o = [] := by cases r <;> cases o <;> rfl
    rw [this]; exact .nil
  | _ :: _, [], _, _, h1, _ => by simp at h1
  | _ :: _, _ :: _, [], _, _, h2 => by simp at h2
  | s :: sd, a :: r, b :: o, h, h1, h2 =>
    .cons (Nat.mod_lt _ (h s (by simp))) (cyclicShift_within (fun s hm => h s (by simp [hm])) (by simpa using h1) (by simpa using h2))

theorem wrapSources_shift : ∀ {sd : List SpatialDim} {r o k : List Nat}, (∀ s ∈ sd, 0 < s.inLen) →
    (∀ s ∈ sd, s.stride = 1) → r.length = sd.length → o.length = sd.length → k.length = sd.length →
    cyclicShift (sd.map SpatialDim.inLen) r (wrapSources sd o k) =
      wrapSources sd (cyclicShift (sd.map SpatialDim.inLen) r o) k
  | [], [], [], [], _, _, _, _, _ => rfl
  | [], _ :: _, _, _, _, _, h, _, _ => by simp at h
  | [], _, _ :: _, _, _, _, _, h, _ => by simp at h
  | [], _, _, _ :: _, _, _, _, _, h => by simp at h
  | _ :: _, [], _, _, _, _, h, _, _ => by simp at h
  | _ :: _, _ :: _, [], _, _, _, _, h, _ => by simp at h
  | _ :: _, _ :: _, _ :: _, [], _, _, _, _, h => by simp at h
  | s :: sd, a :: r, b :: o, c :: k, h, hs, h1, h2, h3 => by
    simp only [List.map_cons, wrapSources, cyclicShift]
    rw [wrapSources_shift (fun s hm => h s (by simp [hm])) (fun s hm => hs s (by simp [hm])) (by simpa using h1)
      (by simpa using h2) (by simpa using h3)]
    congr 1
    have hL := h s (by simp)
    have hs1 := hs s (by simp)
    simp only [SpatialDim.wrapSource, hs1, Nat.mul_one]
    have hnn : ∀ z : Int, 0 ≤ z % (s.inLen : Int) := fun z => Int.emod_nonneg _ (by omega)
    zify
    rw [Int.toNat_of_nonneg (hnn _), Int.toNat_of_nonneg (hnn _)]
    rw [Int.emod_add_emod]
    have : ((b : Int) + a) % s.inLen + c * s.kDil - s.lo = ((b : Int) + a) % s.inLen + (c * s.kDil - s.lo) := by ring
    rw [this, Int.emod_add_emod]
    congr 1; ring

/-- **C63** ('CIRCULAR'): with stride 1 the layer commutes with cyclic shifts: if the inputs are moved periodically by
`r` (an amount for each spatial dimension), so are the outputs. -/
theorem C63_circular (cv : Conv 𝕜) (x x' : Tensor 𝕜) (sd : List SpatialDim) (B r : List Nat) (inF outF : Nat)
    (hfit : cv.Fits sd inF outF) (hpad : cv.padding = .str (py! "CIRCULAR")) (hc : ∀ s ∈ sd, s.Circular)
    (hs : ∀ s ∈ sd, s.stride = 1) (hr : r.length = sd.length)
    (hx : x.shape = B ++ (sd.map SpatialDim.inLen ++ [inF * cv.featureGroupCount])) (hx' : x'.shape = x.shape)
    (hsh : ∀ b q c, Within (b ++ (q ++ [c])) x.shape → b.length = B.length →
      x'.val (b ++ (q ++ [c])) = x.val (b ++ (cyclicShift (sd.map SpatialDim.inLen) r q ++ [c]))) :
    ∃ y y', cv.call x = .ok y ∧ cv.call x' = .ok y' ∧ y'.shape = y.shape ∧
      ∀ b o f, Within b B → Within o (sd.map SpatialDim.inLen) → f < outF →
        y'.val (b ++ (o ++ [f])) = y.val (b ++ (cyclicShift (sd.map SpatialDim.inLen) r o ++ [f])) := by
  have hp : cv.PaddedAs sd := .inl ⟨hpad, hc⟩
  have hpos : ∀ s ∈ sd, 0 < s.inLen := fun s hm => (hc s hm).2.2.1
  have hol := circular_outLens hc hs
  obtain ⟨y, h1, h2, h3⟩ := C64_conv cv x sd B inF outF hfit hp hx
  obtain ⟨y', h1', h2', h3'⟩ := C64_conv cv x' sd B inF outF hfit hp (by rw [hx']; exact hx)
  refine ⟨y, y', h1, h1', by rw [h2, h2'], fun b o f hb ho hf => ?_⟩
  have hlen : o.length = sd.length := by rw [within_length ho]; simp
  rw [h3' b o f hb (by rw [hol]; exact ho) hf,
    h3 b _ f hb (by rw [hol]; exact cyclicShift_within hpos hr hlen) hf]
  congr 1
  apply convEntry_congr
  intro k hk i hi
  have hkl : k.length = sd.length := by rw [within_length hk]; simp
  simp only [Conv.reads, hpad, if_true]
  rw [hsh b _ _ _ (within_length hb), wrapSources_shift hpos hs hr hlen hkl]
  rw [hx]
  exact within_append hb (within_append (wrapSources_within hpos hlen hkl)
    (.cons (group_lt hf hfit.groups hfit.outGroups hi) .nil))

/-! ### A concrete layer -/

/-- Two 3-wide kernels for one input feature, dilation 2: `[1, 10, 100]` and its double. -/
def exKernel : Tensor ℚ :=
  ⟨[3, 1, 2], fun idx => (10 : ℚ) ^ (idx.getD 0 0) * (1 + (idx.getD 2 0 : Nat))⟩

def exConv (padding : Padding) : Conv ℚ where
  kernel := exKernel
  bias := some ⟨[2], fun idx => if idx = [1] then 7 else 0⟩
  inFeatures := 1
  kernelSize := [3]
  strides := .int 1
  padding := padding
  inputDilation := .int 1
  kernelDilation := .int 2
  featureGroupCount := 1
  useBias := true
  maskFn := none

theorem PerDim.Says.single (n : Nat) : (PerDim.int n).Says [n] := .inr (.inl ⟨n, rfl, by simp⟩)

/-- Two sequences of length 5. -/
def exConvIn : Tensor ℚ := ⟨[2, 5, 1], fun idx => ((idx.getD 0 0 : Nat) * 5 + (idx.getD 1 0 : Nat) + 1 : ℚ)⟩

def exCausalDim : SpatialDim := ⟨5, 3, 1, 4, 0, 1, 2⟩
def exCircularDim : SpatialDim := ⟨5, 3, 1, 2, 2, 1, 2⟩

example : (exConv (.str (py! "CAUSAL"))).Fits [exCausalDim] 1 2 ∧ (exConv (.str (py! "CAUSAL"))).PaddedAs [exCausalDim] ∧
    exCausalDim.Causal ∧ exCausalDim.stride = 1 ∧ 0 < exCausalDim.kLen ∧
    exConvIn.shape = [2] ++ [exCausalDim.inLen, 1 * (exConv (.str (py! "CAUSAL"))).featureGroupCount] := by
  have hc : exCausalDim.Causal := ⟨rfl, rfl, rfl⟩
  exact ⟨⟨rfl, .single _, .single _, .single _, rfl, by decide, rfl, rfl, fun _ => ⟨_, rfl, rfl⟩⟩, .inr (.inl ⟨rfl, _, rfl, hc⟩), hc, rfl,
    by decide, rfl⟩

example : (exConv (.str (py! "CIRCULAR"))).Fits [exCircularDim] 1 2 ∧ (∀ s ∈ [exCircularDim], s.Circular) ∧
    (∀ s ∈ [exCircularDim], s.stride = 1) ∧
    exConvIn.shape = [2] ++ ([exCircularDim].map SpatialDim.inLen ++ [1 * (exConv (.str (py! "CIRCULAR"))).featureGroupCount]) := by
  refine ⟨⟨rfl, .single _, .single _, .single _, rfl, by decide, rfl, rfl, fun _ => ⟨_, rfl, rfl⟩⟩, ?_, ?_, rfl⟩
  · intro s hs
    obtain rfl := List.mem_singleton.1 hs
    exact ⟨rfl, by decide, by decide, rfl, rfl⟩
  · intro s hs
    obtain rfl := List.mem_singleton.1 hs
    rfl

/-- What those layers compute: `y[0, 4]` is `1·x[0] + 10·x[2] + 100·x[4]` for 'CAUSAL', and
`1·x[2] + 10·x[4] + 100·x[1]` for 'CIRCULAR'. -/
example : ((exConv (.str (py! "CAUSAL"))).call exConvIn).toOption.map (fun y => (y.shape, y.val [0, 4, 0], y.val [0, 4, 1])) =
      some ([2, 5, 2], 531, 1069) ∧
    ((exConv (.str (py! "CIRCULAR"))).call exConvIn).toOption.map (fun y => (y.shape, y.val [0, 4, 0], y.val [1, 0, 0])) =
      some ([2, 5, 2], 253, 869) := by
  decide +kernel

/-- Every other padding, for the same layer. -/
example : ∀ pd ∈ [Padding.int 1, .seq [.tuple [1, 1]], .str (py! "VALID"), .str (py! "SAME")],
    ∃ s : SpatialDim, (exConv pd).Fits [s] 1 2 ∧ (exConv pd).PaddedAs [s] ∧ s.inLen = 5 := by
  intro pd hpd
  simp only [List.mem_cons, List.not_mem_nil, or_false] at hpd
  rcases hpd with rfl | rfl | rfl | rfl
  · refine ⟨⟨5, 3, 1, 1, 1, 1, 2⟩, ⟨rfl, .single _, .single _, .single _, rfl, by decide, rfl, rfl, fun _ => ⟨_, rfl, rfl⟩⟩,
      .inr (.inr (.inr (.inr (.inl ⟨1, rfl, ?_⟩)))), rfl⟩
    intro s hs; obtain rfl := List.mem_singleton.1 hs; exact ⟨rfl, rfl⟩
  · exact ⟨⟨5, 3, 1, 1, 1, 1, 2⟩, ⟨rfl, .single _, .single _, .single _, rfl, by decide, rfl, rfl, fun _ => ⟨_, rfl, rfl⟩⟩,
      .inr (.inr (.inr (.inr (.inr ⟨_, rfl, .cons (.inr rfl) .nil⟩)))), rfl⟩
  · refine ⟨⟨5, 3, 1, 0, 0, 1, 2⟩, ⟨rfl, .single _, .single _, .single _, rfl, by decide, rfl, rfl, fun _ => ⟨_, rfl, rfl⟩⟩,
      .inr (.inr (.inl ⟨rfl, ?_⟩)), rfl⟩
    intro s hs; obtain rfl := List.mem_singleton.1 hs; exact ⟨rfl, rfl⟩
  · refine ⟨⟨5, 3, 1, 2, 2, 1, 2⟩, ⟨rfl, .single _, .single _, .single _, rfl, by decide, rfl, rfl, fun _ => ⟨_, rfl, rfl⟩⟩,
      .inr (.inr (.inr (.inl ⟨rfl, ?_⟩))), rfl⟩
    intro s hs; obtain rfl := List.mem_singleton.1 hs; exact ⟨.inl rfl, by decide⟩

/-! ### C77: Linear -/

/-- **C77**: on inputs of shape `B ++ [m]`, for any batch dimensions `B`, a `Linear` layer computes
`y[b, j] = Σ_i x[b, i] * kernel[i, j] + bias[j]`. -/
theorem C77_linear (l : Linear 𝕜) (x : Tensor 𝕜) (B : List Nat) (m n : Nat) (hx : x.shape = B ++ [m])
    (hk : l.kernel.shape = [m, n]) (hb : ∀ b, l.bias = some b → b.shape = [n]) :
    ∃ y, l.call x = .ok y ∧ y.shape = B ++ [n] ∧ ∀ b j, Within b B → j < n →
      y.val (b ++ [j]) = ((List.range m).map fun i => x.val (b ++ [i]) * l.kernel.val [i, j]).sum + vecAt l.bias j 0 := by
  let y0 : Tensor 𝕜 := ⟨B ++ [n], fun idx =>
    ((List.range m).map fun i => x.val (idx.dropLast ++ [i]) * l.kernel.val [i, idx.getLastD 0]).sum⟩
  have hd : dotLast x l.kernel = .ok y0 := by
    unfold dotLast
    rw [hx, hk]
    simp only [List.getLast?_concat, if_true, List.dropLast_concat, y0]
  cases hlb : l.bias with
  | none =>
    refine ⟨y0, by rw [Linear.call, hd, hlb], rfl, fun b j hb' hj => ?_⟩
    simp [y0, vecAt]
  | some bias =>
    have hbs := hb bias hlb
    obtain ⟨r, y, hr, hy1, hy2, hy3⟩ := addLast_spec (y := y0) (b := bias) (s := B) (n := n) rfl hbs
    refine ⟨y, ?_, hy2, fun b j hb' hj => ?_⟩
    · rw [Linear.call, hd, hlb]
      simp only
      rw [show List.replicate (y0.shape.length - 1) 1 ++ [size bias.shape] = List.replicate B.length 1 ++ [n] by
        simp [y0, hbs, size], hr]
      exact hy1
    · rw [hy3 b j (within_append hb' (.cons hj .nil))]
      simp [y0, vecAt]

/-- **C77** (rejection): inputs whose last dimension is not the layer's number of input features raise. -/
theorem C77_mismatch (l : Linear 𝕜) (x : Tensor 𝕜) (B : List Nat) (m m' n : Nat) (hx : x.shape = B ++ [m'])
    (hk : l.kernel.shape = [m, n]) (h : m' ≠ m) : l.call x = .error .typeError := by
  have : dotLast x l.kernel = .error .typeError := by
    unfold dotLast
    rw [hx, hk]
    simp only [List.getLast?_concat, if_neg h]
  rw [Linear.call, this]

theorem sum_combination {A : Type} (f g h : A → 𝕜) (a1 a2 : 𝕜) : ∀ (l : List A),
    (∀ i ∈ l, f i = a1 * g i + a2 * h i) → (l.map f).sum = a1 * (l.map g).sum + a2 * (l.map h).sum
  | [], _ => by simp
  | i :: l, H => by
    rw [List.map_cons, List.sum_cons, H i (by simp), sum_combination f g h a1 a2 l (fun i hi => H i (by simp [hi]))]
    simp only [List.map_cons, List.sum_cons]
    ring

/-- **C77** (linearity): without bias the layer is linear: inputs that are a combination of two others give the same
combination of their outputs. -/
theorem C77_combination (l : Linear 𝕜) (hl : l.bias = none) (x x1 x2 : Tensor 𝕜) (a1 a2 : 𝕜) (B : List Nat) (m n : Nat)
    (hx : x.shape = B ++ [m]) (h1 : x1.shape = x.shape) (h2 : x2.shape = x.shape) (hk : l.kernel.shape = [m, n])
    (hc : ∀ idx, Within idx x.shape → x.val idx = a1 * x1.val idx + a2 * x2.val idx) :
    ∃ y y1 y2, l.call x = .ok y ∧ l.call x1 = .ok y1 ∧ l.call x2 = .ok y2 ∧
      ∀ b j, Within b B → j < n → y.val (b ++ [j]) = a1 * y1.val (b ++ [j]) + a2 * y2.val (b ++ [j]) := by
  have hb : ∀ b, l.bias = some b → b.shape = [n] := by intro b h; rw [hl] at h; cases h
  obtain ⟨y, e1, -, e2⟩ := C77_linear l x B m n hx hk hb
  obtain ⟨y1, f1, -, f2⟩ := C77_linear l x1 B m n (by rw [h1, hx]) hk hb
  obtain ⟨y2, g1, -, g2⟩ := C77_linear l x2 B m n (by rw [h2, hx]) hk hb
  refine ⟨y, y1, y2, e1, f1, g1, fun b j hb' hj => ?_⟩
  rw [e2 b j hb' hj, f2 b j hb' hj, g2 b j hb' hj]
  simp only [hl, vecAt, add_zero]
  apply sum_combination
  intro i hi
  rw [hc _ (by rw [hx]; exact within_append hb' (.cons (List.mem_range.1 hi) .nil))]
  ring

/-- `kernel[i, j] = 10 i + j`, bias `[100, 200]` -/
def exLinear : Linear ℚ :=
  ⟨⟨[3, 2], fun idx => (10 * (idx.getD 0 0 : Nat) + (idx.getD 1 0 : Nat) : ℚ)⟩,
    some ⟨[2], fun idx => if idx = [1] then 200 else 100⟩⟩

example : ∃ y, exLinear.call ⟨[2, 1, 3], fun idx => ((idx.getD 0 0 : Nat) + (idx.getD 2 0 : Nat) : ℚ)⟩ = .ok y ∧
    y.shape = [2, 1] ++ [2] ∧ y.val [1, 0, 1] = 286 := by
  obtain ⟨y, h1, h2, h3⟩ := C77_linear exLinear ⟨[2, 1, 3], fun idx => ((idx.getD 0 0 : Nat) + (idx.getD 2 0 : Nat) : ℚ)⟩
    [2, 1] 3 2 rfl rfl (by intro b h; cases h; rfl)
  refine ⟨y, h1, h2, ?_⟩
  have := h3 [1, 0] 1 (.cons (by decide) (.cons (by decide) .nil)) (by decide)
  simp only [List.cons_append, List.nil_append] at this
  rw [this]
  decide +kernel

/-! ### C78: Embed -/

omit [Field 𝕜] in
/-- **C78** (lookup): for integer inputs in range, the output at `idx ++ [j]` is entry `j` of the embedding of the
input at `idx`, whatever the shape of the inputs. -/
theorem C78_lookup (e : Embed 𝕜) (oob : Int → Nat → 𝕜) (x : Tensor Int) (n d : Nat) (he : e.embedding.shape = [n, d]) :
    ∃ y, e.call true oob x = .ok y ∧ y.shape = x.shape ++ [d] ∧
      ∀ idx i j, Within idx x.shape → x.val idx = (i : Nat) → i < n → j < d → y.val (idx ++ [j]) = e.embedding.val [i, j] := by
  refine ⟨_, by rw [Embed.call, if_neg (by simp), he], rfl, fun idx i j hw hi hn hj => ?_⟩
  simp only [List.dropLast_concat, List.getLastD_concat]
  rw [hi, if_pos ⟨by omega, by omega⟩]
  rfl

omit [Field 𝕜] in
/-- **C78** (rejection): inputs of another dtype raise ValueError. -/
theorem C78_integer (e : Embed 𝕜) (oob : Int → Nat → 𝕜) (x : Tensor Int) :
    e.call false oob x = .error .valueError := rfl

/-- **C78** (attend): a query's score for an embedding is the inner product of the two. -/
theorem C78_attend (e : Embed 𝕜) (q : Tensor 𝕜) (B : List Nat) (n d : Nat) (he : e.embedding.shape = [n, d])
    (hq : q.shape = B ++ [d]) :
    ∃ y, e.attend q = .ok y ∧ y.shape = B ++ [n] ∧ ∀ b v, Within b B → v < n →
      y.val (b ++ [v]) = ((List.range d).map fun j => q.val (b ++ [j]) * e.embedding.val [v, j]).sum := by
  refine ⟨_, by rw [Embed.attend, dotLast, hq, transpose, he]; simp only [List.getLast?_concat, List.reverse_cons,
    List.reverse_nil, List.nil_append, List.cons_append, if_true, List.dropLast_concat]; rfl, rfl, fun b v hb hv => ?_⟩
  simp

/-- **C78** (consistency): attending with an embedding as the query gives its inner products with all embeddings: on
a table of orthonormal rows it recovers the index. -/
theorem C78_round_trip (e : Embed 𝕜) (oob : Int → Nat → 𝕜) (x : Tensor Int) (n d : Nat)
    (he : e.embedding.shape = [n, d])
    (hx : ∀ idx, Within idx x.shape → 0 ≤ x.val idx ∧ x.val idx < n)
    (horth : ∀ u v, u < n → v < n →
      ((List.range d).map fun j => e.embedding.val [u, j] * e.embedding.val [v, j]).sum = if u = v then 1 else 0) :
    ∃ y z, e.call true oob x = .ok y ∧ e.attend y = .ok z ∧ z.shape = x.shape ++ [n] ∧
      ∀ idx v, Within idx x.shape → v < n → z.val (idx ++ [v]) = if x.val idx = (v : Nat) then 1 else 0 := by
  obtain ⟨y, h1, h2, h3⟩ := C78_lookup e oob x n d he
  obtain ⟨z, g1, g2, g3⟩ := C78_attend e y x.shape n d he h2
  refine ⟨y, z, h1, g1, g2, fun idx v hw hv => ?_⟩
  obtain ⟨hx1, hx2⟩ := hx idx hw
  obtain ⟨u, hu⟩ := Int.eq_ofNat_of_zero_le hx1
  rw [g3 idx v hw hv]
  have hun : u < n := by omega
  have : ((List.range d).map fun j => y.val (idx ++ [j]) * e.embedding.val [v, j]) =
      (List.range d).map fun j => e.embedding.val [u, j] * e.embedding.val [v, j] := by
    apply List.map_congr_left
    intro j hj
    rw [h3 idx u j hw hu hun (List.mem_range.1 hj)]
  rw [this, horth u v hun hv, hu]
  simp only [Nat.cast_inj]

/-- The identity table of size 2. -/
def exEmbed : Embed ℚ := ⟨⟨[2, 2], fun idx => if idx.getD 0 0 = idx.getD 1 0 then 1 else 0⟩⟩

example : exEmbed.embedding.shape = [2, 2] ∧ ∀ u v, u < 2 → v < 2 →
    ((List.range 2).map fun j => exEmbed.embedding.val [u, j] * exEmbed.embedding.val [v, j]).sum =
      if u = v then 1 else 0 := by
  refine ⟨rfl, ?_⟩
  have : ∀ u v : Fin 2, ((List.range 2).map fun j => exEmbed.embedding.val [u, j] * exEmbed.embedding.val [v, j]).sum =
      if (u : Nat) = v then 1 else 0 := by decide +kernel
  intro u v hu hv
  exact this ⟨u, hu⟩ ⟨v, hv⟩

/-- A layer with a 2-dimensional kernel, the int stride 2, no dilations and a mask that keeps the first column. -/
def exMasked : Conv ℚ where
  kernel := ⟨[2, 2, 1, 1], fun _ => 3⟩
  bias := none
  inFeatures := 1
  kernelSize := [2, 2]
  strides := .int 2
  padding := .str (py! "VALID")
  inputDilation := .none
  kernelDilation := .seq [1, 1]
  useBias := false
  maskFn := some fun k => ⟨k.shape, fun idx => if idx.getD 1 0 = 0 then k.val idx else 0⟩

example : exMasked.Fits [⟨4, 2, 2, 0, 0, 1, 1⟩, ⟨6, 2, 2, 0, 0, 1, 1⟩] 1 1 ∧ exMasked.PaddedAs [⟨4, 2, 2, 0, 0, 1, 1⟩, ⟨6, 2, 2, 0, 0, 1, 1⟩] := by
  refine ⟨⟨rfl, .inr (.inl ⟨2, rfl, by decide⟩), .inl ⟨rfl, by decide⟩, .inr (.inr rfl), rfl, by decide, rfl, rfl, fun h => by cases h⟩,
    .inr (.inr (.inl ⟨rfl, ?_⟩))⟩
  intro s hs
  simp only [List.mem_cons, List.not_mem_nil, or_false] at hs
  rcases hs with rfl | rfl <;> exact ⟨rfl, rfl⟩

/-- `y[1, 2]` is 3 times the sum of `x[2, 4]` and `x[3, 4]`. -/
example : (exMasked.call ⟨[4, 6, 1], fun idx => (10 * idx.getD 0 0 + idx.getD 1 0 : Nat)⟩).toOption.map (fun y => (y.shape, y.val [1, 2, 0])) =
    some ([2, 3, 1], 3 * (24 + 34)) := by decide +kernel

end Nnx
