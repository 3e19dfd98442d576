import Verif.Proofs.BatchNorm
import Verif.Spec.Conv

/-! `Conv.__call__`, entry by entry. -/

namespace Nnx

/-! ### the attributes -/

theorem PerDim.Says.broadcast {x : PerDim} {l : List Nat} (h : x.Says l) : x.broadcast l.length = l := by
  rcases h with ⟨rfl, h⟩ | ⟨n, rfl, h⟩ | rfl
  · exact (List.eq_replicate_iff.2 ⟨rfl, h⟩).symm
  · exact (List.eq_replicate_iff.2 ⟨rfl, h⟩).symm
  · rfl

theorem Conv.maskedKernel_eq {𝕜 : Type} (cv : Conv 𝕜) : cv.maskedKernel = cv.usedKernel := by
  rw [Conv.maskedKernel, Conv.usedKernel]
  cases cv.maskFn <;> rfl

section
variable {𝕜 : Type} [Field 𝕜] {cv : Conv 𝕜} {sd : List SpatialDim} {inF outF : Nat}
theorem Conv.Fits.strides' (h : cv.Fits sd inF outF) : cv.strides.broadcast sd.length = sd.map SpatialDim.stride := by
  simpa using h.strides.broadcast
theorem Conv.Fits.inDil' (h : cv.Fits sd inF outF) : cv.inputDilation.broadcast sd.length = sd.map SpatialDim.inDil := by
  simpa using h.inDil.broadcast
theorem Conv.Fits.kDil' (h : cv.Fits sd inF outF) : cv.kernelDilation.broadcast sd.length = sd.map SpatialDim.kDil := by
  simpa using h.kDil.broadcast
end

/-! ### dimension numbers -/

theorem idxOf_range' : ∀ (n a p : Nat), a ≤ p → p < a + n → (List.range' a n).idxOf p = p - a
  | 0, a, p, h1, h2 => by omega
  | n + 1, a, p, h1, h2 => by
    rw [List.range'_succ, List.idxOf_cons]
    by_cases h : a = p
    · subst h; simp
    · have : (a == p) = false := by simpa using h
      rw [this, cond_false, idxOf_range' n (a + 1) p (by omega) (by omega)]
      omega

theorem convDims_lhs (m : Nat) : (convDimensionNumbers (m + 2)).lhs = 0 :: (m + 1) :: List.range' 1 m := by
  simp [convDimensionNumbers]

theorem convDims_out (m : Nat) : (convDimensionNumbers (m + 2)).out = 0 :: (m + 1) :: List.range' 1 m := by
  simp [convDimensionNumbers]

theorem convDims_rhs (m : Nat) : (convDimensionNumbers (m + 2)).rhs = (m + 1) :: m :: List.range' 0 m := by
  simp [convDimensionNumbers, List.range_eq_range']

theorem place_lhs {m b c : Nat} {q : List Nat} (h : q.length = m) :
    place (0 :: (m + 1) :: List.range' 1 m) (b :: c :: q) = b :: q ++ [c] := by
  apply List.ext_getElem
  · simp [place, h]
  · intro pos h1 h2
    have hp : pos < m + 2 := by simpa [place] using h1
    simp only [place, List.getElem_map, List.getElem_range, List.idxOf_cons]
    by_cases h0 : pos = 0
    · subst h0; simp
    · have e0 : (0 == pos) = false := by simp; omega
      by_cases hl : pos = m + 1
      · subst hl; simp [e0, h]
      · have e1 : (m + 1 == pos) = false := by simp; omega
        rw [e0, e1, idxOf_range' m 1 pos (by omega) (by omega)]
        obtain ⟨p, rfl⟩ : ∃ p, pos = p + 1 := ⟨pos - 1, by omega⟩
        have hpq : p < q.length := by omega
        simp [hpq]

theorem place_rhs {m f i : Nat} {k : List Nat} (h : k.length = m) :
    place ((m + 1) :: m :: List.range' 0 m) (f :: i :: k) = k ++ [i, f] := by
  apply List.ext_getElem
  · simp [place, h]
  · intro pos h1 h2
    have hp : pos < m + 2 := by simpa [place] using h1
    simp only [place, List.getElem_map, List.getElem_range, List.idxOf_cons]
    by_cases h0 : pos = m + 1
    · subst h0; simp [h]
    · have e0 : (m + 1 == pos) = false := by simp; omega
      by_cases hl : pos = m
      · subst hl; rw [e0]; simp [h]
      · have e1 : (m == pos) = false := by simp; omega
        rw [e0, e1, idxOf_range' m 0 pos (by omega) (by omega)]
        have hpq : pos < k.length := by omega
        simp [hpq]

theorem unplace_lhs {m b c : Nat} {q : List Nat} (h : q.length = m) :
    unplace (0 :: (m + 1) :: List.range' 1 m) (b :: q ++ [c]) = b :: c :: q := by
  simp only [unplace, List.map_cons, List.cons_append, List.getD_cons_zero, List.getD_cons_succ]
  congr 2
  · rw [List.getD_eq_getElem?_getD]; simp [← h]
  · apply List.ext_getElem
    · simp [h]
    · intro i h1 h2
      simp only [List.getElem_map, List.getElem_range', List.getD_eq_getElem?_getD]
      rw [show 1 + 1 * i = i + 1 by omega]
      simp [List.getElem?_append, h2]

theorem unplace_rhs {m f i : Nat} {k : List Nat} (h : k.length = m) :
    unplace ((m + 1) :: m :: List.range' 0 m) (k ++ [i, f]) = f :: i :: k := by
  simp only [unplace, List.map_cons]
  congr 1
  · rw [List.getD_eq_getElem?_getD]; simp [← h]
  · congr 1
    · rw [List.getD_eq_getElem?_getD]; simp [← h]
    · apply List.ext_getElem
      · simp [h]
      · intro j h1 h2
        simp only [List.getElem_map, List.getElem_range', List.getD_eq_getElem?_getD]
        simp [List.getElem?_append, h2]

theorem spatialDims_map : ∀ (sd : List SpatialDim),
    spatialDims (sd.map SpatialDim.inLen) (sd.map SpatialDim.kLen) (sd.map SpatialDim.stride)
      (sd.map fun s => (s.lo, s.hi)) (sd.map SpatialDim.inDil) (sd.map SpatialDim.kDil) = some sd
  | [] => rfl
  | s :: sd => by simp [spatialDims, spatialDims_map sd]

variable {𝕜 : Type} [Field 𝕜]

theorem sources_length : ∀ {sd : List SpatialDim} {o k q : List Nat}, o.length = sd.length → k.length = sd.length →
    sources sd o k = some q → q.length = sd.length
  | [], o, k, q, h1, h2, h => by
    have : sources [] o k = some [] := by cases o <;> cases k <;> rfl
    rw [this] at h; cases h; rfl
  | s :: sd, [], k, q, h1, h2, h => by simp at h1
  | s :: sd, _ :: _, [], q, h1, h2, h => by simp at h2
  | s :: sd, a :: o, b :: k, q, h1, h2, h => by
    rw [sources] at h
    split at h
    · rename_i hq hqs
      cases h
      simp [sources_length (by simpa using h1) (by simpa using h2) hqs]
    · cases h

theorem laxConv_spec {x kernel : Tensor 𝕜} {sd : List SpatialDim} {n c inF outF groups : Nat} {padding : LaxPadding}
    (hx : x.shape = n :: sd.map SpatialDim.inLen ++ [c]) (hk : kernel.shape = sd.map SpatialDim.kLen ++ [inF, outF])
    (hp : resolvePads padding (sd.map SpatialDim.inLen) (sd.map SpatialDim.kLen) (sd.map SpatialDim.stride)
      (sd.map SpatialDim.kDil) = .ok (sd.map fun s => (s.lo, s.hi)))
    (hc : c = inF * groups) (hg : groups ≠ 0) (ho : outF % groups = 0) :
    ∃ y, laxConv x kernel (sd.map SpatialDim.stride) padding (sd.map SpatialDim.inDil) (sd.map SpatialDim.kDil)
        (convDimensionNumbers (sd.length + 2)) groups = .ok y ∧
      y.shape = n :: sd.map SpatialDim.outLen ++ [outF] ∧
      ∀ b o f, o.length = sd.length → y.val (b :: o ++ [f]) =
        convEntry (sd.map SpatialDim.kLen) inF (f / (outF / groups)) (sources sd o)
          (fun q i => x.val (b :: q ++ [i])) kernel f := by
  have e1 : unplace (convDimensionNumbers (sd.length + 2)).lhs x.shape = n :: c :: sd.map SpatialDim.inLen := by
    rw [convDims_lhs, hx, unplace_lhs (by simp)]
  have e2 : unplace (convDimensionNumbers (sd.length + 2)).rhs kernel.shape = outF :: inF :: sd.map SpatialDim.kLen := by
    rw [convDims_rhs, hk, unplace_rhs (by simp)]
  have e3 : (convDimensionNumbers (sd.length + 2)).lhs.length = x.shape.length ∧
      (convDimensionNumbers (sd.length + 2)).rhs.length = kernel.shape.length ∧ c = inF * groups ∧ groups ≠ 0 ∧
      outF % groups = 0 := by
    refine ⟨?_, ?_, hc, hg, ho⟩
    · rw [convDims_lhs, hx]; simp
    · rw [convDims_rhs, hk]; simp
  rw [laxConv, e1, e2]
  simp only
  rw [hp]
  simp only
  rw [spatialDims_map]
  simp only
  rw [if_pos e3]
  refine ⟨_, rfl, ?_, ?_⟩
  · simp only
    rw [convDims_out, place_lhs (by simp)]
  · intro b o f hol
    simp only
    rw [convDims_out, unplace_lhs hol]
    simp only [convEntry]
    congr 1
    apply List.map_congr_left
    intro k hkm
    have hkl : k.length = sd.length := by
      rw [within_length (mem_indices.1 hkm)]; simp
    congr 1
    apply List.map_congr_left
    intro i _
    rw [convDims_rhs, place_rhs hkl]
    congr 1
    cases hs : sources sd o k with
    | none => rfl
    | some q =>
      simp only
      rw [convDims_lhs, place_lhs (sources_length hol hkl hs)]

theorem within_append {a b s t : List Nat} (h1 : Within a s) (h2 : Within b t) : Within (a ++ b) (s ++ t) :=
  List.rel_append h1 h2

omit [Field 𝕜] in
/-- Merging the leading dimensions into one. -/
theorem flatten_spec {x : Tensor 𝕜} {B R : List Nat} (hx : x.shape = B ++ R) :
    ∃ y, x.reshape (size B :: R) = .ok y ∧ y.shape = size B :: R ∧
      ∀ b r, Within b B → Within r R → y.val (ravel B b :: r) = x.val (b ++ r) := by
  refine ⟨_, by rw [Tensor.reshape, if_pos (by rw [hx, size_append, size])], rfl, fun b r hb hr => ?_⟩
  simp only
  rw [hx, ravel, ← ravel_append _ _ (within_length hb).symm, unravel_ravel (within_append hb hr)]

omit [Field 𝕜] in
/-- Splitting the leading dimension. -/
theorem unflatten_spec {y : Tensor 𝕜} {B R : List Nat} (hy : y.shape = size B :: R) :
    ∃ z, y.reshape (B ++ R) = .ok z ∧ z.shape = B ++ R ∧
      ∀ b r, Within b B → Within r R → z.val (b ++ r) = y.val (ravel B b :: r) := by
  refine ⟨_, by rw [Tensor.reshape, if_pos (by rw [hy, size_append, size])], rfl, fun b r hb hr => ?_⟩
  simp only
  rw [hy, ravel_append _ _ (within_length hb).symm]
  have : ravel B b * size R + ravel R r = ravel (size B :: R) (ravel B b :: r) := rfl
  rw [this, unravel_ravel (.cons (ravel_lt hb) hr)]

/-- Adding a vector along the last axis. -/
theorem addLast_spec {y b : Tensor 𝕜} {s : List Nat} {n : Nat} (hy : y.shape = s ++ [n]) (hb : b.shape = [n]) :
    ∃ r z, b.reshape (List.replicate s.length 1 ++ [n]) = .ok r ∧ Tensor.bin (fun a b => a + b) y r = .ok z ∧
      z.shape = s ++ [n] ∧
      ∀ idx f, Within (idx ++ [f]) (s ++ [n]) → z.val (idx ++ [f]) = y.val (idx ++ [f]) + b.val [f] := by
  have hones : List.replicate s.length 1 ++ [n] = onesAt (List.replicate s.length true ++ [false]) (s ++ [n]) := by
    apply List.ext_getElem
    · simp [onesAt]
    · intro i h1 h2
      simp only [onesAt, List.getElem_zipWith]
      simp only [List.length_append, List.length_replicate, List.length_singleton] at h1
      by_cases hi : i < s.length
      · simp [hi]
      · have : i = s.length := by omega
        subst this; simp
  have hml : (List.replicate s.length true ++ [false]).length = (s ++ [n]).length := by simp
  have hpick : ∀ (t : List Nat) (f : Nat), t.length = s.length →
      pick false (List.replicate s.length true ++ [false]) (t ++ [f]) = [f] := by
    intro t f ht
    rw [← ht]
    clear ht hml hones
    induction t with
    | nil => rfl
    | cons a t ih => simp [List.replicate_succ, pick, ih]
  obtain ⟨r, h1, h2, h3⟩ := reshape_ones (t := b) hml (by rw [hpick s n rfl, hb])
  refine ⟨r, ⟨s ++ [n], fun idx => y.bget idx + r.bget idx⟩, by rw [hones]; exact h1, ?_, rfl, ?_⟩
  · rw [Tensor.bin, hy, h2, broadcastShape_left hml]
  · intro idx f hw
    have hl := within_length hw
    have hf : f < n := by
      have := List.Forall₂.get hw (i := s.length) (by rw [hl]; simp) (by simp)
      have hil : idx.length = s.length := by simpa using hl
      simpa [hil] using this
    simp only
    rw [bget_same y (by rw [hy, hl]), bget_same r (by rw [h2, onesAt_length hml, hl]), hy, clip_within hw,
      h3 _ hw, hpick s n rfl, hpick idx f (by simpa using hl), hb, unravel_one hf]

theorem outLen_within {sd : List SpatialDim} {o : List Nat} (h : Within o (sd.map SpatialDim.outLen)) :
    o.length = sd.length := by
  rw [within_length h]; simp

/-- Everything after the padding of the inputs. -/
theorem conv_after_pad (cv : Conv 𝕜) (x : Tensor 𝕜) (sd sd' : List SpatialDim) (B : List Nat)
    (inF outF : Nat) (padding : LaxPadding) (pad : Tensor 𝕜 → Tensor 𝕜)
    (hfit : cv.Fits sd inF outF)
    (hx : x.shape = B ++ (sd.map SpatialDim.inLen ++ [inF * cv.featureGroupCount]))
    (hpad : ∀ t : Tensor 𝕜, t.shape = size B :: (sd.map SpatialDim.inLen ++ [inF * cv.featureGroupCount]) →
      Conv.pad cv.kernelSize (cv.kernelDilation.broadcast sd.length) cv.padding t = .ok (pad t, padding) ∧
      (pad t).shape = size B :: (sd'.map SpatialDim.inLen ++ [inF * cv.featureGroupCount]))
    (hk : sd'.map SpatialDim.kLen = sd.map SpatialDim.kLen) (hs : sd'.map SpatialDim.stride = sd.map SpatialDim.stride)
    (hid : sd'.map SpatialDim.inDil = sd.map SpatialDim.inDil) (hkd : sd'.map SpatialDim.kDil = sd.map SpatialDim.kDil)
    (hp : resolvePads padding (sd'.map SpatialDim.inLen) (sd'.map SpatialDim.kLen) (sd'.map SpatialDim.stride)
      (sd'.map SpatialDim.kDil) = .ok (sd'.map fun s => (s.lo, s.hi))) :
    ∃ t y, t.shape = size B :: (sd.map SpatialDim.inLen ++ [inF * cv.featureGroupCount]) ∧
      (∀ b r, Within b B → Within r (sd.map SpatialDim.inLen ++ [inF * cv.featureGroupCount]) →
        t.val (ravel B b :: r) = x.val (b ++ r)) ∧
      cv.call x = .ok y ∧ y.shape = B ++ (sd'.map SpatialDim.outLen ++ [outF]) ∧
      ∀ b o f, Within b B → Within o (sd'.map SpatialDim.outLen) → f < outF →
        y.val (b ++ (o ++ [f])) =
          convEntry (sd.map SpatialDim.kLen) inF (f / (outF / cv.featureGroupCount)) (sources sd' o)
            (fun q i => (pad t).val (ravel B b :: q ++ [i])) cv.usedKernel f + cv.biasAt f := by
  have hlen : sd'.length = sd.length := by simpa using congrArg List.length hk
  have hrank : cv.kernelSize.length = sd.length := by rw [hfit.kernelSize]; simp
  have hxl : x.shape.length = B.length + (sd.length + 1) := by rw [hx]; simp
  have htake : x.shape.take (x.shape.length - (sd.length + 1)) = B := by rw [hxl, hx]; simp
  have hdrop : x.shape.drop (x.shape.length - (sd.length + 1)) =
      sd.map SpatialDim.inLen ++ [inF * cv.featureGroupCount] := by rw [hxl, hx]; simp
  -- the flattened inputs
  have hflat : ∃ t, (if x.shape.length - (sd.length + 1) ≠ 1 then
        x.reshape (size B :: (sd.map SpatialDim.inLen ++ [inF * cv.featureGroupCount])) else .ok x) = .ok t ∧
      t.shape = size B :: (sd.map SpatialDim.inLen ++ [inF * cv.featureGroupCount]) ∧
      ∀ b r, Within b B → Within r (sd.map SpatialDim.inLen ++ [inF * cv.featureGroupCount]) →
        t.val (ravel B b :: r) = x.val (b ++ r) := by
    by_cases hb : x.shape.length - (sd.length + 1) = 1
    · rw [if_neg (by simpa using hb)]
      have hB : B.length = 1 := by omega
      obtain ⟨n, rfl⟩ := List.length_eq_one_iff.1 hB
      refine ⟨x, rfl, by rw [hx]; simp [size], fun b r hw _ => ?_⟩
      cases hw with
      | cons h1 h2 => cases h2; simp [ravel, size]
    · rw [if_pos hb]
      obtain ⟨t, h1, h2, h3⟩ := flatten_spec hx
      exact ⟨t, h1, h2, h3⟩
  obtain ⟨t, ht1, ht2, ht3⟩ := hflat
  obtain ⟨hpad1, hpad2⟩ := hpad t ht2
  obtain ⟨y, hy1, hy2, hy3⟩ := laxConv_spec (x := pad t) (kernel := cv.usedKernel) (sd := sd') (n := size B)
    (c := inF * cv.featureGroupCount) (inF := inF) (outF := outF) (groups := cv.featureGroupCount) (padding := padding)
    (by rw [hpad2]; simp) (by rw [hfit.kernelShape, hk]) hp rfl hfit.groups hfit.outGroups
  rw [hk] at hy3
  -- the bias
  have hbias : ∃ z, cv.addBias y = Except.ok z ∧ z.shape = size B :: (sd'.map SpatialDim.outLen ++ [outF]) ∧
      ∀ b o f, Within (b :: o ++ [f]) (size B :: sd'.map SpatialDim.outLen ++ [outF]) →
        z.val (b :: o ++ [f]) = y.val (b :: o ++ [f]) + cv.biasAt f := by
    cases hub : cv.useBias with
    | false =>
      refine ⟨y, by simp [Conv.addBias, hub], by rw [hy2]; simp, fun b o f _ => ?_⟩
      simp [Conv.biasAt, hub]
    | true =>
      obtain ⟨bb, hb1, hb2⟩ := hfit.bias hub
      obtain ⟨r, z, hr, hz, hzs, hzv⟩ := addLast_spec (y := y) (b := bb) (s := size B :: sd'.map SpatialDim.outLen)
        (n := outF) (by rw [hy2]) hb2
      refine ⟨z, ?_, by rw [hzs]; simp, fun b o f hw => ?_⟩
      · rw [Conv.addBias, hub, hb1, if_pos rfl]
        simp only
        have : y.shape.length - bb.shape.length = (size B :: sd'.map SpatialDim.outLen).length := by
          rw [hy2, hb2]; simp
        rw [this, hb2, hr]
        exact hz
      · rw [hzv (b :: o) f (by simpa using hw)]
        simp [Conv.biasAt, hub, vecAt, hb1]
  obtain ⟨z, hz1, hz2, hz3⟩ := hbias
  have hfinal : ∃ u, (if x.shape.length - (sd.length + 1) ≠ 1 then z.reshape (B ++ z.shape.drop 1) else .ok z) = .ok u ∧
      u.shape = B ++ (sd'.map SpatialDim.outLen ++ [outF]) ∧
      ∀ b r, Within b B → Within r (sd'.map SpatialDim.outLen ++ [outF]) → u.val (b ++ r) = z.val (ravel B b :: r) := by
    by_cases hb : x.shape.length - (sd.length + 1) = 1
    · rw [if_neg (by simpa using hb)]
      have hB : B.length = 1 := by omega
      obtain ⟨n, rfl⟩ := List.length_eq_one_iff.1 hB
      refine ⟨z, rfl, by rw [hz2]; simp [size], fun b r hw _ => ?_⟩
      cases hw with
      | cons h1 h2 => cases h2; simp [ravel, size]
    · rw [if_pos hb]
      obtain ⟨u, h1, h2, h3⟩ := unflatten_spec hz2
      exact ⟨u, by rw [hz2]; exact h1, h2, h3⟩
  obtain ⟨u, hu1, hu2, hu3⟩ := hfinal
  refine ⟨t, u, ht2, ht3, ?_, hu2, fun b o f hb ho hf => ?_⟩
  · rw [Conv.call]
    simp only [hrank]
    rw [if_neg (by omega), htake, hdrop, ht1]
    simp only
    rw [hpad1]
    simp only
    rw [if_neg (by rw [hfit.inFeatures]; simp)]
    have hnd : (pad t).shape.length = sd'.length + 2 := by rw [hpad2]; simp
    have hstr : cv.strides.broadcast sd.length = sd'.map SpatialDim.stride := by rw [hfit.strides', hs]
    have hidl : cv.inputDilation.broadcast sd.length = sd'.map SpatialDim.inDil := by rw [hfit.inDil', hid]
    have hkdl : cv.kernelDilation.broadcast sd.length = sd'.map SpatialDim.kDil := by rw [hfit.kDil', hkd]
    rw [hnd, hstr, hidl, hkdl]
    rw [cv.maskedKernel_eq, hy1]
    simp only
    rw [hz1]
    exact hu1
  · have hw : Within (o ++ [f]) (sd'.map SpatialDim.outLen ++ [outF]) := within_append ho (.cons hf .nil)
    rw [hu3 b (o ++ [f]) hb hw]
    have := hz3 (ravel B b) o f (.cons (ravel_lt hb) hw)
    simp only [List.cons_append] at this
    rw [this]
    have := hy3 (ravel B b) o f (outLen_within ho)
    simp only [List.cons_append] at this
    rw [this]
    rfl

end Nnx
