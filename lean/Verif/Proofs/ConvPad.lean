import Verif.Proofs.Conv

/-! The three kinds of padding of `Conv`. -/

namespace Nnx

variable {𝕜 : Type} [Field 𝕜]

/-- An output entry only depends on the input at positions that are read. -/
theorem convEntry_congr {ks : List Nat} {inF g : Nat} {src src' : List Nat → Option (List Nat)}
    {read read' : List Nat → Nat → 𝕜} {kernel : Tensor 𝕜} {f : Nat}
    (h : ∀ k, Within k ks → ∀ i, i < inF →
      (match src k with | some q => read q (g * inF + i) | none => 0) =
      (match src' k with | some q => read' q (g * inF + i) | none => 0)) :
    convEntry ks inF g src read kernel f = convEntry ks inF g src' read' kernel f := by
  unfold convEntry
  congr 1
  apply List.map_congr_left
  intro k hk
  congr 1
  apply List.map_congr_left
  intro i hi
  have := h k (mem_indices.1 hk) i (List.mem_range.1 hi)
  congr 1

theorem source_lt {s : SpatialDim} {o k q : Nat} (h : s.source o k = some q) : q < s.inLen := by
  simp only [SpatialDim.source] at h
  split at h
  · rename_i hc
    cases h
    have h1 := hc.1
    have h3 := hc.2.2
    have h0 : 0 ≤ ((o : Int) * s.stride + k * s.kDil - s.lo) / s.inDil := Int.ediv_nonneg h1 (by omega)
    omega
  · cases h

theorem sources_within : ∀ {sd : List SpatialDim} {o k q : List Nat}, o.length = sd.length → k.length = sd.length →
    sources sd o k = some q → Within q (sd.map SpatialDim.inLen)
  | [], o, k, q, h1, h2, h => by
    have : sources [] o k = some [] := by cases o <;> cases k <;> rfl
    rw [this] at h; cases h; exact .nil
  | s :: sd, [], k, q, h1, h2, h => by simp at h1
  | s :: sd, _ :: _, [], q, h1, h2, h => by simp at h2
  | s :: sd, a :: o, b :: k, q, h1, h2, h => by
    rw [sources] at h
    split at h
    · rename_i hq hqs
      cases h
      exact .cons (source_lt hq) (sources_within (by simpa using h1) (by simpa using h2) hqs)
    · cases h

theorem group_lt {f outF g inF i : Nat} (hf : f < outF) (hg : g ≠ 0) (ho : outF % g = 0) (hi : i < inF) :
    f / (outF / g) * inF + i < inF * g := by
  obtain ⟨m, rfl⟩ := Nat.dvd_of_mod_eq_zero ho
  have hm : 0 < m := by
    rcases Nat.eq_zero_or_pos m with rfl | h
    · simp at hf
    · exact h
  rw [Nat.mul_div_cancel_left _ (Nat.pos_of_ne_zero hg)]
  have : f / m < g := by rw [Nat.div_lt_iff_lt_mul hm]; exact hf
  calc f / m * inF + i < f / m * inF + inF := by omega
    _ = (f / m + 1) * inF := by ring
    _ ≤ g * inF := Nat.mul_le_mul_right _ this
    _ = inF * g := Nat.mul_comm _ _

/-- Padding left to jax.lax. -/
theorem conv_lax (cv : Conv 𝕜) (x : Tensor 𝕜) (sd : List SpatialDim) (B : List Nat) (inF outF : Nat)
    (p : LaxPadding) (hfit : cv.Fits sd inF outF)
    (hx : x.shape = B ++ (sd.map SpatialDim.inLen ++ [inF * cv.featureGroupCount]))
    (hpad : canonicalizePadding cv.padding sd.length = .ok p)
    (h1 : p ≠ .str (py! "CIRCULAR")) (h2 : p ≠ .str (py! "CAUSAL"))
    (hp : resolvePads p (sd.map SpatialDim.inLen) (sd.map SpatialDim.kLen) (sd.map SpatialDim.stride)
      (sd.map SpatialDim.kDil) = .ok (sd.map fun s => (s.lo, s.hi))) :
    ∃ y, cv.call x = .ok y ∧ y.shape = B ++ (sd.map SpatialDim.outLen ++ [outF]) ∧
      ∀ b o f, Within b B → Within o (sd.map SpatialDim.outLen) → f < outF →
        y.val (b ++ (o ++ [f])) =
          convEntry (sd.map SpatialDim.kLen) inF (f / (outF / cv.featureGroupCount)) (sources sd o)
            (fun q i => x.val (b ++ (q ++ [i]))) cv.usedKernel f + cv.biasAt f := by
  have hrank : cv.kernelSize.length = sd.length := by rw [hfit.kernelSize]; simp
  obtain ⟨t, y, -, ht, hy1, hy2, hy3⟩ := conv_after_pad cv x sd sd B inF outF p id hfit hx
    (by
      intro t ht
      refine ⟨?_, ht⟩
      rw [Conv.pad.eq_def, hrank, hpad]
      simp only [h1, h2, if_false, id])
    rfl rfl rfl rfl hp
  refine ⟨y, hy1, hy2, fun b o f hb ho hf => ?_⟩
  rw [hy3 b o f hb ho hf]
  congr 1
  apply convEntry_congr
  intro k hk i hi
  cases hs : sources sd o k with
  | none => rfl
  | some q =>
    have hq := sources_within (outLen_within ho) (by rw [within_length hk]; simp) hs
    exact ht b (q ++ [_]) hb (within_append hq (.cons (group_lt hf hfit.groups hfit.outGroups hi) .nil))

/-! ### CAUSAL -/

/-- The dimension after padding the inputs. -/
def SpatialDim.padded (s : SpatialDim) : SpatialDim :=
  { s with inLen := s.lo.toNat + s.inLen + s.hi.toNat, lo := 0, hi := 0 }

theorem dilated_one (n : Nat) : dilated n 1 = n := by
  unfold dilated; split <;> omega

theorem padded_outLen {s : SpatialDim} (h1 : s.inDil = 1) (h2 : 0 ≤ s.lo) (h3 : 0 ≤ s.hi) :
    s.padded.outLen = s.outLen := by
  simp only [SpatialDim.outLen, SpatialDim.padded, h1, dilated_one]
  have : ((s.lo.toNat + s.inLen + s.hi.toNat : Nat) : Int) + 0 + 0 = s.inLen + s.lo + s.hi := by omega
  rw [this]

theorem padded_outLens {sd : List SpatialDim} (h : ∀ s ∈ sd, s.inDil = 1 ∧ 0 ≤ s.lo ∧ 0 ≤ s.hi) :
    (sd.map SpatialDim.padded).map SpatialDim.outLen = sd.map SpatialDim.outLen := by
  rw [List.map_map]
  apply List.map_congr_left
  intro s hs
  exact padded_outLen (h s hs).1 (h s hs).2.1 (h s hs).2.2

theorem resolve_valid (sd : List SpatialDim) :
    resolvePads (.str (py! "VALID")) ((sd.map SpatialDim.padded).map SpatialDim.inLen)
      ((sd.map SpatialDim.padded).map SpatialDim.kLen) ((sd.map SpatialDim.padded).map SpatialDim.stride)
      ((sd.map SpatialDim.padded).map SpatialDim.kDil) = .ok ((sd.map SpatialDim.padded).map fun s => (s.lo, s.hi)) := by
  rw [resolvePads, if_pos rfl]
  congr 1
  simp only [List.map_map]
  apply List.map_congr_left
  intro s _; rfl

theorem canonicalizePadding_str (s : Str) (n : Nat) : canonicalizePadding (.str s) n = .ok (.str s) := rfl

theorem conv_causal (cv : Conv 𝕜) (x : Tensor 𝕜) (s : SpatialDim) (B : List Nat) (inF outF : Nat)
    (hfit : cv.Fits [s] inF outF) (hpad : cv.padding = .str (py! "CAUSAL"))
    (hx : x.shape = B ++ ([s.inLen] ++ [inF * cv.featureGroupCount]))
    (hdil : s.inDil = 1) (hlo : s.lo = (s.kDil * (s.kLen - 1) : Nat)) (hhi : s.hi = 0) :
    ∃ y, cv.call x = .ok y ∧ y.shape = B ++ ([s.outLen] ++ [outF]) ∧
      ∀ b o f, Within b B → o < s.outLen → f < outF →
        y.val (b ++ ([o] ++ [f])) =
          convEntry [s.kLen] inF (f / (outF / cv.featureGroupCount)) (sources [s] [o])
            (fun q i => x.val (b ++ (q ++ [i]))) cv.usedKernel f + cv.biasAt f := by
  have hkd : cv.kernelDilation.broadcast 1 = [s.kDil] := hfit.kDil'
  have hks : cv.kernelSize = [s.kLen] := hfit.kernelSize
  have hlon : s.lo.toNat = s.kDil * (s.kLen - 1) := by rw [hlo]; exact Int.toNat_natCast _
  -- the padded inputs
  let pads : List (Nat × Nat) := [(0, 0), (s.kDil * (s.kLen - 1), 0), (0, 0)]
  let pad : Tensor 𝕜 → Tensor 𝕜 := fun t =>
    ⟨List.zipWith (fun d (p : Nat × Nat) => p.1 + d + p.2) t.shape pads, fun idx =>
      match padZero.inside t.shape pads idx with
      | some j => t.val j
      | none => 0⟩
  have hp3 : pads.length = 3 := rfl
  obtain ⟨t, y, hts, ht, hy1, hy2, hy3⟩ := conv_after_pad cv x [s] [s.padded] B inF outF (.str (py! "VALID")) pad hfit hx
    (by
      intro t ht
      have hl : t.shape.length = 3 := by rw [ht]; rfl
      constructor
      · rw [Conv.pad.eq_def, hpad, canonicalizePadding_str]
        simp only
        rw [if_neg (by decide), if_pos trivial, hks, show [s].length = 1 from rfl, hkd]
        simp only [padZero, hl]
        rfl
      · show List.zipWith _ t.shape pads = _
        rw [ht]
        simp [pads, SpatialDim.padded, hlon, hhi])
    rfl rfl rfl rfl (resolve_valid [s])
  have hol : s.padded.outLen = s.outLen := padded_outLen hdil (by rw [hlo]; omega) (by rw [hhi])
  simp only [List.map_cons, List.map_nil, hol] at hy2 hy3
  refine ⟨y, hy1, hy2, fun b o f hb ho hf => ?_⟩
  rw [hy3 b [o] f hb (.cons ho .nil) hf]
  congr 1
  apply convEntry_congr
  intro k hk i hi
  cases hk with
  | @cons k _ ks _ hk1 hk2 =>
    cases hk2
    have hg := group_lt hf hfit.groups hfit.outGroups hi
    generalize f / (outF / cv.featureGroupCount) * inF + i = c at hg
    -- the two positions
    have hb2 := ravel_lt hb
    simp only [sources, SpatialDim.source, SpatialDim.padded, hdil, hhi, hlo]
    have e1 : ∀ z : Int, z % ((1 : Nat) : Int) = 0 := fun z => by simp
    have e2 : ∀ z : Int, z / ((1 : Nat) : Int) = z := fun z => by simp
    simp only [e1, e2, true_and, Int.toNat_zero, Nat.add_zero, sub_zero]
    generalize hP : s.kDil * (s.kLen - 1) = L at *
    have hpv : ((o : Int) * s.stride + k * s.kDil) = ((o * s.stride + k * s.kDil : Nat) : Int) := by push_cast; ring
    rw [hpv]
    generalize o * s.stride + k * s.kDil = p
    by_cases hp : p < L + s.inLen
    · rw [if_pos ⟨by omega, by omega⟩]
      simp only [Int.toNat_natCast]
      have hpads : pads = [(0, 0), (L, 0), (0, 0)] := by simp only [pads, hP]
      show (match padZero.inside t.shape pads [ravel B b, p, c] with | some j => t.val j | none => 0) = _
      rw [hts, hpads]
      by_cases hpl : L ≤ p
      · rw [if_pos ⟨by omega, by omega⟩]
        have hin : padZero.inside (size B :: ([s].map SpatialDim.inLen ++ [inF * cv.featureGroupCount]))
            [(0, 0), (L, 0), (0, 0)] [ravel B b, p, c] = some [ravel B b, p - L, c] := by
          simp [padZero.inside, hb2, hpl, hg, show p - L < s.inLen by omega]
        rw [hin]
        simp only
        have : ((p : Int) - (L : Int)).toNat = p - L := by omega
        rw [this]
        exact ht b [p - L, c] hb (.cons (by show p - L < s.inLen; omega) (.cons hg .nil))
      · rw [if_neg (by omega)]
        have hin : padZero.inside (size B :: ([s].map SpatialDim.inLen ++ [inF * cv.featureGroupCount]))
            [(0, 0), (L, 0), (0, 0)] [ravel B b, p, c] = none := by
          simp [padZero.inside, hpl]
        rw [hin]
    · rw [if_neg (by omega), if_neg (by omega)]

/-! ### CIRCULAR -/

theorem wrapIdx_append : ∀ {S : List Nat} {P : List (Nat × Nat)} {q : List Nat} (S' : List Nat) (P' : List (Nat × Nat))
    (q' : List Nat), S.length = P.length → q.length = P.length →
    wrapIdx (S ++ S') (P ++ P') (q ++ q') = wrapIdx S P q ++ wrapIdx S' P' q'
  | [], [], [], _, _, _, _, _ => by simp [wrapIdx]
  | [], [], _ :: _, _, _, _, _, h => by simp at h
  | [], _ :: _, _, _, _, _, h, _ => by simp at h
  | _ :: _, [], _, _, _, _, h, _ => by simp at h
  | _ :: _, _ :: _, [], _, _, _, _, h => by simp at h
  | d :: S, p :: P, i :: q, S', P', q', h1, h2 => by
    simp [wrapIdx, wrapIdx_append S' P' q' (by simpa using h1) (by simpa using h2)]

theorem wrapIdx_zero {d i : Nat} (h : i < d) : wrapIdx [d] [(0, 0)] [i] = [i] := by
  simp only [wrapIdx, Nat.cast_zero, sub_zero]
  have : ((i : Int) % (d : Int)).toNat = i := by
    rw [← Int.natCast_mod, Nat.mod_eq_of_lt h]; simp
  simp [this]

theorem source_padded {s : SpatialDim} (h : s.Circular) {o k : Nat} (ho : o < s.outLen) (hk : k < s.kLen) :
    s.padded.source o k = some (o * s.stride + k * s.kDil) := by
  obtain ⟨h1, h2, h3, h4, h5⟩ := h
  have hpo : o < s.padded.outLen := by
    rw [padded_outLen h1 (by rw [h4]; omega) (by rw [h5]; omega)]; exact ho
  simp only [SpatialDim.source, SpatialDim.padded, h1, sub_zero]
  have e1 : ∀ z : Int, z % ((1 : Nat) : Int) = 0 := fun z => by simp
  have e2 : ∀ z : Int, z / ((1 : Nat) : Int) = z := fun z => by simp
  simp only [e1, e2, true_and]
  have hpv : ((o : Int) * s.stride + k * s.kDil) = ((o * s.stride + k * s.kDil : Nat) : Int) := by push_cast; ring
  rw [hpv]
  have hlt : o * s.stride + k * s.kDil < s.lo.toNat + s.inLen + s.hi.toNat := by
    simp only [SpatialDim.outLen, SpatialDim.padded, h1, dilated_one, add_zero] at hpo
    have hw : dilated s.kLen s.kDil = (s.kLen - 1) * s.kDil + 1 := by
      rw [dilated, if_neg (by omega)]
    rw [hw] at hpo
    have hkd : k * s.kDil ≤ (s.kLen - 1) * s.kDil := Nat.mul_le_mul_right _ (by omega)
    generalize k * s.kDil = a at *
    generalize (s.kLen - 1) * s.kDil = w at *
    split at hpo
    · omega
    · rename_i hge
      rcases Nat.eq_zero_or_pos s.stride with hst | hst
      · rw [hst, Nat.mul_zero]; omega
      · have hq : o ≤ (((s.lo.toNat + s.inLen + s.hi.toNat : Nat) : Int) - ((w + 1 : Nat) : Int)).toNat / s.stride := by
          have hnn : 0 ≤ ((s.lo.toNat + s.inLen + s.hi.toNat : Nat) : Int) - ((w + 1 : Nat) : Int) := by omega
          obtain ⟨n, hn⟩ := Int.eq_ofNat_of_zero_le hnn
          rw [hn] at hpo ⊢
          have : ((n : Int) / (s.stride : Int)).toNat = n / s.stride := by
            rw [← Int.natCast_div]; exact Int.toNat_natCast _
          rw [this] at hpo
          simp only [Int.toNat_natCast]
          omega
        have := Nat.mul_le_of_le_div _ _ _ hq
        omega
  rw [if_pos ⟨by omega, by omega⟩]
  exact congrArg some (Int.toNat_natCast _)

theorem sources_padded : ∀ {sd : List SpatialDim} {o k : List Nat}, (∀ s ∈ sd, s.Circular) →
    Within o (sd.map SpatialDim.outLen) → Within k (sd.map SpatialDim.kLen) →
    ∃ q, sources (sd.map SpatialDim.padded) o k = some q ∧ q.length = sd.length ∧
      wrapIdx (sd.map SpatialDim.inLen) (sd.map fun s => (((s.kLen - 1) * s.kDil + 1 - 1) / 2,
        ((s.kLen - 1) * s.kDil + 1) / 2)) q = wrapSources sd o k
  | [], _, _, _, h1, h2 => by
    cases h1; cases h2
    exact ⟨[], rfl, rfl, rfl⟩
  | s :: sd, _, _, hc, h1, h2 => by
    cases h1 with
    | cons ho h1 =>
      cases h2 with
      | cons hk h2 =>
        obtain ⟨q, hq1, hq2, hq3⟩ := sources_padded (sd := sd) (fun s hs => hc s (by simp [hs])) h1 h2
        have hs := hc s (by simp)
        refine ⟨_ :: q, by rw [List.map_cons, sources, source_padded hs ho hk, hq1], by simp [hq2], ?_⟩
        simp only [List.map_cons, wrapIdx, wrapSources, SpatialDim.wrapSource, hs.2.2.2.1]
        rw [hq3, Nat.add_sub_cancel]

theorem wrapSources_within : ∀ {sd : List SpatialDim} {o k : List Nat}, (∀ s ∈ sd, 0 < s.inLen) →
    o.length = sd.length → k.length = sd.length → Within (wrapSources sd o k) (sd.map SpatialDim.inLen)
  | [], o, k, _, h1, h2 => by
    have : wrapSources [] o k = [] := by cases o <;> cases k <;> rfl
    rw [this]; exact .nil
  | s :: sd, [], k, _, h1, h2 => by simp at h1
  | s :: sd, _ :: _, [], _, h1, h2 => by simp at h2
  | s :: sd, a :: o, b :: k, h, h1, h2 => by
    have hs := h s (by simp)
    refine .cons ?_ (wrapSources_within (fun s hs => h s (by simp [hs])) (by simpa using h1) (by simpa using h2))
    have h1 : 0 ≤ ((a * s.stride + b * s.kDil : Nat) - s.lo) % (s.inLen : Int) := Int.emod_nonneg _ (by omega)
    have h2 : ((a * s.stride + b * s.kDil : Nat) - s.lo) % (s.inLen : Int) < s.inLen := Int.emod_lt_of_pos _ (by omega)
    simp only [SpatialDim.wrapSource]
    omega

theorem conv_circular (cv : Conv 𝕜) (x : Tensor 𝕜) (sd : List SpatialDim) (B : List Nat) (inF outF : Nat)
    (hfit : cv.Fits sd inF outF) (hpad : cv.padding = .str (py! "CIRCULAR"))
    (hx : x.shape = B ++ (sd.map SpatialDim.inLen ++ [inF * cv.featureGroupCount]))
    (hc : ∀ s ∈ sd, s.Circular) :
    ∃ y, cv.call x = .ok y ∧ y.shape = B ++ (sd.map SpatialDim.outLen ++ [outF]) ∧
      ∀ b o f, Within b B → Within o (sd.map SpatialDim.outLen) → f < outF →
        y.val (b ++ (o ++ [f])) =
          convEntry (sd.map SpatialDim.kLen) inF (f / (outF / cv.featureGroupCount)) (fun k => some (wrapSources sd o k))
            (fun q i => x.val (b ++ (q ++ [i]))) cv.usedKernel f + cv.biasAt f := by
  have hkd := hfit.kDil'
  have hks := hfit.kernelSize
  let P : List (Nat × Nat) := sd.map fun s => (((s.kLen - 1) * s.kDil + 1 - 1) / 2, ((s.kLen - 1) * s.kDil + 1) / 2)
  let pads : List (Nat × Nat) := [(0, 0)] ++ P ++ [(0, 0)]
  let pad : Tensor 𝕜 → Tensor 𝕜 := fun t =>
    ⟨List.zipWith (fun d (p : Nat × Nat) => p.1 + d + p.2) t.shape pads, fun idx => t.val (wrapIdx t.shape pads idx)⟩
  have hPl : P.length = sd.length := by simp [P]
  have hpl : pads.length = sd.length + 2 := by simp [pads, hPl]
  have hsh : ∀ l : List SpatialDim, (∀ s ∈ l, s.Circular) →
      List.zipWith (fun d (p : Nat × Nat) => p.1 + d + p.2) (l.map SpatialDim.inLen)
        (l.map fun s => (((s.kLen - 1) * s.kDil + 1 - 1) / 2, ((s.kLen - 1) * s.kDil + 1) / 2)) =
      (l.map SpatialDim.padded).map SpatialDim.inLen := by
    intro l hl
    induction l with
    | nil => rfl
    | cons s l ih =>
      have hs := hl s (by simp)
      rw [List.map_cons, List.map_cons, List.zipWith_cons_cons, ih (fun s hs => hl s (by simp [hs]))]
      simp only [List.map_cons, SpatialDim.padded, hs.2.2.2.1, hs.2.2.2.2, Int.toNat_natCast, Nat.add_sub_cancel]
  obtain ⟨t, y, hts, ht, hy1, hy2, hy3⟩ := conv_after_pad cv x sd (sd.map SpatialDim.padded) B inF outF
    (.str (py! "VALID")) pad hfit hx
    (by
      intro t ht
      have hl : t.shape.length = sd.length + 2 := by rw [ht]; simp
      constructor
      · rw [Conv.pad.eq_def, hpad, canonicalizePadding_str]
        simp only
        rw [if_pos trivial, hks, hkd]
        have hz : List.zipWith (fun k d => (k - 1) * d + 1) (sd.map SpatialDim.kLen) (sd.map SpatialDim.kDil) =
            sd.map fun s => (s.kLen - 1) * s.kDil + 1 := by
          rw [List.zipWith_map, List.zipWith_self]
        rw [hz, List.map_map]
        have hP : ([(0, 0)] ++ List.map ((fun k => ((k - 1) / 2, k / 2)) ∘ fun s : SpatialDim => (s.kLen - 1) * s.kDil + 1) sd ++
            [(0, 0)]) = pads := rfl
        rw [hP, padWrap, if_pos (by rw [hl, hpl])]
      · show List.zipWith _ t.shape pads = _
        rw [ht]
        have := hsh sd hc
        simp only [pads, P, List.cons_append, List.nil_append, List.zipWith_cons_cons, Nat.add_zero, Nat.zero_add]
        rw [List.zipWith_append (by simp), this]
        simp)
    (by simp only [List.map_map]; rfl) (by simp only [List.map_map]; rfl)
    (by simp only [List.map_map]; rfl) (by simp only [List.map_map]; rfl) (resolve_valid sd)
  have hol := padded_outLens (sd := sd) (fun s hs => ⟨(hc s hs).1, by rw [(hc s hs).2.2.2.1]; omega, by rw [(hc s hs).2.2.2.2]; omega⟩)
  rw [hol] at hy2 hy3
  refine ⟨y, hy1, hy2, fun b o f hb ho hf => ?_⟩
  rw [hy3 b o f hb ho hf]
  congr 1
  apply convEntry_congr
  intro k hk i hi
  have hg := group_lt hf hfit.groups hfit.outGroups hi
  generalize f / (outF / cv.featureGroupCount) * inF + i = c at hg
  obtain ⟨q, hq1, hq2, hq3⟩ := sources_padded hc ho hk
  rw [hq1]
  simp only
  show t.val (wrapIdx t.shape pads (ravel B b :: q ++ [c])) = _
  have hb2 := ravel_lt hb
  have hw : wrapIdx t.shape pads (ravel B b :: q ++ [c]) = ravel B b :: (wrapSources sd o k ++ [c]) := by
    rw [hts]
    have := wrapIdx_append (S := [size B]) (P := [(0, 0)]) (q := [ravel B b])
      (sd.map SpatialDim.inLen ++ [inF * cv.featureGroupCount]) (P ++ [(0, 0)]) (q ++ [c]) rfl rfl
    simp only [pads]
    simp only [List.cons_append, List.nil_append] at this ⊢
    rw [this, wrapIdx_zero hb2, wrapIdx_append _ _ _ (by simp [hPl]) (by rw [hPl, hq2]), hq3, wrapIdx_zero hg]
    rfl
  rw [hw]
  exact ht b _ hb (within_append (wrapSources_within (fun s hs => (hc s hs).2.2.1) (outLen_within ho)
    (by rw [within_length hk]; simp)) (.cons hg .nil))

end Nnx
