import Verif.Proofs.Tensor

/-! Facts about `_compute_stats` and `_normalize`. -/

namespace Nnx

variable {𝕜 : Type} [Field 𝕜]

theorem sum_sq_dev (c : 𝕜) : ∀ (l : List 𝕜),
    (l.map fun v => (v - c) * (v - c)).sum = (l.map fun v => v * v).sum - 2 * c * l.sum + (l.length : 𝕜) * (c * c)
  | [] => by simp
  | a :: l => by
    simp only [List.map_cons, List.sum_cons, sum_sq_dev c l, List.length_cons, Nat.cast_add, Nat.cast_one]
    ring

theorem sum_sub_const (c : 𝕜) : ∀ (l : List 𝕜), (l.map fun v => v - c).sum = l.sum - (l.length : 𝕜) * c
  | [] => by simp
  | a :: l => by
    simp only [List.map_cons, List.sum_cons, sum_sub_const c l, List.length_cons, Nat.cast_add, Nat.cast_one]
    ring

theorem sum_mul_const (c : 𝕜) : ∀ (l : List 𝕜), (l.map fun v => v * c).sum = l.sum * c
  | [] => by simp
  | a :: l => by simp only [List.map_cons, List.sum_cons, sum_mul_const c l]; ring

theorem sum_add_const (c : 𝕜) : ∀ (l : List 𝕜), (l.map fun v => v + c).sum = l.sum + (l.length : 𝕜) * c
  | [] => by simp
  | a :: l => by
    simp only [List.map_cons, List.sum_cons, sum_add_const c l, List.length_cons, Nat.cast_add, Nat.cast_one]
    ring

theorem canonicalizeAxes_valid {rank : Nat} {axes : List Int} (h : ValidAxes rank axes) :
    canonicalizeAxes rank axes = axes.map fun a : Int => if a < 0 then rank + a else a := dedup_of_nodup h.2

theorem canonical_range {rank : Nat} {axes : List Int} (h : ∀ a ∈ axes, -(rank : Int) ≤ a ∧ a < rank) :
    ∀ a ∈ canonicalizeAxes rank axes, 0 ≤ a ∧ a < rank := by
  intro a ha
  obtain ⟨b, hb, rfl⟩ := mem_canonicalizeAxes.1 ha
  have := h b hb
  split <;> omega

theorem jnpMean_eq {x : Tensor 𝕜} {axes : List Int} (h : ValidAxes x.shape.length axes) :
    jnpMean x axes =
      .ok ⟨pick false (axisMask x.shape.length (canonicalizeAxes x.shape.length axes)) x.shape,
        fun idx => ((indices (pick true (axisMask x.shape.length (canonicalizeAxes x.shape.length axes)) x.shape)).map
            fun r => x.val (weave (axisMask x.shape.length (canonicalizeAxes x.shape.length axes)) idx r)).sum /
          (size (pick true (axisMask x.shape.length (canonicalizeAxes x.shape.length axes)) x.shape) : 𝕜)⟩ := by
  rw [jnpMean, mapExcept_normAxis h.1, canonicalizeAxes_valid h]
  simp only
  rw [if_pos h.2]

theorem cell_avg {x : Tensor 𝕜} {axes : List Int} {idx : List Nat} (hw : Within idx x.shape) (kept : Nat → Prop)
    [DecidablePred kept] (hk : ∀ a, a < x.shape.length → (kept a ↔ (a : Int) ∉ axes)) :
    ((indices (pick true (axisMask x.shape.length axes) x.shape)).map
        fun r => x.val (weave (axisMask x.shape.length axes) (pick false (axisMask x.shape.length axes) idx) r)).sum /
      (size (pick true (axisMask x.shape.length axes) x.shape) : 𝕜) =
    avg ((cell x.shape kept idx).map x.val) := by
  have h := weave_cell hw kept hk
  rw [avg, ← h, List.map_map, List.length_map, length_indices]
  rfl

theorem jnpMean_spec {x : Tensor 𝕜} {axes : List Int} (h : ValidAxes x.shape.length axes) (kept : Nat → Prop)
    [DecidablePred kept]
    (hk : ∀ a, a < x.shape.length → (kept a ↔ (a : Int) ∉ canonicalizeAxes x.shape.length axes)) :
    ∃ m, jnpMean x axes = .ok m ∧
      m.shape = pick false (axisMask x.shape.length (canonicalizeAxes x.shape.length axes)) x.shape ∧
      ∀ idx, Within idx x.shape →
        m.val (pick false (axisMask x.shape.length (canonicalizeAxes x.shape.length axes)) idx) =
          avg ((cell x.shape kept idx).map x.val) :=
  ⟨_, jnpMean_eq h, rfl, fun _ hw => cell_avg hw kept hk⟩

theorem broadcastShape_self (s : List Nat) : broadcastShape s s = .ok s := by
  have := broadcastShape_left (s := s) (noMask_length s)
  rwa [onesAt_noMask] at this

theorem bin_self {V W X : Type} (f : V → W → X) {a : Tensor V} {b : Tensor W} (h : a.shape = b.shape) :
    Tensor.bin f a b = .ok ⟨a.shape, fun idx => f (a.bget idx) (b.bget idx)⟩ := by
  rw [Tensor.bin, ← h, broadcastShape_self]

variable [LinearOrder 𝕜]

omit [LinearOrder 𝕜] in
/-- The mean and the mean square of each cell. -/
theorem localMeans_spec {x : Tensor 𝕜} {axes : List Int} (h : ValidAxes x.shape.length axes) (kept : Nat → Prop)
    [DecidablePred kept]
    (hk : ∀ a, a < x.shape.length → (kept a ↔ (a : Int) ∉ canonicalizeAxes x.shape.length axes)) :
    ∃ m m2, localMeans x axes = .ok (m, m2) ∧
      m.shape = pick false (axisMask x.shape.length (canonicalizeAxes x.shape.length axes)) x.shape ∧
      m2.shape = m.shape ∧
      ∀ idx, Within idx x.shape →
        m.val (pick false (axisMask x.shape.length (canonicalizeAxes x.shape.length axes)) idx) =
          avg ((cell x.shape kept idx).map x.val) ∧
        m2.val (pick false (axisMask x.shape.length (canonicalizeAxes x.shape.length axes)) idx) =
          avg (((cell x.shape kept idx).map x.val).map fun u => u * u) := by
  obtain ⟨m2, h2, hs2, hv2⟩ := jnpMean_spec (x := x.map fun v => v * v) (axes := axes) h kept hk
  obtain ⟨m, h1, hs1, hv1⟩ := jnpMean_spec (x := x) (axes := axes) h kept hk
  refine ⟨m, m2, by rw [localMeans, h2, h1], hs1, hs2.trans hs1.symm, fun idx hw => ⟨hv1 idx hw, ?_⟩⟩
  rw [List.map_map]
  exact hv2 idx hw

theorem statsOf_spec {m m2 : Tensor 𝕜} (h : m2.shape = m.shape) :
    ∃ v, statsOf m m2 = .ok (m, v) ∧ v.shape = m.shape ∧
      ∀ pos, Within pos m.shape → v.val pos = max 0 (m2.val pos - m.val pos * m.val pos) := by
  refine ⟨(⟨m2.shape, fun idx => m2.bget idx - (m.map fun v => v * v).bget idx⟩ : Tensor 𝕜).map fun v => max 0 v,
    ?_, h, fun pos hp => ?_⟩
  · rw [statsOf, bin_self _ (show m2.shape = (m.map fun v => v * v).shape from h)]
  · have e1 : ∀ t : Tensor 𝕜, t.shape = m.shape → t.bget pos = t.val pos := by
      intro t ht
      have hp' := hp
      rw [← ht] at hp'
      rw [bget_same _ (within_length hp'), clip_within hp']
    show max 0 (m2.bget _ - (m.map fun v => v * v).bget _) = _
    rw [e1 m2 h, e1 (m.map fun v => v * v) rfl]
    rfl

theorem computeStats_eq {x : Tensor 𝕜} {axes : List Int} (h : ValidAxes x.shape.length axes) (kept : Nat → Prop)
    [DecidablePred kept]
    (hk : ∀ a, a < x.shape.length → (kept a ↔ (a : Int) ∉ canonicalizeAxes x.shape.length axes)) :
    ∃ m v, computeStats x axes = .ok (m, v) ∧
      m.shape = pick false (axisMask x.shape.length (canonicalizeAxes x.shape.length axes)) x.shape ∧
      v.shape = m.shape ∧
      ∀ idx, Within idx x.shape →
        m.val (pick false (axisMask x.shape.length (canonicalizeAxes x.shape.length axes)) idx) =
          avg ((cell x.shape kept idx).map x.val) ∧
        v.val (pick false (axisMask x.shape.length (canonicalizeAxes x.shape.length axes)) idx) =
          max 0 (avg (((cell x.shape kept idx).map x.val).map fun u => u * u) -
            avg ((cell x.shape kept idx).map x.val) * avg ((cell x.shape kept idx).map x.val)) := by
  obtain ⟨m, m2, h1, h2, h3, h4⟩ := localMeans_spec h kept hk
  obtain ⟨v, v1, v2, v3⟩ := statsOf_spec h3
  refine ⟨m, v, by rw [computeStats, h1]; exact v1, h2, v2, fun idx hw => ⟨(h4 idx hw).1, ?_⟩⟩
  rw [v3 _ (by rw [h2]; exact within_pick hw), (h4 idx hw).1, (h4 idx hw).2]

variable [IsStrictOrderedRing 𝕜]

omit [LinearOrder 𝕜] [IsStrictOrderedRing 𝕜] in
theorem length_ne_zero [CharZero 𝕜] {A : Type} {l : List A} (h : l ≠ []) : (l.length : 𝕜) ≠ 0 := by
  rw [Nat.cast_ne_zero]
  intro h0
  exact h (List.length_eq_zero_iff.1 h0)

omit [LinearOrder 𝕜] [IsStrictOrderedRing 𝕜] in
theorem variance_eq [CharZero 𝕜] {l : List 𝕜} (h : l ≠ []) :
    avg (l.map fun u => u * u) - avg l * avg l = variance l := by
  have hn : (l.length : 𝕜) ≠ 0 := length_ne_zero h
  rw [variance, avg, avg, avg, sum_sq_dev, List.length_map, List.length_map]
  field_simp
  ring

theorem sum_sq_nonneg (f : 𝕜 → 𝕜) : ∀ (l : List 𝕜), 0 ≤ (l.map fun v => f v * f v).sum
  | [] => by simp
  | a :: l => by
    simp only [List.map_cons, List.sum_cons]
    exact add_nonneg (mul_self_nonneg _) (sum_sq_nonneg f l)

theorem variance_nonneg (l : List 𝕜) : 0 ≤ variance l := by
  rw [variance, avg]
  exact div_nonneg (sum_sq_nonneg (fun v => v - avg l) l) (Nat.cast_nonneg _)

theorem computeStats_spec {x : Tensor 𝕜} {axes : List Int} (h : ValidAxes x.shape.length axes) (kept : Nat → Prop)
    [DecidablePred kept]
    (hk : ∀ a, a < x.shape.length → (kept a ↔ (a : Int) ∉ canonicalizeAxes x.shape.length axes)) :
    ∃ m v, computeStats x axes = .ok (m, v) ∧
      m.shape = pick false (axisMask x.shape.length (canonicalizeAxes x.shape.length axes)) x.shape ∧
      v.shape = m.shape ∧
      ∀ idx, Within idx x.shape →
        m.val (pick false (axisMask x.shape.length (canonicalizeAxes x.shape.length axes)) idx) =
          avg ((cell x.shape kept idx).map x.val) ∧
        v.val (pick false (axisMask x.shape.length (canonicalizeAxes x.shape.length axes)) idx) =
          variance ((cell x.shape kept idx).map x.val) := by
  obtain ⟨m, v, h1, h2, h3, h4⟩ := computeStats_eq h kept hk
  refine ⟨m, v, h1, h2, h3, fun idx hw => ⟨(h4 idx hw).1, ?_⟩⟩
  rw [(h4 idx hw).2, variance_eq, max_eq_right (variance_nonneg _)]
  intro h0
  have := self_mem_cell hw kept
  rw [List.map_eq_nil_iff] at h0
  rw [h0] at this; cases this

/-! ### normalize -/

omit [LinearOrder 𝕜] [IsStrictOrderedRing 𝕜] in
/-- The entry of an optional parameter that belongs to a position of the input. -/
def paramAt (p : Option (Tensor 𝕜)) (fm : List Bool) (shape idx : List Nat) (dflt : 𝕜) : 𝕜 :=
  match p with
  | none => dflt
  | some p => p.val (unravel p.shape (ravel (pick true fm shape) (pick true fm idx)))

omit [Field 𝕜] [LinearOrder 𝕜] [IsStrictOrderedRing 𝕜] in
theorem reshape_ones {t : Tensor 𝕜} {m : List Bool} {s : List Nat} (hm : m.length = s.length)
    (ht : size t.shape = size (pick false m s)) :
    ∃ r, t.reshape (onesAt m s) = .ok r ∧ r.shape = onesAt m s ∧ ∀ idx, Within idx s →
      r.val (clip r.shape idx) = t.val (unravel t.shape (ravel (pick false m s) (pick false m idx))) := by
  refine ⟨_, by rw [Tensor.reshape, if_pos (by rw [size_onesAt hm, ht])], rfl, fun idx hw => ?_⟩
  simp only
  rw [ravel_onesAt hm hw]

theorem zipWith_and_getElem {m n : List Bool} (a : Nat)
    (ha : (List.zipWith (fun a b => a && b) m n)[a]? = some true) : m[a]? = some true ∧ n[a]? = some true := by
  rw [List.getElem?_zipWith] at ha
  cases hm : m[a]? <;> cases hn : n[a]? <;> simp_all

omit [Field 𝕜] [LinearOrder 𝕜] [IsStrictOrderedRing 𝕜] in
/-- Combining an array of shape `onesAt m s` with an optional parameter of the features. -/
theorem withParam_spec {p : Option (Tensor 𝕜)} {m fm : List Bool} {s : List Nat} {t : Tensor 𝕜} (f : 𝕜 → 𝕜 → 𝕜)
    (hm : m.length = s.length) (hf : fm.length = s.length) (ht : t.shape = onesAt m s)
    (hp : ∀ q, p = some q → size q.shape = size (pick true fm s)) (e : 𝕜) (he : ∀ a, f a e = a) :
    ∃ r n, withParam p (onesAt (fm.map not) s) f t = .ok r ∧ n.length = s.length ∧ r.shape = onesAt n s ∧
      (∀ a : Nat, n[a]? = some true → m[a]? = some true) ∧
      ∀ idx, Within idx s → r.val (clip r.shape idx) = f (t.val (clip t.shape idx)) (paramAt p fm s idx e) := by
  cases p with
  | none => exact ⟨t, m, rfl, hm, ht, fun _ h => h, fun idx _ => by simp [paramAt, he]⟩
  | some q =>
    have hfl : (fm.map not).length = s.length := by simpa using hf
    obtain ⟨r, hr, hrs, hrv⟩ := reshape_ones (t := q) hfl (by rw [pick_not]; exact hp q rfl)
    have hb := broadcastShape_ones (s := s) hm hfl
    refine ⟨⟨onesAt (List.zipWith (fun a b => a && b) m (fm.map not)) s, fun idx => f (t.bget idx) (r.bget idx)⟩, _,
      ?_, ?_, rfl, ?_, ?_⟩
    · rw [withParam, hr]; simp only
      rw [Tensor.bin, ht, hrs, hb]
    · simp [hm, hf]
    · intro a ha; exact (zipWith_and_getElem a ha).1
    · intro idx hw
      have hn : (List.zipWith (fun a b => a && b) m (fm.map not)).length = s.length := by simp [hm, hf]
      simp only
      have hcl : (clip (onesAt (List.zipWith (fun a b => a && b) m (fm.map not)) s) idx).length = s.length := by
        simp [clip, onesAt_length hn, within_length hw]
      rw [bget_same t (by rw [hcl, ht, onesAt_length hm]), bget_same r (by rw [hcl, hrs, onesAt_length hfl])]
      have e1 : clip t.shape (clip (onesAt (List.zipWith (fun a b => a && b) m (fm.map not)) s) idx) =
          clip t.shape idx := by
        rw [ht]
        exact clip_ones_of_sub hw hm hn (fun a ha => (zipWith_and_getElem a ha).1)
      have e2 : clip r.shape (clip (onesAt (List.zipWith (fun a b => a && b) m (fm.map not)) s) idx) =
          clip r.shape idx := by
        rw [hrs]
        exact clip_ones_of_sub hw hfl hn (fun a ha => (zipWith_and_getElem a ha).2)
      rw [e1, e2, hrv idx hw, pick_not, pick_not]
      rfl

omit [LinearOrder 𝕜] [IsStrictOrderedRing 𝕜] in
/-- What `_normalize` computes, entry by entry. -/
theorem normalize_spec (rsqrt : 𝕜 → 𝕜) {x mean var : Tensor 𝕜} {scale bias : Option (Tensor 𝕜)}
    {red feat : List Int} (eps : 𝕜)
    (hred : ∀ a ∈ canonicalizeAxes x.shape.length red, 0 ≤ a ∧ a < x.shape.length)
    (hfeat : ∀ a ∈ canonicalizeAxes x.shape.length feat, 0 ≤ a ∧ a < x.shape.length)
    (hmean : size mean.shape =
      size (pick false (axisMask x.shape.length (canonicalizeAxes x.shape.length red)) x.shape))
    (hvar : size var.shape =
      size (pick false (axisMask x.shape.length (canonicalizeAxes x.shape.length red)) x.shape))
    (hscale : ∀ q, scale = some q → size q.shape =
      size (pick true (axisMask x.shape.length (canonicalizeAxes x.shape.length feat)) x.shape))
    (hbias : ∀ q, bias = some q → size q.shape =
      size (pick true (axisMask x.shape.length (canonicalizeAxes x.shape.length feat)) x.shape)) :
    ∃ y, normalize rsqrt x mean var scale bias red feat eps = .ok y ∧ y.shape = x.shape ∧
      ∀ idx, Within idx x.shape →
        y.val idx =
          (x.val idx - mean.val (unravel mean.shape
              (ravel (pick false (axisMask x.shape.length (canonicalizeAxes x.shape.length red)) x.shape)
                (pick false (axisMask x.shape.length (canonicalizeAxes x.shape.length red)) idx)))) *
            (rsqrt (var.val (unravel var.shape
              (ravel (pick false (axisMask x.shape.length (canonicalizeAxes x.shape.length red)) x.shape)
                (pick false (axisMask x.shape.length (canonicalizeAxes x.shape.length red)) idx))) + eps) *
              paramAt scale (axisMask x.shape.length (canonicalizeAxes x.shape.length feat)) x.shape idx 1) +
          paramAt bias (axisMask x.shape.length (canonicalizeAxes x.shape.length feat)) x.shape idx 0 := by
  generalize hrm : axisMask x.shape.length (canonicalizeAxes x.shape.length red) = rm at *
  generalize hfm : axisMask x.shape.length (canonicalizeAxes x.shape.length feat) = fm at *
  have hrl : rm.length = x.shape.length := by rw [← hrm, axisMask_length]
  have hfl : fm.length = x.shape.length := by rw [← hfm, axisMask_length]
  obtain ⟨m', hm1, hm2, hm3⟩ := reshape_ones (t := mean) hrl hmean
  obtain ⟨v', hv1, hv2, hv3⟩ := reshape_ones (t := var) hrl hvar
  obtain ⟨mul, n, hu1, hu2, hu3, -, hu5⟩ := withParam_spec (p := scale) (m := rm) (fm := fm) (s := x.shape)
    (t := v'.map fun v => rsqrt (v + eps)) (fun a b => a * b) hrl hfl hv2 hscale 1 (fun a => mul_one a)
  have hb1 : Tensor.bin (fun a b => a - b) x m' =
      .ok ⟨x.shape, fun idx => x.bget idx - m'.bget idx⟩ := by
    rw [Tensor.bin, hm2, broadcastShape_left hrl]
  have hb2 : Tensor.bin (fun a b => a * b) (⟨x.shape, fun idx => x.bget idx - m'.bget idx⟩ : Tensor 𝕜) mul =
      .ok ⟨x.shape, fun idx => (⟨x.shape, fun idx => x.bget idx - m'.bget idx⟩ : Tensor 𝕜).bget idx * mul.bget idx⟩ := by
    rw [Tensor.bin, hu3, broadcastShape_left hu2]
  obtain ⟨y, ny, hy1, hy2, hy3, hy4, hy5⟩ := withParam_spec (p := bias) (m := noMask x.shape) (fm := fm) (s := x.shape)
    (t := ⟨x.shape, fun idx => (⟨x.shape, fun idx => x.bget idx - m'.bget idx⟩ : Tensor 𝕜).bget idx * mul.bget idx⟩)
    (fun a b => a + b) (noMask_length _) hfl (onesAt_noMask _).symm hbias 0 (fun a => add_zero a)
  have hny : ny = noMask x.shape := by
    apply List.ext_getElem
    · rw [hy2, noMask_length]
    · intro i h1 h2
      have := hy4 i
      rw [List.getElem?_eq_getElem h1, List.getElem?_eq_getElem h2] at this
      simp only [noMask, List.getElem_replicate] at this ⊢
      cases h : ny[i] <;> simp_all
  rw [hny, onesAt_noMask] at hy3
  refine ⟨y, ?_, hy3, fun idx hw => ?_⟩
  · simp only [normalize, pySetAll_one hred, hrm, hm1, hv1, featureShape_spec hfeat, hfm, hb1, hu1, hb2]
    exact hy1
  · have hl := within_length hw
    have := hy5 idx hw
    rw [hy3, clip_within hw] at this
    rw [this]
    have e0 : ∀ t : Tensor 𝕜, t.shape = x.shape → t.bget idx = t.val idx := by
      intro t ht; rw [bget_same t (by rw [ht, hl]), ht, clip_within hw]
    simp only
    rw [e0 ⟨x.shape, fun idx => x.bget idx - m'.bget idx⟩ rfl, bget_same mul (by rw [hu3, onesAt_length hu2, hl])]
    simp only
    rw [e0 x rfl, bget_same m' (by rw [hm2, onesAt_length hrl, hl]), hm3 idx hw, hu5 idx hw]
    have hv := hv3 idx hw
    simp only [Tensor.map]
    rw [hv]

end Nnx
