import Verif.Proofs.Normalization

/-! `BatchNorm.__call__` and `LayerNorm.__call__`, entry by entry. -/

namespace Nnx

theorem pick_range' (a : Nat) : ∀ (s : List Nat) (k : Nat),
    pick true ((List.range' k s.length).map fun i => decide (i = a)) s =
      if k ≤ a then (s[a - k]?).toList else []
  | [], k => by simp [pick]
  | d :: s, k => by
    rw [List.length_cons, List.range'_succ, List.map_cons, pick, pick_range' a s (k + 1)]
    by_cases h1 : k = a
    · subst h1
      simp
    · by_cases h2 : k ≤ a
      · have h3 : a - k = (a - (k + 1)) + 1 := by omega
        simp [h1, h2, h3, show k + 1 ≤ a by omega]
      · simp [h1, h2, show ¬ k + 1 ≤ a by omega]

theorem pick_one {s : List Nat} {a n : Nat} {k : Nat} (h : s[a]? = some n) (hk : s.length = k) :
    pick true (axisMask k [(a : Int)]) s = [n] := by
  subst hk
  have := pick_range' a s 0
  rw [axisMask, List.range_eq_range']
  simp only [Nat.zero_le, if_true, Nat.sub_zero, h, Option.toList_some] at this
  rw [← this]
  congr 1
  apply List.map_congr_left
  intro i _
  rw [decide_eq_decide]
  simp

theorem canonical_one {axes : List Int} {rank a : Nat} (h : NamesAxis axes rank a) :
    canonicalizeAxes rank axes = [(a : Int)] := by
  obtain ⟨h1, rfl | rfl⟩ := h
  · simp [canonicalizeAxes, dedup]
  · have : (a : Int) - rank < 0 := by omega
    simp [canonicalizeAxes, dedup, this]

theorem otherAxes_valid (rank : Nat) (axes : List Int) : ValidAxes rank (otherAxes rank axes) := by
  have hr : ∀ a ∈ otherAxes rank axes, 0 ≤ a ∧ a < rank := fun a ha => (mem_otherAxes.1 ha).1
  refine ⟨fun a ha => by have := hr a ha; omega, ?_⟩
  rw [List.map_congr_left (g := id), List.map_id]
  · exact nodup_otherAxes _ _
  · intro a ha
    have := hr a ha
    rw [if_neg (by omega)]; rfl

theorem canonical_other (rank : Nat) (axes : List Int) :
    canonicalizeAxes rank (otherAxes rank axes) = otherAxes rank axes :=
  canonicalizeAxes_id (nodup_otherAxes _ _) (fun _ ha => (mem_otherAxes.1 ha).1.1)

theorem axisMask_other (rank : Nat) (axes : List Int) :
    axisMask rank (otherAxes rank axes) = (axisMask rank axes).map not := by
  rw [axisMask, axisMask, List.map_map]
  apply List.map_congr_left
  intro i hi
  have := List.mem_range.1 hi
  simp only [Function.comp, mem_otherAxes]
  by_cases h : (i : Int) ∈ axes <;> simp [h, this]

theorem cell_channel {V : Type} {x : Tensor V} {a f : Nat} {idx : List Nat} (ha : a < x.shape.length)
    (hf : idx[a]? = some f) : (cell x.shape (fun i => i = a) idx).map x.val = channel x a f := by
  rw [cell, channel]
  congr 1
  apply List.filter_congr
  intro j _
  rw [decide_eq_decide, ← hf]
  constructor
  · intro h; exact h a ha rfl
  · rintro h i _ rfl; exact h

theorem exists_position : ∀ {s : List Nat} {a f n : Nat}, 0 < size s → s[a]? = some n → f < n →
    ∃ idx, Within idx s ∧ idx[a]? = some f
  | [], a, f, n, _, h, _ => by simp at h
  | d :: s, a, f, n, hp, h, hf => by
    rw [size] at hp
    have hd : 0 < d := Nat.pos_of_mul_pos_right hp
    have hs : 0 < size s := Nat.pos_of_mul_pos_left hp
    cases a with
    | zero =>
      simp only [List.getElem?_cons_zero, Option.some.injEq] at h
      obtain ⟨r, hr⟩ : ∃ r, Within r s := by
        have : (indices s) ≠ [] := by
          intro h0
          have := length_indices s
          rw [h0] at this
          simp at this; omega
        obtain ⟨r, rs, e⟩ := List.exists_cons_of_ne_nil this
        exact ⟨r, mem_indices.1 (by rw [e]; simp)⟩
      exact ⟨f :: r, .cons (by rw [h]; exact hf) hr, by simp⟩
    | succ a =>
      rw [List.getElem?_cons_succ] at h
      obtain ⟨r, hr, hra⟩ := exists_position hs h hf
      exact ⟨0 :: r, .cons hd hr, by simpa using hra⟩

theorem size_pos_of_within : ∀ {s idx : List Nat}, Within idx s → 0 < size s := fun h =>
  Nat.lt_of_le_of_lt (Nat.zero_le _) (ravel_lt h)

theorem coord {s idx : List Nat} {a n : Nat} (hw : Within idx s) (h : s[a]? = some n) :
    ∃ f, idx[a]? = some f ∧ f < n := by
  obtain ⟨h1, h2⟩ := List.getElem?_eq_some_iff.1 h
  have hl : a < idx.length := by rw [within_length hw]; exact h1
  refine ⟨idx[a], List.getElem?_eq_getElem hl, ?_⟩
  rw [← h2]
  exact List.Forall₂.get hw hl h1

variable {𝕜 : Type} [Field 𝕜]

theorem unravel_one {f n : Nat} (h : f < n) : unravel [n] (ravel [n] [f]) = [f] :=
  unravel_ravel (.cons h .nil)

omit [Field 𝕜] in
theorem paramAt_one {p : Option (Tensor 𝕜)} {s idx : List Nat} {a n f : Nat} {dflt : 𝕜}
    (hp : ∀ q, p = some q → q.shape = [n]) (hs : s[a]? = some n) (hw : Within idx s) (hf : idx[a]? = some f)
    (hfn : f < n) :
    paramAt p (axisMask s.length [(a : Int)]) s idx dflt = vecAt p f dflt := by
  cases p with
  | none => rfl
  | some q =>
    rw [paramAt, vecAt]
    rw [pick_one hs rfl, pick_one hf (within_length hw), hp q rfl, unravel_one hfn]

/-- `_normalize` with one feature axis and all others reduced. -/
theorem normalize_one (rsqrt : 𝕜 → 𝕜) {x mean var : Tensor 𝕜} {scale bias : Option (Tensor 𝕜)} {a n : Nat} (eps : 𝕜)
    (hs : x.shape[a]? = some n) (hm : mean.shape = [n]) (hv : var.shape = [n])
    (hsc : ∀ q, scale = some q → q.shape = [n]) (hb : ∀ q, bias = some q → q.shape = [n]) :
    ∃ y, normalize rsqrt x mean var scale bias (otherAxes x.shape.length [(a : Int)]) [(a : Int)] eps = .ok y ∧
      y.shape = x.shape ∧
      ∀ idx f, Within idx x.shape → idx[a]? = some f →
        y.val idx = (x.val idx - mean.val [f]) * (rsqrt (var.val [f] + eps) * vecAt scale f 1) + vecAt bias f 0 := by
  have ha : a < x.shape.length := (List.getElem?_eq_some_iff.1 hs).1
  have c1 := canonical_other x.shape.length [(a : Int)]
  have c2 : canonicalizeAxes x.shape.length [(a : Int)] = [(a : Int)] := canonical_one ⟨ha, Or.inl rfl⟩
  have c3 := axisMask_other x.shape.length [(a : Int)]
  obtain ⟨y, h1, h2, h3⟩ := normalize_spec rsqrt (x := x) (mean := mean) (var := var) (scale := scale) (bias := bias)
    (red := otherAxes x.shape.length [(a : Int)]) (feat := [(a : Int)]) eps
    (by rw [c1]; exact fun b hb => (mem_otherAxes.1 hb).1)
    (by rw [c2]; intro b hb; simp only [List.mem_singleton] at hb; omega)
    (by rw [c1, c3, pick_not, pick_one hs rfl, hm]) (by rw [c1, c3, pick_not, pick_one hs rfl, hv])
    (by intro q hq; rw [c2, pick_one hs rfl, hsc q hq]) (by intro q hq; rw [c2, pick_one hs rfl, hb q hq])
  refine ⟨y, h1, h2, fun idx f hw hf => ?_⟩
  obtain ⟨f', hf', hlt⟩ := coord hw hs
  rw [hf] at hf'; cases hf'
  rw [h3 idx hw, c1, c2, c3, pick_not, pick_not, pick_one hs rfl, pick_one hf (within_length hw), hm, hv,
    unravel_one hlt, paramAt_one hsc hs hw hf hlt, paramAt_one hb hs hw hf hlt]

variable [LinearOrder 𝕜] [IsStrictOrderedRing 𝕜]

/-- The batch statistics of the features along one axis. -/
theorem computeStats_one {x : Tensor 𝕜} {a n : Nat} (hs : x.shape[a]? = some n) (hp : 0 < size x.shape) :
    ∃ m v, computeStats x (otherAxes x.shape.length [(a : Int)]) = .ok (m, v) ∧ m.shape = [n] ∧ v.shape = [n] ∧
      ∀ f, f < n → m.val [f] = avg (channel x a f) ∧ v.val [f] = variance (channel x a f) := by
  have ha : a < x.shape.length := (List.getElem?_eq_some_iff.1 hs).1
  have c1 := canonical_other x.shape.length [(a : Int)]
  have c3 := axisMask_other x.shape.length [(a : Int)]
  obtain ⟨m, v, h1, h2, h3, h4⟩ := computeStats_spec (otherAxes_valid x.shape.length [(a : Int)]) (fun i => i = a)
    (by
      intro i hi
      rw [c1, mem_otherAxes]
      simp only [List.mem_singleton, Nat.cast_inj]
      constructor
      · rintro h ⟨-, h'⟩; exact h' h
      · intro h; by_contra hne; exact h ⟨⟨by omega, by omega⟩, hne⟩)
  rw [c1, c3, pick_not, pick_one hs rfl] at h2
  refine ⟨m, v, h1, h2, h3.trans h2, fun f hf => ?_⟩
  obtain ⟨idx, hw, hi⟩ := exists_position hp hs hf
  have := h4 idx hw
  rw [c1, c3, pick_not, pick_one hi (within_length hw), cell_channel ha hi] at this
  exact this

omit [LinearOrder 𝕜] [IsStrictOrderedRing 𝕜] in
theorem emaStep_vec {m : 𝕜} {old new : Tensor 𝕜} {n : Nat} (h1 : old.shape = [n]) (h2 : new.shape = [n]) :
    ∃ t, emaStep m old new = .ok t ∧ t.shape = [n] ∧
      ∀ f, f < n → t.val [f] = m * old.val [f] + (1 - m) * new.val [f] := by
  refine ⟨_, bin_self _ (by rw [Tensor.map, Tensor.map, h1, h2]), h1, fun f hf => ?_⟩
  have hw : Within [f] [n] := .cons hf .nil
  have e : ∀ t : Tensor 𝕜, t.shape = [n] → t.bget [f] = t.val [f] := by
    intro t ht
    rw [bget_same t (by rw [ht]; rfl), ht, clip_within hw]
  show (old.map fun v => m * v).bget [f] + (new.map fun v => (1 - m) * v).bget [f] = _
  rw [e (old.map fun v => m * v) h1, e (new.map fun v => (1 - m) * v) h2]; rfl

omit [LinearOrder 𝕜] [IsStrictOrderedRing 𝕜] [Field 𝕜] in
theorem keptAxes {rank : Nat} {axes : List Int} :
    ∀ i, i < rank → (((i : Int) ∉ axes ∧ (i : Int) - rank ∉ axes) ↔ (i : Int) ∉ canonicalizeAxes rank axes) := by
  intro i hi
  rw [mem_canonicalizeAxes]
  constructor
  · rintro ⟨h1, h2⟩ ⟨b, hb, e⟩
    split at e
    · have : (i : Int) - rank = b := by omega
      exact h2 (this ▸ hb)
    · exact h1 (e ▸ hb)
  · intro hn
    refine ⟨fun h1 => hn ⟨_, h1, by rw [if_neg (by omega)]⟩, fun h2 => hn ⟨_, h2, by rw [if_pos (by omega)]; omega⟩⟩

omit [LinearOrder 𝕜] [IsStrictOrderedRing 𝕜] [Field 𝕜] in
theorem channel_ne_nil {x : Tensor 𝕜} {a n f : Nat} (hn : x.shape[a]? = some n) (hne : 0 < size x.shape)
    (hf : f < n) : channel x a f ≠ [] := by
  obtain ⟨idx, hw, hi⟩ := exists_position hne hn hf
  intro h
  rw [channel, List.map_eq_nil_iff] at h
  have : idx ∈ (indices x.shape).filter fun j => decide (j[a]? = some f) := by simp [mem_indices, hw, hi]
  rw [h] at this; cases this

omit [LinearOrder 𝕜] [IsStrictOrderedRing 𝕜] in
theorem channel_affine {x y : Tensor 𝕜} {a f : Nat} {c k b : 𝕜} (hs : y.shape = x.shape)
    (h : ∀ idx, Within idx x.shape → idx[a]? = some f → y.val idx = (x.val idx - c) * k + b) :
    channel y a f = ((channel x a f).map fun v => (v - c) * k + b) := by
  rw [channel, channel, hs, List.map_map]
  apply List.map_congr_left
  intro idx hi
  simp only [List.mem_filter, mem_indices, decide_eq_true_eq] at hi
  exact h idx hi.1 hi.2

omit [LinearOrder 𝕜] [IsStrictOrderedRing 𝕜] in
theorem sum_affine (c k b : 𝕜) : ∀ l : List 𝕜,
    (l.map fun v => (v - c) * k + b).sum = (l.sum - (l.length : 𝕜) * c) * k + (l.length : 𝕜) * b
  | [] => by simp
  | a :: l => by
    simp only [List.map_cons, List.sum_cons, sum_affine c k b l, List.length_cons, Nat.cast_add, Nat.cast_one]
    ring

omit [LinearOrder 𝕜] [IsStrictOrderedRing 𝕜] in
theorem avg_affine [CharZero 𝕜] {l : List 𝕜} (h : l ≠ []) (k b : 𝕜) :
    avg (l.map fun v => (v - avg l) * k + b) = b ∧
    variance (l.map fun v => (v - avg l) * k + b) = variance l * (k * k) := by
  have hn : (l.length : 𝕜) ≠ 0 := length_ne_zero h
  have h1 : avg (l.map fun v => (v - avg l) * k + b) = b := by
    rw [avg, sum_affine, List.length_map, avg]
    field_simp
    ring
  refine ⟨h1, ?_⟩
  rw [variance, h1, List.map_map, variance]
  generalize avg l = c
  rw [avg, avg, List.length_map, List.length_map]
  have e : (l.map ((fun v => (v - b) * (v - b)) ∘ fun v => (v - c) * k + b)) =
      ((l.map fun v => (v - c) * (v - c)).map fun v => v * (k * k)) := by
    rw [List.map_map]
    apply List.map_congr_left
    intro v _
    simp only [Function.comp]
    ring
  rw [e, sum_mul_const]
  ring

omit [LinearOrder 𝕜] [IsStrictOrderedRing 𝕜] in
theorem movingAverage_cons (m m0 v : 𝕜) (l : List 𝕜) :
    movingAverage m m0 (v :: l) = movingAverage m (m * m0 + (1 - m) * v) l := by
  simp only [movingAverage, List.length_cons, List.mapIdx_cons, List.sum_cons]
  simp only [Nat.add_sub_cancel, Nat.sub_zero]
  have : (fun (i : Nat) (v : 𝕜) => m ^ (l.length - (i + 1)) * v) = fun i v => m ^ (l.length - 1 - i) * v := by
    funext i v
    rw [show l.length - (i + 1) = l.length - 1 - i by omega]
  rw [this]
  ring

theorem movingAverage_bounds {m lo hi : 𝕜} (h0 : 0 ≤ m) (h1 : m ≤ 1) : ∀ {l : List 𝕜} {m0 : 𝕜},
    (lo ≤ m0 ∧ m0 ≤ hi) → (∀ v ∈ l, lo ≤ v ∧ v ≤ hi) → lo ≤ movingAverage m m0 l ∧ movingAverage m m0 l ≤ hi
  | [], m0, h, _ => by simpa [movingAverage] using h
  | v :: l, m0, h, hl => by
    rw [movingAverage_cons]
    have hv := hl v (by simp)
    have h1' : 0 ≤ 1 - m := sub_nonneg.2 h1
    refine movingAverage_bounds h0 h1 ⟨?_, ?_⟩ (fun u hu => hl u (by simp [hu]))
    · calc lo = m * lo + (1 - m) * lo := by ring
        _ ≤ m * m0 + (1 - m) * v := add_le_add (mul_le_mul_of_nonneg_left h.1 h0) (mul_le_mul_of_nonneg_left hv.1 h1')
    · calc m * m0 + (1 - m) * v ≤ m * hi + (1 - m) * hi :=
            add_le_add (mul_le_mul_of_nonneg_left h.2 h0) (mul_le_mul_of_nonneg_left hv.2 h1')
        _ = hi := by ring

theorem movingAverage_nonneg {m : 𝕜} (h0 : 0 ≤ m) (h1 : m ≤ 1) : ∀ {l : List 𝕜} {m0 : 𝕜},
    0 ≤ m0 → (∀ v ∈ l, 0 ≤ v) → 0 ≤ movingAverage m m0 l
  | [], m0, h, _ => by simpa [movingAverage] using h
  | v :: l, m0, h, hl => by
    rw [movingAverage_cons]
    exact movingAverage_nonneg h0 h1
      (add_nonneg (mul_nonneg h0 h) (mul_nonneg (sub_nonneg.2 h1) (hl v (by simp)))) (fun u hu => hl u (by simp [hu]))

theorem sum_bounds {lo hi : 𝕜} : ∀ {l : List 𝕜}, (∀ v ∈ l, lo ≤ v ∧ v ≤ hi) →
    (l.length : 𝕜) * lo ≤ l.sum ∧ l.sum ≤ (l.length : 𝕜) * hi
  | [], _ => by simp
  | v :: l, h => by
    have ih := sum_bounds (l := l) (fun u hu => h u (by simp [hu]))
    have hv := h v (by simp)
    simp only [List.sum_cons, List.length_cons, Nat.cast_add, Nat.cast_one]
    constructor <;> linarith [ih.1, ih.2, hv.1, hv.2]

theorem avg_bounds {lo hi : 𝕜} {l : List 𝕜} (hne : l ≠ []) (h : ∀ v ∈ l, lo ≤ v ∧ v ≤ hi) :
    lo ≤ avg l ∧ avg l ≤ hi := by
  have hp : (0 : 𝕜) < l.length := by
    rw [Nat.cast_pos]; exact List.length_pos_iff.2 hne
  have := sum_bounds h
  rw [avg]
  exact ⟨(le_div_iff₀ hp).2 (by rw [mul_comm]; exact this.1), (div_le_iff₀ hp).2 (by rw [mul_comm]; exact this.2)⟩

end Nnx
