import Verif.Spec.ComplexNorm
import Verif.Proofs.BatchNorm
import Mathlib.Data.Complex.BigOperators
/-! Statistics of complex samples; normalization commutes with the inclusion of the reals. -/

namespace Nnx

theorem absSq_eq (z : ℂ) : absSq z = Complex.normSq z := (Complex.normSq_apply z).symm

theorem absSq_ofReal (v : ℝ) : absSq (v : ℂ) = v * v := by simp [absSq]

theorem sum_normSq_dev (c : ℂ) : ∀ l : List ℂ, (l.map fun z => Complex.normSq (z - c)).sum =
    (l.map Complex.normSq).sum - 2 * (l.sum.re * c.re + l.sum.im * c.im) + (l.length : ℝ) * Complex.normSq c
  | [] => by simp
  | z :: l => by
    rw [List.map_cons, List.sum_cons, sum_normSq_dev c l, List.map_cons, List.sum_cons, List.sum_cons, List.length_cons, Nat.cast_add, Nat.cast_one,
      Complex.add_re, Complex.add_im, Complex.normSq_apply (z - c), Complex.normSq_apply z, Complex.normSq_apply c, Complex.sub_re, Complex.sub_im]
    ring

theorem spread_nonneg (l : List ℂ) : 0 ≤ spread l := by
  rw [spread, avg]
  refine div_nonneg (List.sum_nonneg fun x hx => ?_) (Nat.cast_nonneg _)
  obtain ⟨z, _, rfl⟩ := List.mem_map.1 hx
  exact Complex.normSq_nonneg _

theorem spread_eq {l : List ℂ} (h : l ≠ []) : avg (l.map absSq) - absSq (avg l) = spread l := by
  have hn : (l.length : ℝ) ≠ 0 := length_ne_zero h
  have e : l.map absSq = l.map Complex.normSq := List.map_congr_left fun z _ => absSq_eq z
  have hre : (avg l).re = l.sum.re / l.length := by
    rw [avg, ← Complex.ofReal_natCast, Complex.div_ofReal_re]
  have him : (avg l).im = l.sum.im / l.length := by
    rw [avg, ← Complex.ofReal_natCast, Complex.div_ofReal_im]
  rw [spread, e, absSq_eq]
  conv_rhs => rw [avg, sum_normSq_dev, List.length_map]
  rw [avg, List.length_map, Complex.normSq_apply, hre, him]
  field_simp
  ring

theorem complexStats_spec {x : Tensor ℂ} {axes : List Int} (h : ValidAxes x.shape.length axes) (kept : Nat → Prop) [DecidablePred kept]
    (hk : ∀ a, a < x.shape.length → (kept a ↔ (a : Int) ∉ canonicalizeAxes x.shape.length axes)) :
    ∃ m v, complexStats x axes = .ok (m, v) ∧
      m.shape = pick false (axisMask x.shape.length (canonicalizeAxes x.shape.length axes)) x.shape ∧ v.shape = m.shape ∧
      ∀ idx, Within idx x.shape →
        m.val (pick false (axisMask x.shape.length (canonicalizeAxes x.shape.length axes)) idx) = avg ((cell x.shape kept idx).map x.val) ∧
        v.val (pick false (axisMask x.shape.length (canonicalizeAxes x.shape.length axes)) idx) = spread ((cell x.shape kept idx).map x.val) := by
  obtain ⟨m2, h2, hs2, hv2⟩ := jnpMean_spec (x := x.map absSq) (axes := axes) h kept hk
  obtain ⟨m, h1, hs1, hv1⟩ := jnpMean_spec (x := x) (axes := axes) h kept hk
  have hs : m2.shape = m.shape := hs2.trans hs1.symm
  refine ⟨m, (⟨m2.shape, fun idx => m2.bget idx - (m.map absSq).bget idx⟩ : Tensor ℝ).map fun v => max 0 v, ?_, hs1, hs, fun idx hw => ⟨hv1 idx hw, ?_⟩⟩
  · rw [complexStats, h2, h1]
    dsimp only
    rw [bin_self _ (show m2.shape = (m.map absSq).shape from hs)]
  · have hp : Within (pick false (axisMask x.shape.length (canonicalizeAxes x.shape.length axes)) idx) m.shape := by rw [hs1]; exact within_pick hw
    have e1 : ∀ t : Tensor ℝ, t.shape = m.shape → t.bget (pick false (axisMask x.shape.length (canonicalizeAxes x.shape.length axes)) idx) =
        t.val (pick false (axisMask x.shape.length (canonicalizeAxes x.shape.length axes)) idx) := by
      intro t ht
      have hp' := hp
      rw [← ht] at hp'
      rw [bget_same _ (within_length hp'), clip_within hp']
    show max 0 (m2.bget _ - (m.map absSq).bget _) = _
    rw [e1 m2 hs, e1 (m.map absSq) rfl]
    have hv2' := hv2 idx hw
    simp only [Tensor.map] at hv2' ⊢
    rw [hv2', hv1 idx hw]
    have hne : (cell x.shape kept idx).map x.val ≠ [] := by
      intro h0
      have := self_mem_cell hw kept
      rw [List.map_eq_nil_iff] at h0
      rw [h0] at this; cases this
    have := spread_eq hne
    rw [List.map_map] at this
    rw [show (cell x.shape kept idx).map (fun idx => absSq (x.val idx)) = (cell x.shape kept idx).map (absSq ∘ x.val) from rfl, this,
      max_eq_right (spread_nonneg _)]

/-- The batch statistics of the features along one axis. -/
theorem complexStats_one {x : Tensor ℂ} {a n : Nat} (hs : x.shape[a]? = some n) (hp : 0 < size x.shape) :
    ∃ m v, complexStats x (otherAxes x.shape.length [(a : Int)]) = .ok (m, v) ∧ m.shape = [n] ∧ v.shape = [n] ∧
      ∀ f, f < n → m.val [f] = avg (channel x a f) ∧ v.val [f] = spread (channel x a f) := by
  have ha : a < x.shape.length := (List.getElem?_eq_some_iff.1 hs).1
  have c1 := canonical_other x.shape.length [(a : Int)]
  have c3 := axisMask_other x.shape.length [(a : Int)]
  obtain ⟨m, v, h1, h2, h3, h4⟩ := complexStats_spec (otherAxes_valid x.shape.length [(a : Int)]) (fun i => i = a)
    (by
      intro i hi
      rw [c1, mem_otherAxes]
      simp only [List.mem_singleton, Nat.cast_inj]
      constructor
      · rintro h ⟨-, h'⟩; exact h' h
      · intro h; by_contra hne; exact h ⟨⟨by omega, by omega⟩, hne⟩)
  rw [c1, c3, pick_not, pick_one hs rfl] at h2
  refine ⟨m, v, h1, h2, h3.trans h2, fun f hf => ?_⟩
  obtain ⟨idx, hw, hi⟩ := exists_position hp hs hf
  have := h4 idx hw
  rw [c1, c3, pick_not, pick_one hi (within_length hw), cell_channel ha hi] at this
  exact this

theorem avg_mul_left (c : ℂ) (l : List ℂ) : avg (l.map fun z => c * z) = c * avg l := by
  rw [avg, avg, List.length_map, List.sum_map_mul_left]
  simp [mul_div_assoc]

theorem spread_mul_left (c : ℂ) (l : List ℂ) : spread (l.map fun z => c * z) = Complex.normSq c * spread l := by
  rw [spread, avg_mul_left, spread, List.map_map]
  generalize avg l = m
  rw [avg, avg, List.length_map, List.length_map]
  rw [show ((fun z => Complex.normSq (z - c * m)) ∘ fun z => c * z) = fun z => Complex.normSq c * Complex.normSq (z - m) from
    funext fun z => by simp only [Function.comp]; rw [← mul_sub, Complex.normSq_mul]]
  rw [List.sum_map_mul_left, mul_div_assoc]

/-! ### Real arrays -/

theorem bget_map {V W : Type} (f : V → W) (t : Tensor V) (idx : List Nat) : (t.map f).bget idx = f (t.bget idx) := rfl

theorem bin_map {V W X V' W' X' : Type} (f : V → W → X) (g : V' → W' → X') (a : V → V') (b : W → W') (c : X → X')
    (h : ∀ v w, g (a v) (b w) = c (f v w)) (s : Tensor V) (t : Tensor W) :
    Tensor.bin g (s.map a) (t.map b) = (match Tensor.bin f s t with
      | .error e => .error e
      | .ok r => .ok (r.map c) : Except Err (Tensor X')) := by
  simp only [Tensor.bin]
  show (match broadcastShape s.shape t.shape with | .ok r => _ | .error e => _) = _
  cases broadcastShape s.shape t.shape with
  | error e => rfl
  | ok r =>
    simp only [Tensor.map, Except.ok.injEq, Tensor.mk.injEq, true_and]
    funext idx
    exact h _ _

theorem reshape_map {V W : Type} (f : V → W) (t : Tensor V) (s : List Nat) :
    (t.map f).reshape s = (match t.reshape s with
      | .error e => .error e
      | .ok r => .ok (r.map f) : Except Err (Tensor W)) := by
  unfold Tensor.reshape
  by_cases h : size s = size t.shape
  · rw [if_pos (show size s = size (t.map f).shape from h), if_pos h]; rfl
  · rw [if_neg (show ¬ size s = size (t.map f).shape from h), if_neg h]

theorem jnpMean_ofReal (x : Tensor ℝ) (axes : List Int) :
    jnpMean (x.map Complex.ofReal) axes = resultOfReal (jnpMean x axes) := by
  simp only [jnpMean]
  show (match mapExcept (normAxis x.shape.length) axes with | .error e => _ | .ok r => _) = _
  cases mapExcept (normAxis x.shape.length) axes with
  | error e => rfl
  | ok r =>
    dsimp only
    split
    · simp only [resultOfReal, Tensor.map, Except.ok.injEq, Tensor.mk.injEq, true_and]
      funext idx
      rw [Complex.ofReal_div, Complex.ofReal_natCast]
      congr 1
      rw [← Complex.ofRealHom_eq_coe, map_list_sum, List.map_map]
      rfl
    · rfl

theorem complexStats_ofReal (x : Tensor ℝ) (axes : List Int) :
    promoted (complexStats (x.map Complex.ofReal) axes) = (match computeStats x axes with
      | .error e => .error e
      | .ok (m, v) => .ok (m.map Complex.ofReal, v.map Complex.ofReal) : Except Err (Tensor ℂ × Tensor ℂ)) := by
  have e : (x.map Complex.ofReal).map absSq = x.map fun v => v * v := by
    simp only [Tensor.map, Tensor.mk.injEq, true_and]
    funext idx
    exact absSq_ofReal _
  rw [complexStats, computeStats, localMeans, e, jnpMean_ofReal]
  cases jnpMean (x.map fun v => v * v) axes with
  | error e => rfl
  | ok m2 =>
    cases jnpMean x axes with
    | error e => rfl
    | ok m =>
      dsimp only [resultOfReal, statsOf]
      have e : (m.map Complex.ofReal).map absSq = m.map fun v => v * v := by
        simp only [Tensor.map, Tensor.mk.injEq, true_and]
        funext idx
        exact absSq_ofReal _
      rw [e]
      cases Tensor.bin (fun a b => a - b) m2 (m.map fun v => v * v) with
      | error e => rfl
      | ok d => rfl

theorem withParam_ofReal (f : ℝ → ℝ → ℝ) (g : ℂ → ℂ → ℂ) (h : ∀ v w : ℝ, g v w = (f v w : ℝ)) (p : Option (Tensor ℝ)) (s : List Nat) (t : Tensor ℝ) :
    withParam (p.map (Tensor.map Complex.ofReal)) s g (t.map Complex.ofReal) = resultOfReal (withParam p s f t) := by
  cases p with
  | none => rfl
  | some p =>
    simp only [Option.map_some, withParam, reshape_map]
    cases p.reshape s with
    | error e => rfl
    | ok r =>
      dsimp only
      rw [bin_map f g _ _ Complex.ofReal h]
      cases Tensor.bin f t r <;> rfl

theorem normalize_ofReal (rsqrt : ℝ → ℝ) (x mean var : Tensor ℝ) (scale bias : Option (Tensor ℝ)) (red feat : List Int) (eps : ℝ) :
    normalize (rsqrtC rsqrt) (x.map Complex.ofReal) (mean.map Complex.ofReal) (var.map Complex.ofReal)
      (scale.map (Tensor.map Complex.ofReal)) (bias.map (Tensor.map Complex.ofReal)) red feat (eps : ℂ) =
    resultOfReal (normalize rsqrt x mean var scale bias red feat eps) := by
  simp only [normalize]
  show (match pySetAll 1 (canonicalizeAxes x.shape.length red) x.shape with | .error e => _ | .ok s => _) = _
  cases pySetAll 1 (canonicalizeAxes x.shape.length red) x.shape with
  | error e => rfl
  | ok s =>
    dsimp only
    rw [reshape_map]
    cases mean.reshape s with
    | error e => rfl
    | ok mean =>
      dsimp only
      rw [reshape_map]
      cases var.reshape s with
      | error e => rfl
      | ok var =>
        dsimp only
        show (match featureShape x.shape (canonicalizeAxes x.shape.length feat) (x.shape.map fun _ => 1) with | .error e => _ | .ok s => _) = _
        cases featureShape x.shape (canonicalizeAxes x.shape.length feat) (x.shape.map fun _ => 1) with
        | error e => rfl
        | ok fs =>
          dsimp only
          rw [bin_map (fun a b => a - b) (fun a b : ℂ => a - b) _ _ Complex.ofReal (fun v w => (Complex.ofReal_sub v w).symm)]
          cases Tensor.bin (fun a b => a - b) x mean with
          | error e => rfl
          | ok y =>
            dsimp only
            have e : (var.map Complex.ofReal).map (fun v => rsqrtC rsqrt (v + (eps : ℂ))) =
                (var.map fun v => rsqrt (v + eps)).map Complex.ofReal := by
              simp only [Tensor.map, Tensor.mk.injEq, true_and]
              funext idx
              simp [rsqrtC]
            rw [e, withParam_ofReal (fun a b => a * b) (fun a b => a * b) (fun v w => (Complex.ofReal_mul v w).symm)]
            cases withParam scale fs (fun a b => a * b) (var.map fun v => rsqrt (v + eps)) with
            | error e => rfl
            | ok mul =>
              dsimp only [resultOfReal]
              rw [bin_map (fun a b => a * b) (fun a b : ℂ => a * b) _ _ Complex.ofReal (fun v w => (Complex.ofReal_mul v w).symm)]
              cases Tensor.bin (fun a b => a * b) y mul with
              | error e => rfl
              | ok y =>
                dsimp only
                exact withParam_ofReal (fun a b => a + b) (fun a b => a + b) (fun v w => (Complex.ofReal_add v w).symm) _ _ _

theorem emaStep_ofReal (m : ℝ) (old new : Tensor ℝ) :
    emaStep (m : ℂ) (old.map Complex.ofReal) (new.map Complex.ofReal) = resultOfReal (emaStep m old new) := by
  simp only [emaStep]
  have e1 : (old.map Complex.ofReal).map (fun v => (m : ℂ) * v) = (old.map fun v => m * v).map Complex.ofReal := by
    simp only [Tensor.map, Complex.ofReal_mul]
  have e2 : (new.map Complex.ofReal).map (fun v => (1 - (m : ℂ)) * v) = (new.map fun v => (1 - m) * v).map Complex.ofReal := by
    simp only [Tensor.map, Complex.ofReal_mul, Complex.ofReal_sub, Complex.ofReal_one]
  rw [e1, e2, bin_map (fun a b => a + b) (fun a b : ℂ => a + b) _ _ Complex.ofReal (fun v w => (Complex.ofReal_add v w).symm)]
  cases Tensor.bin (fun a b => a + b) (old.map fun v => m * v) (new.map fun v => (1 - m) * v) <;> rfl

end Nnx
