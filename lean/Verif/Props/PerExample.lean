import Verif.Spec.PerExample
import Verif.Props.Conv
import Verif.Props.Normalization
import Verif.Props.Dropout
/-
Property C116: in evaluation, every example of a batch is treated on its own.
-/
namespace Nnx
variable {𝕜 κ η : Type} [Field 𝕜] [LinearOrder 𝕜]

/-- `y` is a batch of `n` examples of shape `s`; `y'` consists of the examples `sel` of it. -/
structure RowsOf (n : Nat) (s sel : List Nat) (y y' : Tensor 𝕜) : Prop where
  shape : y.shape = n :: s
  shape' : y'.shape = sel.length :: s
  val : ∀ i j r, sel[i]? = some j → Within r s → y'.val (i :: r) = y.val (j :: r)

theorem within_split {r s t : List Nat} (h : Within r (s ++ t)) : ∃ a b, r = a ++ b ∧ Within a s ∧ Within b t :=
  ⟨r.take s.length, r.drop s.length, (List.take_append_drop _ _).symm, List.forall₂_take_append r s t h,
    List.forall₂_drop_append r s t h⟩

theorem within_one {r : List Nat} {n : Nat} (h : Within r [n]) : ∃ j, r = [j] ∧ j < n := by
  cases h with
  | cons h1 h2 => cases h2; exact ⟨_, rfl, h1⟩

theorem within_snoc {r s : List Nat} {n : Nat} (h : Within r (s ++ [n])) : ∃ b j, r = b ++ [j] ∧ Within b s ∧ j < n := by
  obtain ⟨a, b, rfl, h1, h2⟩ := within_split h
  obtain ⟨j, rfl, hj⟩ := within_one h2
  exact ⟨a, j, rfl, h1, hj⟩

theorem cell_cons {n i : Nat} {s r : List Nat} (kept : Nat → Prop) [DecidablePred kept] (h0 : kept 0) (hi : i < n) :
    cell (n :: s) kept (i :: r) = (cell s (fun a => kept (a + 1)) r).map (i :: ·) := by
  unfold cell
  rw [indices, List.filter_flatMap]
  have hp : ∀ j : Nat, ((indices s).map (j :: ·)).filter
      (fun j => decide (∀ a, a < (n :: s).length → kept a → j[a]? = (i :: r)[a]?)) =
      if j = i then ((indices s).filter fun j => decide (∀ a, a < s.length → kept (a + 1) → j[a]? = r[a]?)).map (i :: ·) else [] := by
    intro j
    rw [List.filter_map]
    split
    · next h =>
      subst h
      congr 1
      apply List.filter_congr
      intro x _
      simp only [Function.comp, decide_eq_decide]
      constructor
      · intro h a ha hk
        have := h (a + 1) (by simpa using ha) hk
        simpa using this
      · intro h a ha hk
        cases a with
        | zero => simp
        | succ a => simpa using h a (by simpa using ha) hk
    · next h =>
      rw [List.map_eq_nil_iff, List.filter_eq_nil_iff]
      intro x _ hx
      simp only [Function.comp, decide_eq_true_eq] at hx
      have := hx 0 (by simp) h0
      simp at this
      exact h this
  simp only [hp]
  have : ∀ (L : List (List Nat)) (m : Nat), i < m → (List.range m).flatMap (fun j => if j = i then L else []) = L := by
    intro L m
    induction m with
    | zero => intro h; omega
    | succ m ih =>
      intro h
      rw [List.range_succ, List.flatMap_append]
      by_cases him : i = m
      · subst him
        have : (List.range i).flatMap (fun j => if j = i then L else []) = [] := by
          rw [List.flatMap_eq_nil_iff]
          intro j hj
          rw [if_neg]
          have := List.mem_range.1 hj
          omega
        rw [this]; simp
      · rw [ih (by omega)]
        simp [Ne.symm him]
  exact this _ n hi

theorem eval_layer_rows (rsqrt : 𝕜 → 𝕜) (P : RngPrims κ η) (bernoulli : κ → 𝕜 → List Nat → List Nat → Bool) (w : RngWorld κ)
    [IsStrictOrderedRing 𝕜] {l : EvalLayer 𝕜} {s t : List Nat} (hl : l.Evaluates w s t) {n : Nat} {sel : List Nat}
    (hsel : ∀ j ∈ sel, j < n) {x x' : Tensor 𝕜} (hx : RowsOf n s sel x x') :
    ∃ y y', l.call rsqrt P bernoulli w x = .ok y ∧ l.call rsqrt P bernoulli w x' = .ok y' ∧ RowsOf n t sel y y' := by
  have hlt : ∀ {i j : Nat}, sel[i]? = some j → i < sel.length ∧ j < n := fun {i j} h =>
    ⟨(List.getElem?_eq_some_iff.1 h).1, hsel j (List.mem_of_getElem? h)⟩
  cases l with
  | linear l =>
    obtain ⟨B, m, k, rfl, rfl, hk, hb⟩ := hl
    obtain ⟨y, h1, h2, h3⟩ := C77_linear l x (n :: B) m k (by rw [hx.shape]; rfl) hk hb
    obtain ⟨y', h1', h2', h3'⟩ := C77_linear l x' (sel.length :: B) m k (by rw [hx.shape']; rfl) hk hb
    refine ⟨y, y', h1, h1', h2, h2', fun i j r hij hr => ?_⟩
    obtain ⟨b, f, rfl, hb, hf⟩ := within_snoc hr
    have e := h3 (j :: b) f (.cons (hlt hij).2 hb) hf
    have e' := h3' (i :: b) f (.cons (hlt hij).1 hb) hf
    simp only [List.cons_append] at e e'
    rw [e, e']
    congr 2
    apply List.map_congr_left
    intro q hq
    rw [hx.val i j (b ++ [q]) hij (within_append hb (.cons (List.mem_range.1 hq) .nil))]
  | conv cv =>
    obtain ⟨sd, B, inF, outF, hfit, hpad, rfl, rfl⟩ := hl
    obtain ⟨y, h1, h2, h3⟩ := C64_conv cv x sd (n :: B) inF outF hfit hpad (by rw [hx.shape]; rfl)
    obtain ⟨y', h1', h2', h3'⟩ := C64_conv cv x' sd (sel.length :: B) inF outF hfit hpad (by rw [hx.shape']; rfl)
    refine ⟨y, y', h1, h1', h2, h2', fun i j r hij hr => ?_⟩
    obtain ⟨b, r, rfl, hb, hr⟩ := within_split hr
    obtain ⟨o, f, rfl, ho, hf⟩ := within_snoc hr
    have e := h3 (j :: b) o f (.cons (hlt hij).2 hb) ho hf
    have e' := h3' (i :: b) o f (.cons (hlt hij).1 hb) ho hf
    simp only [List.cons_append] at e e'
    rw [e, e']
    congr 1
    unfold convEntry
    congr 1
    apply List.map_congr_left
    intro k hk
    congr 1
    apply List.map_congr_left
    intro c hc
    have hkl : k.length = sd.length := by rw [within_length (mem_indices.1 hk)]; simp
    have hol : o.length = sd.length := by rw [within_length ho]; simp
    cases hq : cv.reads sd o k with
    | none => rfl
    | some q =>
      simp only
      congr 1
      have hqw : Within q (sd.map SpatialDim.inLen) := by
        unfold Conv.reads at hq
        split at hq
        · next hcirc =>
          cases hq
          refine wrapSources_within ?_ hol hkl
          rcases hpad with ⟨-, h⟩ | ⟨h, -⟩ | ⟨h, -⟩ | ⟨h, -⟩ | ⟨_, h, -⟩ | ⟨_, h, -⟩
          · exact fun s hs => (h s hs).2.2.1
          all_goals rw [hcirc] at h; revert h; simp
        · exact sources_within hol hkl hq
      have hg : f / (outF / cv.featureGroupCount) * inF + c < inF * cv.featureGroupCount := by
        have hg0 := Nat.pos_of_ne_zero hfit.groups
        have hd := Nat.div_mul_cancel (Nat.dvd_of_mod_eq_zero hfit.outGroups)
        have hq0 : f / (outF / cv.featureGroupCount) < cv.featureGroupCount := by
          apply Nat.div_lt_of_lt_mul
          rw [hd]; exact hf
        have := List.mem_range.1 hc
        calc f / (outF / cv.featureGroupCount) * inF + c < f / (outF / cv.featureGroupCount) * inF + inF := by omega
          _ = (f / (outF / cv.featureGroupCount) + 1) * inF := by ring
          _ ≤ cv.featureGroupCount * inF := Nat.mul_le_mul_right _ hq0
          _ = _ := Nat.mul_comm _ _
      exact hx.val i j (b ++ (q ++ [_])) hij (within_append hb (within_append hqw (.cons hg .nil)))
  | layerNorm ln =>
    obtain ⟨rfl, hv, hr0, hr1, a, m, ha, hm, hsc, hbi⟩ := hl
    obtain ⟨y, h1, h2, h3⟩ := C76_layer_norm rsqrt ln x (a + 1) m (by rw [hx.shape]; exact hv) (by rw [hx.shape]; exact ha)
      (by rw [hx.shape]; exact hm) hsc hbi
    obtain ⟨y', h1', h2', h3'⟩ := C76_layer_norm rsqrt ln x' (a + 1) m (by rw [hx.shape']; exact hv) (by rw [hx.shape']; exact ha)
      (by rw [hx.shape']; exact hm) hsc hbi
    refine ⟨y, y', h1, h1', h2.trans hx.shape, h2'.trans hx.shape', fun i j r hij hr => ?_⟩
    obtain ⟨f, hf, -⟩ := coord hr hm
    have e := h3 (j :: r) f (by rw [hx.shape]; exact .cons (hlt hij).2 hr) (by simpa using hf)
    have e' := h3' (i :: r) f (by rw [hx.shape']; exact .cons (hlt hij).1 hr) (by simpa using hf)
    simp only [hx.shape, hx.shape', List.length_cons] at e e'
    rw [cell_cons _ ⟨by simpa using hr0, by simpa using hr1⟩ (hlt hij).2, List.map_map] at e
    rw [cell_cons _ ⟨by simpa using hr0, by simpa using hr1⟩ (hlt hij).1, List.map_map] at e'
    rw [e, e', hx.val i j r hij hr]
    have : ∀ L : List (List Nat), (∀ r ∈ L, Within r t) → L.map (x'.val ∘ (i :: ·)) = L.map (x.val ∘ (j :: ·)) := by
      intro L hL
      apply List.map_congr_left
      intro r hr
      exact hx.val i j r hij (hL r hr)
    rw [this (cell _ _ _) (fun r hr => mem_indices.1 (List.mem_filter.1 hr).1)]
  | batchNorm bn arg flag =>
    obtain ⟨rfl, hmode, a, m, ha, hm, h1, h2, h3, h4⟩ := hl
    obtain ⟨y, e1, e2, e3⟩ := C59_running rsqrt bn x arg flag (a + 1) m hmode ⟨h1, h2, h3, h4⟩ (by rw [hx.shape]; exact ha)
      (by rw [hx.shape]; exact hm)
    obtain ⟨y', e1', e2', e3'⟩ := C59_running rsqrt bn x' arg flag (a + 1) m hmode ⟨h1, h2, h3, h4⟩ (by rw [hx.shape']; exact ha)
      (by rw [hx.shape']; exact hm)
    refine ⟨y, y', by simp [EvalLayer.call, e1], by simp [EvalLayer.call, e1'], e2.trans hx.shape, e2'.trans hx.shape', fun i j r hij hr => ?_⟩
    obtain ⟨f, hf, -⟩ := coord hr hm
    rw [e3 (j :: r) f (by rw [hx.shape]; exact .cons (hlt hij).2 hr) (by simpa using hf),
      e3' (i :: r) f (by rw [hx.shape']; exact .cons (hlt hij).1 hr) (by simpa using hf), hx.val i j r hij hr]
  | dropout d arg ctx =>
    obtain ⟨rfl, det, hm, hd⟩ := hl
    exact ⟨x, x', by simp [EvalLayer.call, C58_identity P bernoulli d x arg ctx w det hm hd],
      by simp [EvalLayer.call, C58_identity P bernoulli d x' arg ctx w det hm hd], hx⟩
  | pointwise f =>
    obtain rfl : t = s := hl
    exact ⟨_, _, rfl, rfl, hx.shape, hx.shape', fun i j r hij hr => by simp [Tensor.map, hx.val i j r hij hr]⟩

theorem eval_chain_rows (rsqrt : 𝕜 → 𝕜) (P : RngPrims κ η) (bernoulli : κ → 𝕜 → List Nat → List Nat → Bool) (w : RngWorld κ)
    [IsStrictOrderedRing 𝕜] {ls : List (EvalLayer 𝕜)} {s t : List Nat} (hl : ChainEvaluates w ls s t) {n : Nat} {sel : List Nat}
    (hsel : ∀ j ∈ sel, j < n) : ∀ {x x' : Tensor 𝕜}, RowsOf n s sel x x' →
    ∃ y y', evalChain rsqrt P bernoulli w ls x = .ok y ∧ evalChain rsqrt P bernoulli w ls x' = .ok y' ∧ RowsOf n t sel y y' := by
  induction hl with
  | nil => intro x x' hx; exact ⟨x, x', rfl, rfl, hx⟩
  | cons h1 _ ih =>
    intro x x' hx
    obtain ⟨y, y', e, e', hy⟩ := eval_layer_rows rsqrt P bernoulli w h1 hsel hx
    obtain ⟨z, z', f, f', hz⟩ := ih hy
    exact ⟨z, z', by simp [evalChain, e, f], by simp [evalChain, e', f'], hz⟩

omit [Field 𝕜] [LinearOrder 𝕜] in
theorem rowsOf_rows {x : Tensor 𝕜} {n : Nat} {s : List Nat} (hx : x.shape = n :: s) (sel : List Nat) :
    RowsOf n s sel x (x.rows sel) :=
  ⟨hx, by simp [Tensor.rows, hx], fun i j r hij _ => by simp [Tensor.rows, List.getD, hij]⟩

/-! ### C116 -/

/-- **C116.** A chain of `Linear`, `Conv`, `LayerNorm`, `BatchNorm`, `Dropout` layers and activation functions, used
for evaluation: for every batch and every selection of its examples (in any order, with repetitions), evaluating the
selected examples gives the selected results. -/
theorem C116_per_example [IsStrictOrderedRing 𝕜] (rsqrt : 𝕜 → 𝕜) (P : RngPrims κ η)
    (bernoulli : κ → 𝕜 → List Nat → List Nat → Bool) (w : RngWorld κ) {ls : List (EvalLayer 𝕜)} {s t : List Nat}
    (hl : ChainEvaluates w ls s t) {n : Nat} {x : Tensor 𝕜} (hx : x.shape = n :: s) {sel : List Nat} (hsel : ∀ j ∈ sel, j < n) :
    ∃ y y', evalChain rsqrt P bernoulli w ls x = .ok y ∧ evalChain rsqrt P bernoulli w ls (x.rows sel) = .ok y' ∧
      y.shape = n :: t ∧ y'.shape = sel.length :: t ∧
      ∀ i j r, sel[i]? = some j → Within r t → y'.val (i :: r) = y.val (j :: r) := by
  obtain ⟨y, y', h1, h2, h3⟩ := eval_chain_rows rsqrt P bernoulli w hl hsel (rowsOf_rows hx sel)
  exact ⟨y, y', h1, h2, h3.shape, h3.shape', h3.val⟩

/-- **C116, the other examples do not matter.** If an example of one batch is also an example of another batch, whatever
the sizes of the batches and the other examples in them, the results for it are the same. -/
theorem C116_others [IsStrictOrderedRing 𝕜] (rsqrt : 𝕜 → 𝕜) (P : RngPrims κ η)
    (bernoulli : κ → 𝕜 → List Nat → List Nat → Bool) (w : RngWorld κ) {ls : List (EvalLayer 𝕜)} {s t : List Nat}
    (hl : ChainEvaluates w ls s t) {n m : Nat} {x z : Tensor 𝕜} (hx : x.shape = n :: s) (hz : z.shape = m :: s)
    {j k : Nat} (hj : j < n) (hk : k < m) (hxz : ∀ r, Within r s → x.val (j :: r) = z.val (k :: r)) :
    ∃ y u, evalChain rsqrt P bernoulli w ls x = .ok y ∧ evalChain rsqrt P bernoulli w ls z = .ok u ∧
      ∀ r, Within r t → y.val (j :: r) = u.val (k :: r) := by
  have r1 : RowsOf n s [j] x (x.rows [j]) := rowsOf_rows hx [j]
  have r2 : RowsOf m s [k] z (x.rows [j]) := by
    refine ⟨hz, r1.shape', fun i l r hil hr => ?_⟩
    cases i with
    | succ i => simp at hil
    | zero =>
      simp only [List.getElem?_cons_zero, Option.some.injEq] at hil
      subst hil
      rw [r1.val 0 j r rfl hr, hxz r hr]
  obtain ⟨y, y', h1, h2, h3⟩ := eval_chain_rows rsqrt P bernoulli w hl (sel := [j]) (by simpa using hj) r1
  obtain ⟨u, u', g1, g2, g3⟩ := eval_chain_rows rsqrt P bernoulli w hl (sel := [k]) (by simpa using hk) r2
  rw [h2] at g2
  cases g2
  exact ⟨y, u, h1, g1, fun r hr => by rw [← h3.val 0 j r rfl hr, ← g3.val 0 k r rfl hr]⟩

/-! ### Examples -/

/-- A model: Linear, LayerNorm, an activation function, BatchNorm with the running averages,
Dropout switched off. -/
def exModel : List (EvalLayer ℚ) :=
  [.linear ⟨⟨[2, 3], fun idx => (idx.getD 0 0 : ℚ) + 2 * idx.getD 1 0⟩, some ⟨[3], fun _ => 1⟩⟩,
    .layerNorm ⟨some ⟨[3], fun _ => 2⟩, none, [-1], [-1], 1⟩,
    .pointwise (fun v => max v 0),
    .batchNorm ⟨⟨[3], fun _ => 1⟩, ⟨[3], fun _ => 2⟩, none, none, none, [-1], 9 / 10, 1⟩ none (some true),
    .dropout { rate := 1 / 2 } (some true) none]

theorem exModel_evaluates (w : RngWorld κ) : ChainEvaluates w exModel [2] [3] := by
  refine .cons (t := [3]) ⟨[], 2, 3, rfl, rfl, rfl, by rintro b ⟨⟩; rfl⟩ (.cons (t := [3]) ⟨rfl, ?_, by decide, by decide, 0, 3, ?_, rfl, ?_, by simp⟩
    (.cons (t := [3]) rfl (.cons (t := [3]) ⟨rfl, rfl, 0, 3, ?_, rfl, rfl, rfl, by simp, by simp⟩
      (.cons (t := [3]) ⟨rfl, true, rfl, .inl rfl⟩ .nil))))
  · exact ⟨by decide, by decide⟩
  · exact ⟨by decide, .inr (by decide)⟩
  · rintro q ⟨⟩; rfl
  · exact ⟨by decide, .inr (by decide)⟩

/-- The hypotheses of C116 hold for this model, a batch of 4 examples and the selection of two of them. -/
example (w : RngWorld κ) (P : RngPrims κ η) (bernoulli : κ → ℚ → List Nat → List Nat → Bool) :
    ∃ y y', evalChain (fun v => 1 / v) P bernoulli w exModel ⟨[4, 2], fun idx => (ravel [4, 2] idx : ℚ)⟩ = .ok y ∧
      evalChain (fun v => 1 / v) P bernoulli w exModel ((⟨[4, 2], fun idx => (ravel [4, 2] idx : ℚ)⟩ : Tensor ℚ).rows [3, 1]) = .ok y' ∧
      y'.val [0, 2] = y.val [3, 2] := by
  obtain ⟨y, y', h1, h2, -, -, h3⟩ := C116_per_example (fun v => 1 / v) P bernoulli w (exModel_evaluates w)
    (x := ⟨[4, 2], fun idx => (ravel [4, 2] idx : ℚ)⟩) rfl (sel := [3, 1]) (by decide)
  exact ⟨y, y', h1, h2, h3 0 3 [2] rfl (.cons (by decide) .nil)⟩

/-- **Evaluation is needed.** In training a `BatchNorm` mixes the examples of a batch: the result for the first example
changes when it is given alone. -/
theorem C116_training (P : RngPrims κ η) (bernoulli : κ → ℚ → List Nat → List Nat → Bool) (w : RngWorld κ) :
    ∃ (bn : BatchNorm ℚ) (x : Tensor ℚ) (y y' : Tensor ℚ), bn.Fits 1 ∧ NamesAxis bn.axis 2 1 ∧ x.shape = [2, 1] ∧
      evalChain (fun v => v) P bernoulli w [.batchNorm bn (some false) none] x = .ok y ∧
      evalChain (fun v => v) P bernoulli w [.batchNorm bn (some false) none] (x.rows [0]) = .ok y' ∧
      y.val [0, 0] = -2 ∧ y'.val [0, 0] = 0 := by
  let bn : BatchNorm ℚ := ⟨⟨[1], fun _ => 0⟩, ⟨[1], fun _ => 1⟩, none, none, none, [-1], 9 / 10, 1⟩
  let x : Tensor ℚ := ⟨[2, 1], fun idx => 2 * (idx.headD 0 : ℚ)⟩
  have hf : bn.Fits 1 := ⟨rfl, rfl, by simp [bn], by simp [bn]⟩
  have hn : NamesAxis bn.axis 2 1 := ⟨by decide, .inr (by decide)⟩
  obtain ⟨_, _, y, h1, -, -, -, -, h2⟩ := C59_training (fun v => v) bn x (some false) none 1 1 rfl hf hn rfl (by decide)
  obtain ⟨_, _, y', h1', -, -, -, -, h2'⟩ := C59_training (fun v => v) bn (x.rows [0]) (some false) none 1 1 rfl hf hn rfl (by decide)
  refine ⟨bn, x, y, y', hf, hn, rfl, by simp [evalChain, EvalLayer.call, h1], by simp [evalChain, EvalLayer.call, h1'], ?_, ?_⟩
  · rw [h2 [0, 0] 0 (.cons (by decide) (.cons (by decide) .nil)) rfl]; decide +kernel
  · rw [h2' [0, 0] 0 (.cons (by decide) (.cons (by decide) .nil)) rfl]; decide +kernel

end Nnx
