import Verif.Spec.Random
import Verif.Props.Dropout
import Verif.Props.Conv
/-
C109: Dropout preserves the mean.
-/
namespace Nnx
variable {𝕜 : Type} [Field 𝕜] {A B : Type}

theorem expect_add (μ : List (𝕜 × A)) (f g : A → 𝕜) : expect μ (fun a => f a + g a) = expect μ f + expect μ g := by
  induction μ with
  | nil => simp [expect]
  | cons o μ ih =>
    simp only [expect, List.map_cons, List.sum_cons] at ih ⊢
    rw [ih]; ring

theorem expect_mul (μ : List (𝕜 × A)) (f : A → 𝕜) (c : 𝕜) : expect μ (fun a => f a * c) = expect μ f * c := by
  induction μ with
  | nil => simp [expect]
  | cons o μ ih =>
    simp only [expect, List.map_cons, List.sum_cons] at ih ⊢
    rw [ih]; ring

theorem expect_const (μ : List (𝕜 × A)) (c : 𝕜) : expect μ (fun _ => c) = expect μ (fun _ => 1) * c := by
  rw [← expect_mul]; simp

theorem expect_sum (μ : List (𝕜 × A)) (f : A → B → 𝕜) : ∀ l : List B,
    expect μ (fun a => (l.map (f a)).sum) = (l.map fun b => expect μ fun a => f a b).sum
  | [] => by simp [expect]
  | b :: l => by
    simp only [List.map_cons, List.sum_cons]
    rw [expect_add, expect_sum μ f l]

theorem expect_congr {μ : List (𝕜 × A)} {f g : A → 𝕜} (h : ∀ a, f a = g a) : expect μ f = expect μ g := by
  rw [funext h]

theorem pySet_one {s t : List Nat} {i : Int} (h : pySet s i 1 = .ok t) :
    t.length = s.length ∧ ∀ k : Nat, t[k]? = s[k]? ∨ t[k]? = some 1 := by
  have key : ∀ n : Nat, (s.set n 1).length = s.length ∧ ∀ k : Nat, (s.set n 1)[k]? = s[k]? ∨ (s.set n 1)[k]? = some 1 := by
    intro n
    refine ⟨by simp, fun k => ?_⟩
    rw [List.getElem?_set]
    split
    · split
      · exact .inr rfl
      · left; rw [List.getElem?_eq_none]; omega
    · exact .inl rfl
  unfold pySet at h
  split at h
  · cases h; exact key _
  · split at h
    · cases h; exact key _
    · cases h

theorem pySetAll_ones : ∀ {is : List Int} {s t : List Nat}, pySetAll 1 is s = .ok t →
    t.length = s.length ∧ ∀ k : Nat, t[k]? = s[k]? ∨ t[k]? = some 1
  | [], s, t, h => by cases h; exact ⟨rfl, fun _ => .inl rfl⟩
  | i :: is, s, t, h => by
    rw [pySetAll] at h
    cases hs : pySet s i 1 with
    | error e => rw [hs] at h; cases h
    | ok u =>
      rw [hs] at h
      have h1 := pySet_one hs
      have h2 := pySetAll_ones h
      refine ⟨h2.1.trans h1.1, fun k => ?_⟩
      rcases h2.2 k with e | e
      · rw [e]; exact h1.2 k
      · exact .inr e

theorem clip_cons (d i : Nat) (t idx : List Nat) : clip (d :: t) (i :: idx) = (if d = 1 then 0 else i) :: clip t idx := rfl

/-- Reading a mask with size 1 on some axes. -/
theorem within_clip : ∀ {s t idx : List Nat}, t.length = s.length → (∀ k : Nat, t[k]? = s[k]? ∨ t[k]? = some 1) → Within idx s →
    Within (clip t idx) t
  | [], [], _, _, _, h => by cases h; exact .nil
  | d :: s, e :: t, _, hl, ht, h => by
    cases h with
    | @cons i _ idx _ h1 h2 =>
      have ih := within_clip (s := s) (t := t) (by simpa using hl) (fun k => by simpa using ht (k + 1)) h2
      rw [clip_cons]
      refine .cons ?_ ih
      by_cases he : e = 1
      · simp [he]
      · rw [if_neg he]
        rcases ht 0 with h0 | h0
        · simp at h0; omega
        · simp at h0; exact absurd h0 he

section
variable [LinearOrder 𝕜] {κ η : Type}

/-- **C109.** "The masked inputs reweighted to preserve mean": if every element that `random.bernoulli` draws is true with the probability it is asked for,
then a call of a Dropout with a rate other than 1 either raises the same error whatever is drawn, or returns whatever is drawn, and then the expected value of
each element of the output is that element of the input. What happens to the streams does not depend on what is drawn either. -/
theorem C109_mean (P : RngPrims κ η) {μ : List (𝕜 × A)} (hμ : IsDistribution μ) (d : Dropout 𝕜) (h1 : d.rate ≠ 1)
    {draw : A → κ → 𝕜 → List Nat → List Nat → Bool} (hdraw : BernoulliDraws μ (1 - d.rate) draw)
    (x : Tensor 𝕜) (arg : Option Bool) (ctx : Option Nat) (w : RngWorld κ) :
    (∃ w' e, ∀ a, d.call P (draw a) x arg ctx w = (w', .error e)) ∨
    ∃ w', ∃ y : A → Tensor 𝕜, (∀ a, d.call P (draw a) x arg ctx w = (w', .ok (y a)) ∧ (y a).shape = x.shape) ∧
      ∀ idx, Within idx x.shape → expect μ (fun a => (y a).val idx) = x.val idx := by
  simp only [Dropout.call.eq_def]
  cases hm : firstFrom [arg, d.deterministic, ctxFlag w ctx (py! "deterministic")] with
  | error e => exact .inl ⟨w, e, fun _ => rfl⟩
  | ok det =>
    simp only
    by_cases h0 : d.rate = 0 ∨ det = true
    · right
      refine ⟨w, fun _ => x, fun a => ⟨by rw [if_pos h0], rfl⟩, fun idx _ => ?_⟩
      rw [expect_const, hμ.2, one_mul]
    · simp only [if_neg h0, if_neg h1]
      cases ctx with
      | none => exact .inl ⟨w, _, fun _ => rfl⟩
      | some c =>
        simp only
        cases hr : makeRng P c d.rngCollection w with
        | mk w' r =>
          cases r with
          | error e => exact .inl ⟨w', e, fun _ => rfl⟩
          | ok rng =>
            simp only
            cases hs : pySetAll 1 d.broadcastDims x.shape with
            | error e => exact .inl ⟨w', e, fun _ => rfl⟩
            | ok shape =>
              right
              refine ⟨w', _, fun a => ⟨rfl, rfl⟩, fun idx hw => ?_⟩
              have hone := pySetAll_ones hs
              have hp : ∀ a, (Tensor.mk shape (draw a rng (1 - d.rate) shape)).bget idx = draw a rng (1 - d.rate) shape (clip shape idx) :=
                fun a => bget_same _ (by rw [within_length hw]; exact hone.1.symm)
              simp only [hp]
              have hq := hdraw rng shape (clip shape idx) (within_clip hone.1 hone.2 hw)
              have hne : 1 - d.rate ≠ 0 := sub_ne_zero.2 (Ne.symm h1)
              rw [expect_congr (g := fun a => (if draw a rng (1 - d.rate) shape (clip shape idx) then 1 else 0) * (x.val idx / (1 - d.rate)))
                (fun a => by split <;> simp), expect_mul]
              rw [prob] at hq
              rw [hq]
              field_simp

/-- **C109, in front of a Linear.** The expected output of `linear(dropout(x))` is the output of `linear(x)`. -/
theorem C109_linear (P : RngPrims κ η) {μ : List (𝕜 × A)} (hμ : IsDistribution μ) (d : Dropout 𝕜) (h1 : d.rate ≠ 1)
    {draw : A → κ → 𝕜 → List Nat → List Nat → Bool} (hdraw : BernoulliDraws μ (1 - d.rate) draw)
    {x : Tensor 𝕜} {arg : Option Bool} {ctx : Option Nat} {w : RngWorld κ} {w' : RngWorld κ} {y : A → Tensor 𝕜}
    (hy : ∀ a, d.call P (draw a) x arg ctx w = (w', .ok (y a)))
    {l : Linear 𝕜} {B : List Nat} {m n : Nat} (hx : x.shape = B ++ [m]) (hk : l.kernel.shape = [m, n])
    (hb : ∀ b, l.bias = some b → b.shape = [n]) :
    ∃ (out : Tensor 𝕜) (z : A → Tensor 𝕜), l.call x = .ok out ∧ (∀ a, l.call (y a) = .ok (z a)) ∧
      ∀ b j, Within b B → j < n → expect μ (fun a => (z a).val (b ++ [j])) = out.val (b ++ [j]) := by
  obtain ⟨out, ho, -, hov⟩ := C77_linear l x B m n hx hk hb
  have hne : Nonempty A := by
    cases μ with
    | nil => exact absurd hμ.2 (by simp [expect])
    | cons o _ => exact ⟨o.2⟩
  rcases C109_mean P hμ d h1 hdraw x arg ctx w with ⟨u, e, he⟩ | ⟨u, y', hy', hmean⟩
  · have := hy hne.some
    rw [he] at this
    cases this
  · have hyy : ∀ a, y a = y' a := by
      intro a
      have := (hy a).symm.trans (hy' a).1
      injection this with _ h2
      exact Except.ok.inj h2
    have hz : ∀ a, ∃ z, l.call (y a) = .ok z ∧ z.shape = B ++ [n] ∧ ∀ b j, Within b B → j < n →
        z.val (b ++ [j]) = ((List.range m).map fun i => (y a).val (b ++ [i]) * l.kernel.val [i, j]).sum + vecAt l.bias j 0 :=
      fun a => C77_linear l (y a) B m n (by rw [hyy, (hy' a).2, hx]) hk hb
    refine ⟨out, fun a => (hz a).choose, ho, fun a => (hz a).choose_spec.1, fun b j hwb hj => ?_⟩
    rw [expect_congr (fun a => (hz a).choose_spec.2.2 b j hwb hj), expect_add, expect_const, hμ.2, one_mul, expect_sum, hov b j hwb hj]
    congr 2
    apply List.map_congr_left
    intro i hi
    rw [expect_mul]
    congr 1
    rw [← hmean (b ++ [i]) (by rw [hx]; exact within_append hwb (.cons (List.mem_range.1 hi) .nil))]
    exact expect_congr fun a => by rw [hyy]

/-- **C109, rate 1.** With rate 1 the mean is not preserved: a call that drops returns zeros, whatever is drawn. -/
theorem C109_rate_one (P : RngPrims κ η) {μ : List (𝕜 × A)} (d : Dropout 𝕜) (h1 : d.rate = 1)
    {draw : A → κ → 𝕜 → List Nat → List Nat → Bool} {x : Tensor 𝕜} {arg : Option Bool} {ctx : Option Nat} {w : RngWorld κ}
    (hmode : firstFrom [arg, d.deterministic, ctxFlag w ctx (py! "deterministic")] = .ok false) :
    ∃ y : A → Tensor 𝕜, (∀ a, d.call P (draw a) x arg ctx w = (w, .ok (y a))) ∧
      ∀ idx, expect μ (fun a => (y a).val idx) = 0 := by
  have h := fun a => C58_rate_one P (draw a) d x arg ctx w hmode h1
  refine ⟨fun a => (h a).choose, fun a => (h a).choose_spec.1, fun idx => ?_⟩
  rw [expect_congr (g := fun _ => 0) (fun a => (h a).choose_spec.2.2 idx), expect_const, mul_zero]
end

/-! The layer `exDrop`, with rate 1/4, and four outcomes, in three of which everything is kept. -/

/-- The outcomes. -/
def exOutcomes : List (ℚ × Nat) := [(1/4, 0), (1/4, 1), (1/4, 2), (1/4, 3)]
/-- What is drawn: nothing is kept in outcome 0. -/
def exDraws (a : Nat) (_ : SymKey) (_ : ℚ) (_ _ : List Nat) : Bool := a != 0

example : IsDistribution exOutcomes ∧ exDrop.rate ≠ 1 ∧ BernoulliDraws exOutcomes (1 - exDrop.rate) exDraws := by
  refine ⟨⟨by intro o ho; simp [exOutcomes] at ho; rcases ho with rfl | rfl | rfl | rfl <;> norm_num, by norm_num [expect, exOutcomes]⟩,
    by norm_num [exDrop], fun key shape idx _ => ?_⟩
  norm_num [prob, expect, exOutcomes, exDraws, exDrop]

/-- The call returns, and what it returns depends on what is drawn. -/
example : ((exDrop.call symPrims (exDraws 0) exDropIn (some false) (some 0) exRng1).2.toOption.map fun y => y.val [0, 1]) = some 0 ∧
    ((exDrop.call symPrims (exDraws 1) exDropIn (some false) (some 0) exRng1).2.toOption.map fun y => y.val [0, 1]) = some 4 := by
  constructor <;> decide +kernel

end Nnx
