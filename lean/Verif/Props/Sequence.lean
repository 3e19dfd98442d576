import Verif.Spec.Sequence
import Verif.Props.PerExample
/-
Property C120: a chain of causal layers never looks ahead, looks back no further than its convolutions add up to, and
can be evaluated on a prefix or on a sliding window of the sequence.
-/
namespace Nnx
variable {𝕜 κ η : Type} [Field 𝕜] [LinearOrder 𝕜]

/-- `x` and `x'` are sequences of lengths `L` and `L'`; the times from `o - r` to `o` of `x'`, as far as there are such
times, are the times `d` later of `x`. -/
structure SeesSame (B : List Nat) (m L L' d o r : Nat) (x x' : Tensor 𝕜) : Prop where
  shape : x.shape = B ++ [L, m]
  shape' : x'.shape = B ++ [L', m]
  val : ∀ b q c, Within b B → q ≤ o → o ≤ q + r → c < m → x'.val (b ++ [q, c]) = x.val (b ++ [q + d, c])

theorem cell_append (kept : Nat → Prop) [DecidablePred kept] {t r : List Nat} : ∀ {s b : List Nat},
    Within b s → (∀ a, a < s.length → kept a) →
    cell (s ++ t) kept (b ++ r) = (cell t (fun a => kept (s.length + a)) r).map (b ++ ·)
  | [], [], _, _ => by simp [cell]
  | n :: s, i :: b, h, hk => by
    cases h with
    | cons h1 h2 =>
      rw [List.cons_append, List.cons_append, cell_cons kept (hk 0 (by simp)) h1,
        cell_append (fun a => kept (a + 1)) h2 (fun a ha => hk (a + 1) (by simpa using ha)), List.map_map]
      have : ∀ (p q : Nat → Prop) [DecidablePred p] [DecidablePred q], (∀ a, p a ↔ q a) → cell t p r = cell t q r := by
        intro p q _ _ hpq
        unfold cell
        simp only [hpq]
      rw [this (fun a => kept (s.length + a + 1)) (fun a => kept ((n :: s).length + a))
        (fun a => by rw [List.length_cons, show s.length + a + 1 = s.length + 1 + a by omega])]
      rfl

theorem cell_last {s : List Nat} {m : Nat} (kept : Nat → Prop) [DecidablePred kept] (hk : ∀ a, a < s.length → kept a)
    (hl : ¬ kept s.length) {b : List Nat} {f : Nat} (hb : Within b s) :
    cell (s ++ [m]) kept (b ++ [f]) = (List.range m).map (fun c => b ++ [c]) := by
  rw [cell_append kept hb hk]
  have : cell [m] (fun a => kept (s.length + a)) [f] = (List.range m).map (fun c => [c]) := by
    unfold cell
    rw [List.filter_eq_self.2]
    · simp [indices]
      induction m with
      | zero => rfl
      | succ m ih => simp [List.range_succ, ih]
    · intro j _
      simp only [decide_eq_true_eq]
      intro a ha hka
      obtain rfl : a = 0 := by simpa using ha
      exact absurd hka (by simpa using hl)
  rw [this, List.map_map]
  rfl

theorem within_two {b : List Nat} {B : List Nat} {q c L m : Nat} (hb : Within b B) (hq : q < L) (hc : c < m) :
    Within (b ++ [q, c]) (B ++ [L, m]) := within_append hb (.cons hq (.cons hc .nil))

theorem validAxes_one {axes : List Int} {rank a : Nat} (h : NamesAxis axes rank a) : ValidAxes rank axes := by
  obtain ⟨h1, rfl | rfl⟩ := h
  · exact ⟨by intro b hb; obtain rfl := List.mem_singleton.1 hb; omega, by simp⟩
  · exact ⟨by intro b hb; obtain rfl := List.mem_singleton.1 hb; omega, by simp⟩

theorem causal_source {s : SpatialDim} (hc : s.Causal) (hs : s.stride = 1) {o k : Nat} (hk : k < s.kLen) (ho : o < s.inLen) :
    sources [s] [o] [k] =
      if s.kDil * (s.kLen - 1) ≤ o + k * s.kDil then some [o + k * s.kDil - s.kDil * (s.kLen - 1)] else none := by
  obtain ⟨c1, c2, c3⟩ := hc
  have e1 : ∀ z : Int, z % ((1 : Nat) : Int) = 0 := fun z => by simp
  have e2 : ∀ z : Int, z / ((1 : Nat) : Int) = z := fun z => by simp
  have hkk : k * s.kDil ≤ s.kDil * (s.kLen - 1) := by
    rw [Nat.mul_comm]; exact Nat.mul_le_mul_left _ (by omega)
  have hcast : ((k : Int) * s.kDil) = ((k * s.kDil : Nat) : Int) := by push_cast; ring
  have : s.source o k = if s.kDil * (s.kLen - 1) ≤ o + k * s.kDil then some (o + k * s.kDil - s.kDil * (s.kLen - 1)) else none := by
    simp only [SpatialDim.source, c1, c2, hs, e1, e2, true_and]
    rw [hcast]
    generalize k * s.kDil = a at hkk
    generalize s.kDil * (s.kLen - 1) = w at hkk
    simp only [Nat.cast_one, mul_one]
    by_cases h : w ≤ o + a
    · rw [if_pos h, if_pos (by omega)]
      congr 1
      omega
    · rw [if_neg h, if_neg (by omega)]
  simp only [sources, this]
  by_cases h : s.kDil * (s.kLen - 1) ≤ o + k * s.kDil
  · simp only [if_pos h]
  · simp only [if_neg h]

theorem layer_sees_same [IsStrictOrderedRing 𝕜] (rsqrt : 𝕜 → 𝕜) (P : RngPrims κ η)
    (bernoulli : κ → 𝕜 → List Nat → List Nat → Bool) (w : RngWorld κ) {l : EvalLayer 𝕜} {B : List Nat} {m n r q L L' d o : Nat}
    (hl : l.OnSequences w (B.length + 2) m n r) (ho : o + d < L) (ho' : o < L') (hd : d = 0 ∨ r + q ≤ o) {x x' : Tensor 𝕜}
    (hx : SeesSame B m L L' d o (r + q) x x') :
    ∃ y y', l.call rsqrt P bernoulli w x = .ok y ∧ l.call rsqrt P bernoulli w x' = .ok y' ∧ SeesSame B n L L' d o q y y' := by
  have hlen : x.shape.length = B.length + 2 := by rw [hx.shape]; simp
  have hlen' : x'.shape.length = B.length + 2 := by rw [hx.shape']; simp
  have hm : x.shape[B.length + 1]? = some m := by rw [hx.shape]; simp
  have hm' : x'.shape[B.length + 1]? = some m := by rw [hx.shape']; simp
  have hidx : ∀ (b : List Nat) (t f : Nat), Within b B → (b ++ [t, f])[B.length + 1]? = some f := by
    intro b t f hb
    rw [← within_length hb]; simp
  have assoc : ∀ (b : List Nat) (t c : Nat), b ++ [t] ++ [c] = b ++ [t, c] := fun b t c => by simp
  cases l with
  | linear l =>
    obtain ⟨rfl, hk, hb⟩ := hl
    obtain ⟨y, h1, h2, h3⟩ := C77_linear l x (B ++ [L]) m n (by rw [hx.shape]; simp) hk hb
    obtain ⟨y', h1', h2', h3'⟩ := C77_linear l x' (B ++ [L']) m n (by rw [hx.shape']; simp) hk hb
    refine ⟨y, y', h1, h1', by rw [h2]; simp, by rw [h2']; simp, fun b t f hb ht ht' hf => ?_⟩
    have e := h3 (b ++ [t + d]) f (within_append hb (.cons (by omega) .nil)) hf
    have e' := h3' (b ++ [t]) f (within_append hb (.cons (by omega) .nil)) hf
    simp only [assoc] at e e'
    rw [e, e']
    congr 2
    apply List.map_congr_left
    intro i hi
    rw [hx.val b t i hb ht (by omega) (List.mem_range.1 hi)]
  | conv cv =>
    obtain ⟨s, inF, hpad, hc, hs, hk, hfit, rfl, rfl⟩ := hl
    have fitL : ∀ L, cv.Fits [{ s with inLen := L }] inF n := fun L =>
      ⟨hfit.kernelSize, hfit.strides, hfit.inDil, hfit.kDil, hfit.kernelShape, hfit.groups, hfit.outGroups, hfit.inFeatures, hfit.bias⟩
    have hcL : ∀ L, SpatialDim.Causal { s with inLen := L } := fun L => hc
    have outL : ∀ L, SpatialDim.outLen { s with inLen := L } = L := fun L => causal_outLen (hcL L) hk hs
    have pL : ∀ L, cv.PaddedAs [{ s with inLen := L }] := fun L => .inr (.inl ⟨hpad, _, rfl, hcL L⟩)
    obtain ⟨y, h1, h2, h3⟩ := C64_conv cv x _ B inF n (fitL L) (pL L) (by rw [hx.shape]; rfl)
    obtain ⟨y', h1', h2', h3'⟩ := C64_conv cv x' _ B inF n (fitL L') (pL L') (by rw [hx.shape']; rfl)
    have ol : ∀ L, [({ s with inLen := L } : SpatialDim)].map SpatialDim.outLen = [L] := fun L => by simp [outL]
    rw [ol] at h2 h3 h2' h3'
    refine ⟨y, y', h1, h1', h2, h2', fun b t f hb ht ht' hf => ?_⟩
    have e := h3 b [t + d] f hb (.cons (by omega) .nil) hf
    have e' := h3' b [t] f hb (.cons (by omega) .nil) hf
    simp only [List.cons_append, List.nil_append] at e e'
    rw [e, e']
    congr 1
    unfold convEntry
    congr 1
    apply List.map_congr_left
    intro k hkm
    congr 1
    apply List.map_congr_left
    intro i hi
    obtain ⟨k, rfl, hk1⟩ : ∃ j, k = [j] ∧ j < s.kLen := within_one (mem_indices.1 hkm)
    have hi := List.mem_range.1 hi
    rw [Conv.reads, if_neg (by rw [hpad]; decide), Conv.reads, if_neg (by rw [hpad]; decide),
      causal_source (hcL L') hs (by exact hk1) (by change t < L'; omega),
      causal_source (hcL L) hs (by exact hk1) (by change t + d < L; omega)]
    have hkk : k * s.kDil ≤ s.kDil * (s.kLen - 1) := by
      rw [Nat.mul_comm]; exact Nat.mul_le_mul_left _ (by omega)
    simp only
    generalize k * s.kDil = a at hkk
    have hg := group_lt hf hfit.groups hfit.outGroups hi
    generalize s.kDil * (s.kLen - 1) = w at hkk hd hx
    by_cases h : w ≤ t + a
    · rw [if_pos h, if_pos (by omega)]
      simp only
      congr 1
      have := hx.val b (t + a - w) (f / (n / cv.featureGroupCount) * inF + i) hb (by omega) (by omega) hg
      rw [show t + d + a - w = t + a - w + d by omega]
      exact this
    · have hd0 : d = 0 := by
        rcases hd with h' | h'
        · exact h'
        · omega
      rw [if_neg h, if_neg (by omega)]
  | layerNorm ln =>
    obtain ⟨rfl, rfl, hr, hf, hsc, hbi⟩ := hl
    obtain ⟨y, h1, h2, h3⟩ := C76_layer_norm rsqrt ln x (B.length + 1) n (by rw [hlen]; exact validAxes_one hr) (by rw [hlen]; exact hf)
      hm hsc hbi
    obtain ⟨y', h1', h2', h3'⟩ := C76_layer_norm rsqrt ln x' (B.length + 1) n (by rw [hlen']; exact validAxes_one hr)
      (by rw [hlen']; exact hf) hm' hsc hbi
    refine ⟨y, y', h1, h1', h2.trans hx.shape, h2'.trans hx.shape', fun b t f hb ht ht' hf => ?_⟩
    have e := h3 (b ++ [t + d, f]) f (by rw [hx.shape]; exact within_two hb (by omega) hf) (hidx _ _ _ hb)
    have e' := h3' (b ++ [t, f]) f (by rw [hx.shape']; exact within_two hb (by omega) hf) (hidx _ _ _ hb)
    have keep : ∀ a, a < B.length + 1 → (a : Int) ∉ ln.reductionAxes ∧ (a : Int) - (B.length + 2 : Nat) ∉ ln.reductionAxes := by
      intro a ha
      obtain ⟨-, h | h⟩ := hr <;> rw [h] <;> simp only [List.mem_singleton] <;> constructor <;> omega
    have drop : ¬(((B.length + 1 : Nat) : Int) ∉ ln.reductionAxes ∧ ((B.length + 1 : Nat) : Int) - (B.length + 2 : Nat) ∉ ln.reductionAxes) := by
      obtain ⟨-, h | h⟩ := hr <;> rw [h] <;> simp
    have cl : ∀ (L t : Nat), t < L → cell (B ++ [L, n]) (fun i => (i : Int) ∉ ln.reductionAxes ∧
        (i : Int) - (B.length + 2 : Nat) ∉ ln.reductionAxes) (b ++ [t, f]) = (List.range n).map (fun c => b ++ [t, c]) := by
      intro L t htL
      have := cell_last (s := B ++ [L]) (m := n) (fun i : Nat => (i : Int) ∉ ln.reductionAxes ∧
        (i : Int) - (B.length + 2 : Nat) ∉ ln.reductionAxes) (by simpa using keep) (by simpa using drop)
        (b := b ++ [t]) (f := f) (within_append hb (.cons htL .nil))
      simpa using this
    simp only [hlen, hlen'] at e e'
    rw [hx.shape, cl L (t + d) (by omega), List.map_map] at e
    rw [hx.shape', cl L' t (by omega), List.map_map] at e'
    have hmap : (List.range n).map (x'.val ∘ fun c => b ++ [t, c]) = (List.range n).map (x.val ∘ fun c => b ++ [t + d, c]) := by
      apply List.map_congr_left
      intro c hc
      exact hx.val b t c hb ht (by omega) (List.mem_range.1 hc)
    rw [e, e', hx.val b t f hb ht (by omega) hf, hmap]
  | batchNorm bn arg flag =>
    obtain ⟨rfl, rfl, hmode, ha, h1, h2, h3, h4⟩ := hl
    obtain ⟨y, e1, e2, e3⟩ := C59_running rsqrt bn x arg flag (B.length + 1) n hmode ⟨h1, h2, h3, h4⟩ (by rw [hlen]; exact ha) hm
    obtain ⟨y', e1', e2', e3'⟩ := C59_running rsqrt bn x' arg flag (B.length + 1) n hmode ⟨h1, h2, h3, h4⟩ (by rw [hlen']; exact ha) hm'
    refine ⟨y, y', by simp [EvalLayer.call, e1], by simp [EvalLayer.call, e1'], e2.trans hx.shape, e2'.trans hx.shape',
      fun b t f hb ht ht' hf => ?_⟩
    rw [e3 (b ++ [t + d, f]) f (by rw [hx.shape]; exact within_two hb (by omega) hf) (hidx _ _ _ hb),
      e3' (b ++ [t, f]) f (by rw [hx.shape']; exact within_two hb (by omega) hf) (hidx _ _ _ hb),
      hx.val b t f hb ht (by omega) hf]
  | dropout dr arg ctx =>
    obtain ⟨rfl, rfl, det, hm, hd⟩ := hl
    refine ⟨x, x', by simp [EvalLayer.call, C58_identity P bernoulli dr x arg ctx w det hm hd],
      by simp [EvalLayer.call, C58_identity P bernoulli dr x' arg ctx w det hm hd], ?_⟩
    simpa using hx
  | pointwise f =>
    obtain ⟨rfl, rfl⟩ := hl
    refine ⟨_, _, rfl, rfl, hx.shape, hx.shape', fun b t c hb ht ht' hc => ?_⟩
    simp [Tensor.map, hx.val b t c hb ht (by omega) hc]

theorem chain_sees_same [IsStrictOrderedRing 𝕜] (rsqrt : 𝕜 → 𝕜) (P : RngPrims κ η)
    (bernoulli : κ → 𝕜 → List Nat → List Nat → Bool) (w : RngWorld κ) {ls : List (EvalLayer 𝕜)} {B : List Nat} {rank m n r L L' d o : Nat}
    (hl : ChainOnSequences w rank ls m n r) (hrank : rank = B.length + 2) (ho : o + d < L) (ho' : o < L') :
    ∀ {x x' : Tensor 𝕜}, (d = 0 ∨ r ≤ o) → SeesSame B m L L' d o r x x' →
    ∃ y y', evalChain rsqrt P bernoulli w ls x = .ok y ∧ evalChain rsqrt P bernoulli w ls x' = .ok y' ∧
      SeesSame B n L L' d o 0 y y' := by
  induction hl with
  | nil => intro x x' _ hx; exact ⟨x, x', rfl, rfl, hx⟩
  | cons h1 _ ih =>
    intro x x' hd hx
    subst hrank
    obtain ⟨y, y', e, e', hy⟩ := layer_sees_same rsqrt P bernoulli w h1 ho ho' hd hx
    obtain ⟨z, z', f, f', hz⟩ := ih (by omega) hy
    exact ⟨z, z', by simp [evalChain, e, f], by simp [evalChain, e', f'], hz⟩

/-! ### C120 -/

/-- **C120.** A chain of causal convolutions with stride 1 and of layers that treat the times separately, evaluated on two
sequences of any lengths: the result at a time depends on no other times of the sequence than the last `r` and this one, where
`r` is what the convolutions look back, added up. -/
theorem C120_window [IsStrictOrderedRing 𝕜] (rsqrt : 𝕜 → 𝕜) (P : RngPrims κ η)
    (bernoulli : κ → 𝕜 → List Nat → List Nat → Bool) (w : RngWorld κ) {ls : List (EvalLayer 𝕜)} {B : List Nat} {m n r L L' o : Nat}
    (hl : ChainOnSequences w (B.length + 2) ls m n r) {x x' : Tensor 𝕜} (hx : x.shape = B ++ [L, m]) (hx' : x'.shape = B ++ [L', m])
    (ho : o < L) (ho' : o < L')
    (hag : ∀ b q c, Within b B → o - r ≤ q → q ≤ o → c < m → x'.val (b ++ [q, c]) = x.val (b ++ [q, c])) :
    ∃ y y', evalChain rsqrt P bernoulli w ls x = .ok y ∧ evalChain rsqrt P bernoulli w ls x' = .ok y' ∧
      y.shape = B ++ [L, n] ∧ y'.shape = B ++ [L', n] ∧
      ∀ b c, Within b B → c < n → y'.val (b ++ [o, c]) = y.val (b ++ [o, c]) := by
  obtain ⟨y, y', h1, h2, h3⟩ := chain_sees_same rsqrt P bernoulli w hl rfl (d := 0) (o := o) (by omega) ho' (x := x) (x' := x') (.inl rfl)
    ⟨hx, hx', fun b q c hb hq hq' hc => hag b q c hb (by omega) hq hc⟩
  exact ⟨y, y', h1, h2, h3.shape, h3.shape', fun b c hb hc => h3.val b o c hb (by omega) (by omega) hc⟩

/-- **C120, nothing ahead.** Evaluating only the first `L'` times gives the first `L'` times of the result: the results so far
never change when more of the sequence arrives. -/
theorem C120_prefix [IsStrictOrderedRing 𝕜] (rsqrt : 𝕜 → 𝕜) (P : RngPrims κ η)
    (bernoulli : κ → 𝕜 → List Nat → List Nat → Bool) (w : RngWorld κ) {ls : List (EvalLayer 𝕜)} {B : List Nat} {m n r L L' : Nat}
    (hl : ChainOnSequences w (B.length + 2) ls m n r) {x : Tensor 𝕜} (hx : x.shape = B ++ [L, m]) (hL : L' ≤ L) (h0 : 0 < L') :
    ∃ y y', evalChain rsqrt P bernoulli w ls x = .ok y ∧ evalChain rsqrt P bernoulli w ls (x.times 0 L') = .ok y' ∧
      y.shape = B ++ [L, n] ∧ y'.shape = B ++ [L', n] ∧
      ∀ b o c, Within b B → o < L' → c < n → y'.val (b ++ [o, c]) = y.val (b ++ [o, c]) := by
  have hs : (x.times 0 L').shape = B ++ [L', m] := by simp [Tensor.times, hx]
  have hv : ∀ (b : List Nat) (q c : Nat), (x.times 0 L').val (b ++ [q, c]) = x.val (b ++ [q, c]) := by
    intro b q c; simp [Tensor.times]
  obtain ⟨y, y', h1, h2, h3, h4, -⟩ := C120_window rsqrt P bernoulli w hl hx hs (o := 0) (by omega) h0 (fun b q c _ _ _ _ => hv b q c)
  refine ⟨y, y', h1, h2, h3, h4, fun b o c hb ho hc => ?_⟩
  obtain ⟨z, z', g1, g2, -, -, g3⟩ := C120_window rsqrt P bernoulli w hl hx hs (o := o) (by omega) ho (fun b q c _ _ _ _ => hv b q c)
  rw [h1] at g1; rw [h2] at g2
  cases g1; cases g2
  exact g3 b c hb hc

/-- **C120, a sliding window is enough.** Evaluating only the `L'` times from time `d` on gives the same results as evaluating
the whole sequence, but for the first `r` of them (where the window has no past to look at). -/
theorem C120_sliding [IsStrictOrderedRing 𝕜] (rsqrt : 𝕜 → 𝕜) (P : RngPrims κ η)
    (bernoulli : κ → 𝕜 → List Nat → List Nat → Bool) (w : RngWorld κ) {ls : List (EvalLayer 𝕜)} {B : List Nat} {m n r L L' d : Nat}
    (hl : ChainOnSequences w (B.length + 2) ls m n r) {x : Tensor 𝕜} (hx : x.shape = B ++ [L, m]) (hL : d + L' ≤ L) (hr : r < L') :
    ∃ y y', evalChain rsqrt P bernoulli w ls x = .ok y ∧ evalChain rsqrt P bernoulli w ls (x.times d L') = .ok y' ∧
      y.shape = B ++ [L, n] ∧ y'.shape = B ++ [L', n] ∧
      ∀ b o c, Within b B → r ≤ o → o < L' → c < n → y'.val (b ++ [o, c]) = y.val (b ++ [o + d, c]) := by
  have hs : (x.times d L').shape = B ++ [L', m] := by simp [Tensor.times, hx]
  have hv : ∀ (b : List Nat) (q c : Nat), (x.times d L').val (b ++ [q, c]) = x.val (b ++ [q + d, c]) := by
    intro b q c; simp [Tensor.times]
  have key := fun (o : Nat) (h1 : o + d < L) (h2 : o < L') (h3 : r ≤ o) => chain_sees_same rsqrt P bernoulli w hl rfl (d := d) (o := o)
    h1 h2 (x := x) (x' := x.times d L') (.inr h3) ⟨hx, hs, fun b q c _ _ _ _ => hv b q c⟩
  obtain ⟨y, y', h1, h2, h3⟩ := key r (by omega) hr (Nat.le_refl _)
  refine ⟨y, y', h1, h2, h3.shape, h3.shape', fun b o c hb hro ho hc => ?_⟩
  obtain ⟨z, z', g1, g2, g3⟩ := key o (by omega) ho hro
  rw [h1] at g1; rw [h2] at g2
  cases g1; cases g2
  exact g3.val b o c hb (by omega) (by omega) hc

/-! ### Examples -/

/-- A causal convolution with a kernel of 3 and dilation 2, LayerNorm over the features, an activation function, a causal
convolution with a kernel of 2, Linear. -/
def exCausalNet : List (EvalLayer ℚ) :=
  [.conv (exConv (.str (py! "CAUSAL"))),
    .layerNorm ⟨some ⟨[2], fun _ => 2⟩, none, [-1], [-1], 1⟩,
    .pointwise (fun v => max v 0),
    .batchNorm ⟨⟨[2], fun _ => 1⟩, ⟨[2], fun _ => 2⟩, none, none, none, [-1], 9 / 10, 1⟩ none (some true),
    .conv ⟨⟨[2, 2, 1], fun idx => 1 + (idx.getD 0 0 : ℚ)⟩, none, 2, [2], .int 1, .str (py! "CAUSAL"), .int 1, .int 1, 1, false, none⟩,
    .linear ⟨⟨[1, 3], fun idx => (idx.getD 1 0 : ℚ)⟩, some ⟨[3], fun _ => 1⟩⟩]

/-- It looks 4 + 1 times back. -/
theorem exCausalNet_onSequences (w : RngWorld κ) : ChainOnSequences w 3 exCausalNet 1 3 5 := by
  refine .cons (n := 2) (r := 4) (q := 1) ?_ (.cons (n := 2) (r := 0) (q := 1) ?_ (.cons (n := 2) (r := 0) (q := 1) ⟨rfl, rfl⟩
    (.cons (n := 2) (r := 0) (q := 1) ?_ (.cons (n := 1) (r := 1) (q := 0) ?_ (.cons (n := 3) (r := 0) (q := 0) ?_ .nil)))))
  · exact ⟨exCausalDim, 1, rfl, ⟨rfl, rfl, rfl⟩, rfl, by decide,
      ⟨rfl, .single _, .single _, .single _, rfl, by decide, rfl, rfl, fun _ => ⟨_, rfl, rfl⟩⟩, rfl, rfl⟩
  · exact ⟨rfl, rfl, ⟨by decide, .inr (by decide)⟩, ⟨by decide, .inr (by decide)⟩, by rintro q ⟨⟩; rfl, by simp⟩
  · exact ⟨rfl, rfl, rfl, ⟨by decide, .inr (by decide)⟩, rfl, rfl, by simp, by simp⟩
  · exact ⟨⟨5, 2, 1, 1, 0, 1, 1⟩, 2, rfl, ⟨rfl, rfl, rfl⟩, rfl, by decide,
      ⟨rfl, .single _, .single _, .single _, rfl, by decide, rfl, rfl, by simp⟩, rfl, rfl⟩
  · exact ⟨rfl, rfl, by rintro b ⟨⟩; rfl⟩

/-- The hypotheses of C120 hold for this chain: on two sequences of length 20, the window of length 8 from time 7 on gives the
result at time 14 (it looks back 5 times: from the sixth on the results are those of the whole sequence). -/
example (w : RngWorld κ) (P : RngPrims κ η) (bernoulli : κ → ℚ → List Nat → List Nat → Bool) (x : Tensor ℚ) (hx : x.shape = [2] ++ [20, 1]) :
    ∃ y y', evalChain (fun v => 1 / v) P bernoulli w exCausalNet x = .ok y ∧
      evalChain (fun v => 1 / v) P bernoulli w exCausalNet (x.times 7 8) = .ok y' ∧
      y'.val [1, 7, 2] = y.val [1, 14, 2] := by
  obtain ⟨y, y', h1, h2, -, -, h3⟩ := C120_sliding (fun v => 1 / v) P bernoulli w (B := [2]) (exCausalNet_onSequences w) hx
    (d := 7) (L' := 8) (by decide) (by decide)
  exact ⟨y, y', h1, h2, h3 [1] 7 2 (.cons (by decide) .nil) (by decide) (by decide) (by decide)⟩

/-- **Causal padding is needed.** With 'SAME' padding the result at the first time changes when the third time does. -/
theorem C120_same_padding : ∃ (cv : Conv ℚ) (x x' y y' : Tensor ℚ), cv.padding = .str (py! "SAME") ∧ x.shape = [1, 5, 1] ∧
    x'.shape = x.shape ∧ (∀ q, q ≠ 2 → x'.val [0, q, 0] = x.val [0, q, 0]) ∧ cv.call x = .ok y ∧ cv.call x' = .ok y' ∧
    y.shape = [1, 5, 2] ∧ y'.val [0, 0, 0] ≠ y.val [0, 0, 0] := by
  let x : Tensor ℚ := ⟨[1, 5, 1], fun _ => 1⟩
  let x' : Tensor ℚ := ⟨[1, 5, 1], fun idx => if idx = [0, 2, 0] then 2 else 1⟩
  have hfit : (exConv (.str (py! "SAME"))).Fits [⟨5, 3, 1, 2, 2, 1, 2⟩] 1 2 :=
    ⟨rfl, .single _, .single _, .single _, rfl, by decide, rfl, rfl, fun _ => ⟨_, rfl, rfl⟩⟩
  have hpad : (exConv (.str (py! "SAME"))).PaddedAs [⟨5, 3, 1, 2, 2, 1, 2⟩] := by
    refine .inr (.inr (.inr (.inl ⟨rfl, ?_⟩)))
    intro s hs; obtain rfl := List.mem_singleton.1 hs; exact ⟨.inl rfl, by decide⟩
  obtain ⟨y, h1, h2, h3⟩ := C64_conv _ x _ [1] 1 2 hfit hpad rfl
  obtain ⟨y', h1', h2', h3'⟩ := C64_conv _ x' _ [1] 1 2 hfit hpad rfl
  refine ⟨_, x, x', y, y', rfl, rfl, rfl, ?_, h1, h1', by rw [h2]; decide, ?_⟩
  · intro q hq; simp [x, x', hq]
  · have e := h3 [0] [0] 0 (.cons (by decide) .nil) (.cons (by decide) .nil) (by decide)
    have e' := h3' [0] [0] 0 (.cons (by decide) .nil) (.cons (by decide) .nil) (by decide)
    simp only [List.cons_append, List.nil_append] at e e'
    rw [e, e']
    decide +kernel

end Nnx
