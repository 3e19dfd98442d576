import Verif.Proofs.ScanCheck
import Verif.Proofs.ScanNewEnd
/-
Computations that establish the hypotheses of the theorems on scans that create variables for concrete cases.
-/
namespace Nnx
variable {α κ A B C : Type}

theorem walk_iff_access {h : Heap α} {l a : Loc} {p : List Str} : Walk h l p a ↔ access h (.ref l) p = some (.ref a) ∧ a < h.length := by
  induction p generalizing l with
  | nil =>
    constructor
    · intro hw; cases hw with | here h => exact ⟨rfl, h⟩
    · rintro ⟨h1, h2⟩; cases h1; exact .here h2
  | cons n p ih =>
    constructor
    · intro hw
      cases hw with
      | @step _ b _ _ _ h1 h2 =>
        obtain ⟨h3, h4⟩ := ih.1 h2
        exact ⟨by simp only [access, h1, h3], h4⟩
    · rintro ⟨h1, h2⟩
      simp only [access] at h1
      cases hat : attrAt h l n with
      | none => rw [hat] at h1; cases h1
      | some x =>
        rw [hat] at h1
        cases x with
        | ref b => exact .step hat (ih.2 ⟨h1, h2⟩)
        | val v => cases p <;> cases h1

variable [DecidableEq α]

/-- Drop the variables of `l` not in `s0` in the collections that `P` selects. -/
def dropVars (o : ScanOptions α) (s0 : State (PyVal α)) (P : Nat → Bool) (l : Loc) (v : World α) : World α :=
  match getState (v.heap.length + 1) v.heap l with
  | none => v
  | some s => v.without fun a n => s.mapping.any fun kv =>
    (s0.get kv.1).isNone && (firstIdx o.filters kv.1 kv.2).any P && decide (splitSlash kv.1 = (splitSlash kv.1).dropLast ++ [n]) &&
      decide (access v.heap (.ref l) (splitSlash kv.1).dropLast = some (.ref a)) && decide (a < v.heap.length)

theorem dropVars_spec {o : ScanOptions α} (hf : ∀ f ∈ o.filters, f.WellFormed) (s0 : State (PyVal α)) (P : Nat → Bool) (Q : Nat → Prop)
    (hPQ : ∀ g, P g = true ↔ Q g) {v : World α} {l : Loc}
    {s : State (PyVal α)} (hs : getState (v.heap.length + 1) v.heap l = some s) :
    Dropped o s0 Q l v (dropVars o s0 P l v) := by
  simp only [dropVars, hs]
  refine ⟨_, s, hs, rfl, ?_⟩
  intro a n
  rw [List.any_eq_true]
  constructor
  · rintro ⟨⟨k, y⟩, hm, h⟩
    simp only [Bool.and_eq_true, decide_eq_true_eq, Option.isNone_iff_eq_none] at h
    obtain ⟨⟨⟨⟨h1, h2⟩, h3⟩, h4⟩, h5⟩ := h
    cases hg : firstIdx o.filters k y with
    | none => rw [hg] at h2; cases h2
    | some g =>
      rw [hg] at h2
      have hk : s.get k = some y := (dget_iff_mem (getState_obtainable hs).canonical.nodup).2 hm
      exact ⟨k, y, g, hk, h1, (firstIdx_iff hf).2 hg, (hPQ g).1 h2, _, h3, walk_iff_access.2 ⟨h4, h5⟩⟩
  · rintro ⟨k, y, g, h1, h2, h3, h4, p, h5, h6⟩
    refine ⟨(k, y), dget_mem h1, ?_⟩
    obtain ⟨h7, h8⟩ := walk_iff_access.1 h6
    simp only [h2, (firstIdx_iff hf).1 h3, h5, List.dropLast_concat, h7, h8, Option.isNone_none, Option.any_some, (hPQ g).2 h4, decide_true, Bool.and_self]

theorem isStackedNew_of_check {R : Arrays α} {o : ScanOptions α} (hf : ∀ f ∈ o.filters, f.WellFormed) {s fin : State (PyVal α)}
    {after : List (State (PyVal α))}
    (h1 : List.Pairwise (fun a b => strLe a.1 b.1 = true ∧ a.1 ≠ b.1) fin.mapping)
    (h2 : ∀ t ∈ after, ∀ kv ∈ t.mapping, ∀ g ∈ firstIdx o.filters kv.1 kv.2, ∀ fa ∈ o.variableAxes[g]?,
      (stackVals R fa.2 (after.filterMap fun t => t.get kv.1)).isSome ∧ fin.get kv.1 = stackVals R fa.2 (after.filterMap fun t => t.get kv.1))
    (h3 : ∀ kv ∈ s.mapping, firstIdx o.filters kv.1 kv.2 = some o.variableAxes.length → fin.get kv.1 = some kv.2)
    (h4 : ∀ kv ∈ fin.mapping, (∃ t ∈ after, (t.get kv.1).any fun x => (firstIdx o.filters kv.1 x).any fun g => decide (g < o.variableAxes.length)) ∨
      ((s.get kv.1).any fun x => decide (firstIdx o.filters kv.1 x = some o.variableAxes.length)) = true) :
    IsStackedNew R o s after fin := by
  refine ⟨h1, ?_, ?_, ?_⟩
  · intro k t x g f a e1 e2 e3 e4
    obtain ⟨h5, h6⟩ := h2 t e1 (k, x) (dget_mem e2) g ((firstIdx_iff hf).1 e4) (f, a) e3
    obtain ⟨v, hv⟩ := Option.isSome_iff_exists.1 h5
    exact ⟨v, stackedVal_iff.2 hv, by rw [h6, hv]⟩
  · intro k x e1 e2
    exact h3 (k, x) (dget_mem e1) ((firstIdx_iff hf).1 e2)
  · intro k y e1
    rcases h4 (k, y) (dget_mem e1) with ⟨t, ht, h⟩ | h
    · left
      dsimp only at h
      cases hx : t.get k with
      | none => rw [hx] at h; cases h
      | some x =>
        rw [hx, Option.any_some] at h
        cases hg : firstIdx o.filters k x with
        | none => rw [hg] at h; cases h
        | some g =>
          rw [hg] at h
          exact ⟨t, x, g, ht, hx, (firstIdx_iff hf).2 hg, by simpa using h⟩
    · right
      dsimp only at h
      cases hx : s.get k with
      | none => rw [hx] at h; cases h
      | some x =>
        rw [hx] at h
        exact ⟨x, rfl, (firstIdx_iff hf).2 (by simpa using h)⟩

theorem uniformNew_of_check {o : ScanOptions α} (hf : ∀ f ∈ o.filters, f.WellFormed) {s : State (PyVal α)}
    {after : List (State (PyVal α))}
    (h1 : ∀ t ∈ after, ∀ t' ∈ after, t.keys = t'.keys)
    (h2 : ∀ t ∈ after, ∀ kv ∈ s.mapping, ∀ y ∈ t.get kv.1, firstIdx o.filters kv.1 y = firstIdx o.filters kv.1 kv.2)
    (h3 : ∀ t ∈ after, ∀ kv ∈ t.mapping, s.get kv.1 = none → (firstIdx o.filters kv.1 kv.2).isSome ∧ kv.2.leaves ≠ some [] ∧
      ∀ t' ∈ after, ∀ y ∈ t'.get kv.1, firstIdx o.filters kv.1 y = firstIdx o.filters kv.1 kv.2)
    (h4 : ∀ t ∈ s :: after, ∀ t' ∈ after, ∀ kv ∈ t.mapping, ∀ y ∈ t'.get kv.1,
      firstIdx o.filters kv.1 y = some (o.variableAxes.length + 1) → kv.2.sameTree y = true) : UniformNew o s after := by
  refine ⟨?_, ?_, ?_, ?_, ?_, ?_⟩
  · intro t ht t' ht' k
    have := h1 t ht t' ht'
    have hk : ∀ s : State (PyVal α), (s.get k).isSome = true ↔ k ∈ s.keys := fun s => dget_isSome
    rw [Bool.eq_iff_iff, hk, hk, this]
  · intro t ht k x y g hx hy hfm
    rw [firstIdx_iff hf] at hfm ⊢
    rw [h2 t ht (k, x) (dget_mem hx) y hy, hfm]
  · intro t ht k y hk hy
    obtain ⟨g, hg⟩ := Option.isSome_iff_exists.1 (h3 t ht (k, y) (dget_mem hy) hk).1
    exact ⟨g, (firstIdx_iff hf).2 hg⟩
  · intro t ht t' ht' k x y g hk hx hy hfm
    rw [firstIdx_iff hf] at hfm ⊢
    rw [(h3 t ht (k, x) (dget_mem hx) hk).2.2 t' ht' y hy, hfm]
  · intro t ht k x hk hx hfm
    exact ⟨k, x, hk, hx, hfm, fun e => (h3 t ht (k, x) (dget_mem hx) hk).2.1 (noArrays_iff.1 e)⟩
  · intro t ht t' ht' k x y hx hy hfm
    exact sameTree_iff.2 (h4 t ht t' ht' (k, x) (dget_mem hx) y hy ((firstIdx_iff hf).1 hfm))

end Nnx
