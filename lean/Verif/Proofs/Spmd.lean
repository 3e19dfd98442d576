import Verif.Spec.Spmd
import Verif.Basic.Tactics
import Mathlib.Data.List.NodupEquivFin
import Mathlib.Data.List.Duplicate
/-
The loop over rules in `_logical_to_mesh_axes`.
-/
namespace Nnx

theorem MeshAxes.leaves_eq : MeshAxes.leaves = MeshAxes.names := by
  funext m
  cases m <;> rfl

/-- The result list before rule `k`. -/
def slotsAt (dims : List (Option Str)) (rules : List LRule) (k : Nat) : List Slot :=
  (rules.take k).foldl (applyRule dims) (List.replicate dims.length .unassigned)

/-- Rule `k` takes effect in the loop. -/
def fires (dims : List (Option Str)) (rules : List LRule) (k : Nat) : Prop :=
  ∃ (n : Option Str) (m : MeshAxes), rules[k]? = some (n, m) ∧ n ∈ dims ∧ meshFree m (slotsAt dims rules k) = true ∧
    (slotsAt dims rules k)[dims.idxOf n]? = some .unassigned

theorem applyRule_length (dims : List (Option Str)) (res : List Slot) (r : LRule) : (applyRule dims res r).length = res.length := by
  unfold applyRule
  split
  · dsimp only; split
    · simp
    · rfl
  · rfl

theorem slotsAt_length (dims : List (Option Str)) (rules : List LRule) (k : Nat) : (slotsAt dims rules k).length = dims.length := by
  unfold slotsAt
  suffices ∀ (l : List LRule) (res : List Slot), (l.foldl (applyRule dims) res).length = res.length by rw [this]; simp
  intro l
  induction l with
  | nil => intro; rfl
  | cons r l ih => intro res; rw [List.foldl_cons, ih, applyRule_length]

theorem slotsAt_succ (dims : List (Option Str)) (rules : List LRule) (k : Nat) (r : LRule) (h : rules[k]? = some r) :
    slotsAt dims rules (k + 1) = applyRule dims (slotsAt dims rules k) r := by
  unfold slotsAt
  rw [List.take_add_one, h, Option.toList, List.foldl_append]
  rfl

theorem slotsAt_ge (dims : List (Option Str)) (rules : List LRule) (k : Nat) (h : rules[k]? = none) :
    slotsAt dims rules (k + 1) = slotsAt dims rules k := by
  unfold slotsAt
  rw [List.take_add_one, h, Option.toList, List.append_nil]

theorem slotsAt_step (dims : List (Option Str)) (rules : List LRule) (k : Nat) (i : Nat) (m : MeshAxes) :
    (slotsAt dims rules (k + 1))[i]? = some (.assigned m) ↔ (slotsAt dims rules k)[i]? = some (.assigned m) ∨
      (fires dims rules k ∧ ∃ n, rules[k]? = some (n, m) ∧ dims.idxOf n = i) := by
  cases hr : rules[k]? with
  | none =>
    rw [slotsAt_ge _ _ _ hr]
    simp [fires, hr]
  | some r =>
    obtain ⟨n, m'⟩ := r
    rw [slotsAt_succ _ _ _ _ hr]
    unfold applyRule
    by_cases hf : fires dims rules k
    · have hf' := hf
      obtain ⟨n1, m1, h1, h2, h3, h4⟩ := hf'
      rw [hr] at h1
      obtain ⟨rfl, rfl⟩ : n = n1 ∧ m' = m1 := by simpa using h1
      have hc : dims.contains n = true := by simpa using h2
      have hlt : dims.idxOf n < (slotsAt dims rules k).length := by
        rw [slotsAt_length]; exact List.idxOf_lt_length_iff.2 h2
      simp only [hc, h3, h4, decide_true, Bool.and_self, if_true]
      rw [List.getElem?_set]
      by_cases hi : dims.idxOf n = i
      · subst hi
        simp only [hlt, if_true, h4]
        constructor
        · intro h; right; refine ⟨hf, n, ?_, rfl⟩; simpa using h
        · rintro (h | ⟨-, n', h, -⟩)
          · exact absurd h (by simp)
          · simp only [Option.some.injEq, Prod.mk.injEq] at h; simp [h.2]
      · rw [if_neg hi]
        constructor
        · exact Or.inl
        · rintro (h | ⟨-, n', h, h'⟩)
          · exact h
          · simp only [Option.some.injEq, Prod.mk.injEq] at h; rw [← h.1] at h'; exact absurd h' hi
    · have : ¬ (dims.contains n = true ∧ (meshFree m' (slotsAt dims rules k) &&
          decide ((slotsAt dims rules k)[dims.idxOf n]? = some .unassigned)) = true) := by
        rintro ⟨ha, hb⟩
        apply hf
        refine ⟨n, m', hr, by simpa using ha, ?_⟩
        simpa [Bool.and_eq_true] using hb
      constructor
      · intro h
        left
        split at h
        · dsimp only at h; split at h
          · next ha hb => exact absurd ⟨ha, hb⟩ this
          · exact h
        · exact h
      · rintro (h | ⟨h, -⟩)
        · split
          · dsimp only; split
            · next ha hb => exact absurd ⟨ha, hb⟩ this
            · exact h
          · exact h
        · exact absurd h hf

theorem slotsAt_iff (dims : List (Option Str)) (rules : List LRule) (k : Nat) (i : Nat) (m : MeshAxes) :
    (slotsAt dims rules k)[i]? = some (.assigned m) ↔
      ∃ j n, j < k ∧ fires dims rules j ∧ rules[j]? = some (n, m) ∧ dims.idxOf n = i := by
  induction k with
  | zero =>
    constructor
    · intro h
      simp only [slotsAt, List.take_zero, List.foldl_nil, List.getElem?_replicate] at h
      split at h <;> simp at h
    · rintro ⟨j, _, h, _⟩; exact absurd h (Nat.not_lt_zero _)
  | succ k ih =>
    rw [slotsAt_step, ih]
    constructor
    · rintro (⟨j, n, h1, h2⟩ | ⟨h1, n, h2, h3⟩)
      · exact ⟨j, n, Nat.lt_succ_of_lt h1, h2⟩
      · exact ⟨k, n, Nat.lt_succ_self k, h1, h2, h3⟩
    · rintro ⟨j, n, h1, h2, h3, h4⟩
      rcases Nat.lt_succ_iff_lt_or_eq.1 h1 with h | rfl
      · exact Or.inl ⟨j, n, h, h2, h3, h4⟩
      · exact Or.inr ⟨h2, n, h3, h4⟩

theorem meshFree_iff (m : MeshAxes) (res : List Slot) :
    meshFree m res = true ↔ ∀ (i : Nat) (m' : MeshAxes), res[i]? = some (.assigned m') → m'.Disjoint m := by
  unfold meshFree
  simp only [Bool.not_eq_true', List.any_eq_false, List.any_eq_true, not_exists, not_and, Bool.not_eq_true, MeshAxes.Disjoint, MeshAxes.leaves_eq]
  constructor
  · intro h i m' hi a ha ha'
    have := h a ha' (.assigned m') (List.mem_of_getElem? hi)
    simp only [Slot.leaves, MeshAxes.leaves_eq] at this
    simp [ha] at this
  · intro h a ha s hs
    cases s with
    | unassigned => rfl
    | assigned m' =>
      obtain ⟨i, hi⟩ := List.getElem?_of_mem hs
      by_contra hc
      have hc : a ∈ m'.names := by simpa [Slot.leaves, MeshAxes.leaves_eq] using hc
      exact h i m' hi a hc ha

theorem fires_mem {dims : List (Option Str)} {rules : List LRule} {k : Nat} (h : fires dims rules k) {n : Option Str} {m : MeshAxes}
    (hr : rules[k]? = some (n, m)) : n ∈ dims := by
  obtain ⟨n1, m1, h1, h2, -⟩ := h
  rw [hr] at h1
  simp only [Option.some.injEq, Prod.mk.injEq] at h1
  rw [h1.1]; exact h2

/-- The rules that take effect in the loop are the ones the priority order says. -/
theorem fires_applied (dims : List (Option Str)) (rules : List LRule) : Applied dims rules (fires dims rules) := by
  intro k
  constructor
  · rintro ⟨n, m, h1, h2, h3, h4⟩
    refine ⟨n, m, h1, h2, ?_⟩
    intro j n' m' hj hf hr
    have hs := (slotsAt_iff dims rules k (dims.idxOf n') m').2 ⟨j, n', hj, hf, hr, rfl⟩
    refine ⟨?_, (meshFree_iff _ _).1 h3 _ _ hs⟩
    rintro rfl
    rw [h4] at hs
    exact absurd hs (by simp)
  · rintro ⟨n, m, h1, h2, h3⟩
    refine ⟨n, m, h1, h2, ?_, ?_⟩
    · rw [meshFree_iff]
      intro i m' hi
      obtain ⟨j, n', hj, hf, hr, -⟩ := (slotsAt_iff dims rules k i m').1 hi
      exact (h3 j n' m' hj hf hr).2
    · have hlt : dims.idxOf n < (slotsAt dims rules k).length := by
        rw [slotsAt_length]; exact List.idxOf_lt_length_iff.2 h2
      rw [List.getElem?_eq_getElem hlt]
      cases hs : (slotsAt dims rules k)[dims.idxOf n] with
      | unassigned => rfl
      | assigned m' =>
        exfalso
        have hs' : (slotsAt dims rules k)[dims.idxOf n]? = some (.assigned m') := by rw [List.getElem?_eq_getElem hlt, hs]
        obtain ⟨j, n', hj, hf, hr, hi⟩ := (slotsAt_iff dims rules k _ m').1 hs'
        have hm := fires_mem hf hr
        apply (h3 j n' m' hj hf hr).1
        have e1 : dims[dims.idxOf n']? = some n' := by
          have := List.idxOf_lt_length_iff.2 hm
          rw [List.getElem?_eq_getElem this, List.getElem_idxOf this]
        have e2 : dims[dims.idxOf n]? = some n := by
          have := List.idxOf_lt_length_iff.2 h2
          rw [List.getElem?_eq_getElem this, List.getElem_idxOf this]
        rw [hi, e2] at e1
        exact (Option.some.inj e1).symm

/-- The priority order determines which rules take effect. -/
theorem Applied.unique {dims : List (Option Str)} {rules : List LRule} {p q : Nat → Prop} (hp : Applied dims rules p)
    (hq : Applied dims rules q) (k : Nat) : p k ↔ q k := by
  induction k using Nat.strong_induction_on with
  | _ k ih =>
    rw [hp k, hq k]
    constructor
    · rintro ⟨n, m, h1, h2, h3⟩
      exact ⟨n, m, h1, h2, fun j n' m' hj ha hr => h3 j n' m' hj ((ih j hj).2 ha) hr⟩
    · rintro ⟨n, m, h1, h2, h3⟩
      exact ⟨n, m, h1, h2, fun j n' m' hj ha hr => h3 j n' m' hj ((ih j hj).1 ha) hr⟩

theorem dimNamed_iff {dims : List (Option Str)} {i : Nat} {n : Option Str} : DimNamed dims i n ↔ n ∈ dims ∧ dims.idxOf n = i := by
  constructor
  · rintro ⟨h1, h2⟩
    have hm := List.mem_of_getElem? h1
    refine ⟨hm, ?_⟩
    have hlt := List.idxOf_lt_length_iff.2 hm
    have e1 : dims[dims.idxOf n] = n := List.getElem_idxOf hlt
    rcases Nat.lt_trichotomy (dims.idxOf n) i with h | h | h
    · exfalso; apply h2 _ h; rw [List.getElem?_eq_getElem hlt, e1]
    · exact h
    · exfalso
      have := List.not_of_lt_findIdx (p := (· == n)) h
      obtain ⟨hi, he⟩ := List.getElem?_eq_some_iff.1 h1
      simp [he] at this
  · rintro ⟨hm, rfl⟩
    have hlt := List.idxOf_lt_length_iff.2 hm
    refine ⟨by rw [List.getElem?_eq_getElem hlt, List.getElem_idxOf hlt], ?_⟩
    intro j hj hn
    have := List.not_of_lt_findIdx (p := (· == n)) hj
    obtain ⟨hi, he⟩ := List.getElem?_eq_some_iff.1 hn
    simp [he] at this

/-- The final result list, said with the rules that take effect. -/
theorem foldl_applyRule_iff (dims : List (Option Str)) (rules : List LRule) {applied : Nat → Prop} (ha : Applied dims rules applied)
    (i : Nat) (m : MeshAxes) :
    (rules.foldl (applyRule dims) (List.replicate dims.length .unassigned))[i]? = some (.assigned m) ↔ Gets dims rules applied i m := by
  have e : rules.foldl (applyRule dims) (List.replicate dims.length .unassigned) = slotsAt dims rules rules.length := by
    simp [slotsAt]
  rw [e, slotsAt_iff]
  constructor
  · rintro ⟨j, n, hj, hf, hr, hi⟩
    exact ⟨j, n, (ha.unique (fires_applied dims rules) j).2 hf, hr, dimNamed_iff.2 ⟨fires_mem hf hr, hi⟩⟩
  · rintro ⟨k, n, hk, hr, hd⟩
    exact ⟨k, n, (List.getElem?_eq_some_iff.1 hr).1, (ha.unique (fires_applied dims rules) k).1 hk, hr, (dimNamed_iff.1 hd).2⟩

theorem foldl_applyRule_length (dims : List (Option Str)) (rules : List LRule) :
    (rules.foldl (applyRule dims) (List.replicate dims.length .unassigned)).length = dims.length := by
  have e : rules.foldl (applyRule dims) (List.replicate dims.length .unassigned) = slotsAt dims rules rules.length := by
    simp [slotsAt]
  rw [e, slotsAt_length]

theorem repeated_iff (dims : List (Option Str)) :
    (dims.any (fun k => decide (dims.count k > 1) && k.isSome)) = true ↔ RepeatedName dims := by
  simp only [List.any_eq_true, Bool.and_eq_true, decide_eq_true_eq, RepeatedName]
  constructor
  · rintro ⟨k, hk, hc, hs⟩
    obtain ⟨n, rfl⟩ := Option.isSome_iff_exists.1 hs
    have : List.Duplicate (some n) dims := by
      rw [List.duplicate_iff_two_le_count]
      have hc : 2 ≤ dims.count (some n) := hc
      convert hc
    rw [List.duplicate_iff_exists_distinct_get] at this
    obtain ⟨a, b, hab, h1, h2⟩ := this
    refine ⟨a, b, n, hab, ?_, ?_⟩
    · rw [List.getElem?_eq_getElem a.2]; simpa using h1.symm
    · rw [List.getElem?_eq_getElem b.2]; simpa using h2.symm
  · rintro ⟨i, j, n, hij, hi, hj⟩
    refine ⟨some n, List.mem_of_getElem? hi, ?_, rfl⟩
    suffices h : List.Duplicate (some n) dims by
      rw [List.duplicate_iff_two_le_count] at h
      show 2 ≤ dims.count (some n)
      convert h
    rw [List.duplicate_iff_exists_distinct_get]
    obtain ⟨hi', e1⟩ := List.getElem?_eq_some_iff.1 hi
    obtain ⟨hj', e2⟩ := List.getElem?_eq_some_iff.1 hj
    exact ⟨⟨i, hi'⟩, ⟨j, hj'⟩, hij, by simpa using e1.symm, by simpa using e2.symm⟩

end Nnx
