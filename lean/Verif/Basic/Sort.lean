import Verif.Basic.Dict
/-
Python's `sorted(items, key=lambda x: x[0])` on string-keyed items: a stable sort.
-/
namespace Nnx

variable {V : Type _}

/-- Insert an item before the first item with a key that is not smaller. -/
def insertItem (x : Str × V) : List (Str × V) → List (Str × V)
  | [] => [x]
  | y :: ys => if strLe x.1 y.1 then x :: y :: ys else y :: insertItem x ys

/-- `sorted(items, key=lambda x: x[0])` (nnx/state.py:29,31; nnx/module.py:795,828; nnx/pytreelib.py:160).
Stable: items with equal keys keep their order. -/
def sortItems : List (Str × V) → List (Str × V)
  | [] => []
  | x :: xs => insertItem x (sortItems xs)

/-- Strictly increasing keys. -/
def StrictSorted (d : List (Str × V)) : Prop :=
  d.Pairwise (fun a b => strLe a.1 b.1 = true ∧ a.1 ≠ b.1)

/-- Weakly increasing keys. -/
def WeakSorted (d : List (Str × V)) : Prop := d.Pairwise (fun a b => strLe a.1 b.1 = true)

theorem insertItem_perm (x : Str × V) (l : List (Str × V)) : (insertItem x l).Perm (x :: l) := by
  induction l with
  | nil => simp [insertItem]
  | cons y ys ih =>
    simp only [insertItem]
    split
    · exact List.Perm.refl _
    · exact (ih.cons y).trans (List.Perm.swap x y ys)

theorem sortItems_perm (l : List (Str × V)) : (sortItems l).Perm l := by
  induction l with
  | nil => exact List.Perm.refl _
  | cons x xs ih => exact (insertItem_perm x _).trans (ih.cons x)

theorem insertItem_weakSorted (x : Str × V) {l : List (Str × V)} (h : WeakSorted l) :
    WeakSorted (insertItem x l) := by
  induction l with
  | nil => simp [insertItem, WeakSorted]
  | cons y ys ih =>
    simp only [WeakSorted, List.pairwise_cons] at h ih
    simp only [insertItem]
    split
    · next hxy =>
      simp only [WeakSorted, List.pairwise_cons, List.mem_cons]
      refine ⟨?_, h.1, h.2⟩
      rintro z (rfl | hz)
      · exact hxy
      · exact strLe_trans hxy (h.1 z hz)
    · next hxy =>
      simp only [WeakSorted, List.pairwise_cons]
      refine ⟨?_, ih h.2⟩
      intro z hz
      have hz' := (insertItem_perm x ys).mem_iff.1 hz
      simp only [List.mem_cons] at hz'
      rcases hz' with rfl | hz'
      · rcases strLe_total z.1 y.1 with h1 | h1
        · exact absurd h1 hxy
        · exact h1
      · exact h.1 z hz'

theorem sortItems_weakSorted (l : List (Str × V)) : WeakSorted (sortItems l) := by
  induction l with
  | nil => simp [sortItems, WeakSorted]
  | cons x xs ih => exact insertItem_weakSorted x ih

theorem StrictSorted.weak {d : List (Str × V)} (h : StrictSorted d) : WeakSorted d :=
  h.imp (fun h => h.1)

theorem StrictSorted.nodup {d : List (Str × V)} (h : StrictSorted d) : DNodup d := by
  rw [DNodup, dkeys, List.nodup_iff_pairwise_ne, List.pairwise_map]
  exact h.imp (fun h => h.2)

theorem WeakSorted.strict {d : List (Str × V)} (h : WeakSorted d) (hn : DNodup d) : StrictSorted d := by
  rw [DNodup, dkeys, List.nodup_iff_pairwise_ne, List.pairwise_map] at hn
  exact (List.Pairwise.and h hn)

theorem sortItems_strict {l : List (Str × V)} (hn : DNodup l) : StrictSorted (sortItems l) :=
  (sortItems_weakSorted l).strict (dnodup_perm (sortItems_perm l).symm hn)

/-- A strictly sorted list is determined by its elements. -/
theorem StrictSorted.ext_mem {d e : List (Str × V)} (hd : StrictSorted d) (he : StrictSorted e)
    (h : ∀ x, x ∈ d ↔ x ∈ e) : d = e := by
  induction d generalizing e with
  | nil =>
    cases e with
    | nil => rfl
    | cons y ys => exact absurd ((h y).2 (by simp)) (by simp)
  | cons x xs ih =>
    cases e with
    | nil => exact absurd ((h x).1 (by simp)) (by simp)
    | cons y ys =>
      simp only [StrictSorted, List.pairwise_cons] at hd he ih
      have hxy : x = y := by
        have h1 := (h x).1 (by simp)
        have h2 := (h y).2 (by simp)
        simp only [List.mem_cons] at h1 h2
        rcases h1 with h1 | h1
        · exact h1
        · rcases h2 with h2 | h2
          · exact h2.symm
          · have a1 := he.1 x h1
            have a2 := hd.1 y h2
            exact absurd (strLe_antisymm a1.1 a2.1) a1.2
      subst hxy
      congr 1
      refine ih hd.2 he.2 ?_
      intro z
      have hz := h z
      simp only [List.mem_cons] at hz
      constructor
      · intro hm
        rcases hz.1 (Or.inr hm) with e | e
        · subst e; exact absurd rfl (hd.1 z hm).2
        · exact e
      · intro hm
        rcases hz.2 (Or.inr hm) with e | e
        · subst e; exact absurd rfl (he.1 z hm).2
        · exact e

/-- A strictly sorted list is determined by lookup. -/
theorem StrictSorted.ext {d e : List (Str × V)} (hd : StrictSorted d) (he : StrictSorted e)
    (h : ∀ k, dget d k = dget e k) : d = e := by
  apply hd.ext_mem he
  rintro ⟨k, v⟩
  rw [← dget_iff_mem hd.nodup, ← dget_iff_mem he.nodup, h]

theorem sortItems_of_strict {d : List (Str × V)} (h : StrictSorted d) : sortItems d = d :=
  (sortItems_strict h.nodup).ext_mem h (fun _ => (sortItems_perm d).mem_iff)

theorem dget_sortItems {d : List (Str × V)} (hn : DNodup d) (k : Str) :
    dget (sortItems d) k = dget d k :=
  dget_perm (sortItems_perm d) (dnodup_perm (sortItems_perm d).symm hn) k

theorem lastOf_insertItem (x : Str × V) (l : List (Str × V)) (k : Str) :
    lastOf (insertItem x l) k = lastOf (x :: l) k := by
  induction l with
  | nil => rfl
  | cons y ys ih =>
    simp only [insertItem]
    split
    · rfl
    · next h =>
      have hne : x.1 ≠ y.1 := by
        intro e; rw [e] at h; exact h (strLe_refl _)
      obtain ⟨xk, xv⟩ := x
      obtain ⟨yk, yv⟩ := y
      simp only [lastOf] at ih ⊢
      rw [ih]
      cases lastOf ys k with
      | some w => rfl
      | none =>
        by_cases h1 : xk = k
        · subst h1
          have h2 : ¬ yk = xk := fun e => hne e.symm
          rw [if_pos rfl, if_neg h2]
        · rw [if_neg h1]
          by_cases h2 : yk = k
          · rw [if_pos h2]
          · rw [if_neg h2]

/-- Sorting is stable: it does not change which value is last for a key. -/
theorem lastOf_sortItems (l : List (Str × V)) (k : Str) : lastOf (sortItems l) k = lastOf l k := by
  induction l with
  | nil => rfl
  | cons x xs ih =>
    obtain ⟨a, b⟩ := x
    simp only [sortItems, lastOf_insertItem, lastOf, ih]

theorem StrictSorted.filter {d : List (Str × V)} (h : StrictSorted d) (p : Str × V → Bool) :
    StrictSorted (d.filter p) := List.Pairwise.filter p h

theorem WeakSorted.dofList_strict {d : List (Str × V)} (h : WeakSorted d) : StrictSorted (dofList d) := by
  have key : ∀ (e d : List (Str × V)), StrictSorted d → WeakSorted e →
      (∀ x ∈ d, ∀ y ∈ e, strLe x.1 y.1 = true) → StrictSorted (dupdate d e) := by
    intro e
    induction e with
    | nil => intro d hd _ _; simpa [dupdate] using hd
    | cons y e ih =>
      intro d hd he hde
      simp only [dupdate, List.foldl_cons] at ih ⊢
      simp only [WeakSorted, List.pairwise_cons] at he
      apply ih _ _ he.2
      · intro x hx z hz
        have hk : x.1 ∈ dkeys (dset d y.1 y.2) := List.mem_map.2 ⟨x, hx, rfl⟩
        rw [mem_dkeys_dset] at hk
        rcases hk with hk | hk
        · rw [hk]; exact he.1 z hz
        · obtain ⟨x', hx', e⟩ := List.mem_map.1 hk
          rw [← e]; exact hde x' hx' z (by simp [hz])
      · by_cases hm : y.1 ∈ dkeys d
        · -- replaced in place: the keys do not change
          have hkeys : ∀ (d : List (Str × V)), y.1 ∈ dkeys d → dkeys (dset d y.1 y.2) = dkeys d := by
            intro d
            induction d with
            | nil => simp
            | cons z d ih =>
              obtain ⟨a, b⟩ := z
              intro hm
              simp only [dset]
              split
              · simp
              · next hne =>
                simp only [dkeys, List.map_cons, List.mem_cons] at hm ih ⊢
                rcases hm with hm | hm
                · exact absurd hm.symm hne
                · rw [ih hm]
          have e1 : (dkeys (dset d y.1 y.2)).Pairwise (fun a b => strLe a b = true ∧ a ≠ b) := by
            rw [hkeys d hm]
            exact List.pairwise_map.2 hd
          exact List.pairwise_map.1 e1
        · rw [dset_of_not_mem hm]
          rw [StrictSorted, List.pairwise_append]
          refine ⟨hd, by simp, ?_⟩
          intro a ha b hb
          simp at hb
          subst hb
          refine ⟨hde a ha _ (by simp), ?_⟩
          intro e
          exact hm (List.mem_map.2 ⟨a, ha, e⟩)
  exact key d [] (by simp [StrictSorted]) h (by simp)

end Nnx
