import Verif.Proofs.ScanStates
import Verif.Spec.ScanInit
/-
Slices of stacked values.
-/
namespace Nnx
variable {α : Type} [DecidableEq α]

omit [DecidableEq α] in
theorem heads_get {xss : List (List (PyVal α))} (hne : ∀ xs ∈ xss, xs ≠ []) (i : Nat) :
    (xss.filterMap List.head?).length = xss.length ∧ (xss.filterMap List.head?)[i]? = (xss[i]?).bind List.head? := by
  induction xss generalizing i with
  | nil => simp
  | cons xs xss ih =>
    have ih := ih fun x hx => hne x (List.mem_cons_of_mem _ hx)
    cases xs with
    | nil => exact absurd rfl (hne [] List.mem_cons_self)
    | cons x xs =>
      simp only [List.filterMap_cons, List.head?_cons, List.length_cons]
      refine ⟨by rw [(ih 0).1], ?_⟩
      cases i with
      | zero => rfl
      | succ i => simpa using (ih i).2

omit [DecidableEq α] in
theorem tails_length {xss : List (List (PyVal α))} {n : Nat} (h : ∀ zs ∈ xss, zs.length = n + 1) : ∀ zs ∈ xss.map List.tail, zs.length = n := by
  intro zs hz
  obtain ⟨z, hz', rfl⟩ := List.mem_map.1 hz
  rw [List.length_tail, h z hz', Nat.add_sub_cancel]

omit [DecidableEq α] in
theorem asTup_length {us : List (PyVal α)} {k : Nat} {xss} (h : allSome (us.map (asTup k)) = some xss) : ∀ zs ∈ xss, zs.length = k := by
  intro zs hzs
  obtain ⟨h3, h4⟩ := allSome_map_spec _ _ h
  obtain ⟨j, hj, rfl⟩ := List.getElem_of_mem hzs
  obtain ⟨y, h7, h8⟩ := h4 j _ (List.getElem?_eq_getElem (h3 ▸ hj))
  rw [List.getElem?_eq_getElem hj, Option.some.injEq] at h8
  rw [h8]
  unfold asTup at h7
  split at h7
  · split at h7
    · cases h7; assumption
    · cases h7
  · cases h7

omit [DecidableEq α] in
theorem asDict_length {us : List (PyVal α)} {ks : List Str} {xss} (h : allSome (us.map (asDict ks)) = some xss) :
    ∀ zs ∈ xss, zs.length = ks.length := by
  intro zs hzs
  obtain ⟨h3, h4⟩ := allSome_map_spec _ _ h
  obtain ⟨j, hj, rfl⟩ := List.getElem_of_mem hzs
  obtain ⟨y, h7, h8⟩ := h4 j _ (List.getElem?_eq_getElem (h3 ▸ hj))
  rw [List.getElem?_eq_getElem hj, Option.some.injEq] at h8
  rw [h8]
  unfold asDict at h7
  split at h7
  · split at h7
    · next e => cases h7; rw [← e, List.length_map, List.length_map]
    · cases h7
  · cases h7

mutual
/-- Entry `i` of values that were zipped. -/
theorem zipLeaves_index {g : List α → Option α} {ix : α → Option α} {i n : Nat}
    (hg : ∀ as z, g as = some z → as.length = n → ix z = as[i]?) : ∀ (v : PyVal α) {us : List (PyVal α)} {y u : PyVal α},
    v.zipLeaves g us = some y → us.length = n → us[i]? = some u → y.mapLeaves ix = some u
  | .none, us, y, u, h, _, hu => by
    simp only [PyVal.zipLeaves, Option.map_eq_some_iff] at h
    obtain ⟨_, h1, rfl⟩ := h
    obtain ⟨_, h2, _⟩ := (allSome_map_spec _ _ h1).2 i u hu
    cases u <;> simp only [asNone, reduceCtorEq] at h2
    rfl
  | .data c a, us, y, u, h, hn, hu => by
    simp only [PyVal.zipLeaves] at h
    split at h
    · cases h
    next as h1 =>
    simp only [Option.map_eq_some_iff] at h
    obtain ⟨z, hz, rfl⟩ := h
    obtain ⟨h3, h4⟩ := allSome_map_spec _ _ h1
    obtain ⟨b, h2, h5⟩ := h4 i u hu
    cases u <;> simp only [asData, reduceCtorEq, Option.ite_none_right_eq_some, Option.some.injEq] at h2
    obtain ⟨rfl, rfl⟩ := h2
    simp only [PyVal.mapLeaves, hg as z hz (h3.trans hn), h5, Option.map_some]
  | .cont c v m, us, y, u, h, hn, hu => by
    simp only [PyVal.zipLeaves] at h
    split at h
    · cases h
    next vs h1 =>
    simp only [Option.map_eq_some_iff] at h
    obtain ⟨z, hz, rfl⟩ := h
    obtain ⟨h3, h4⟩ := allSome_map_spec _ _ h1
    obtain ⟨b, h2, h5⟩ := h4 i u hu
    cases u <;> simp only [asCont, reduceCtorEq, Option.ite_none_right_eq_some, Option.some.injEq] at h2
    obtain ⟨⟨rfl, rfl⟩, rfl⟩ := h2
    simp only [PyVal.mapLeaves, zipLeaves_index hg v hz (h3.trans hn) h5, Option.map_some]
  | .tup xs, us, y, u, h, hn, hu => by
    simp only [PyVal.zipLeaves] at h
    split at h
    · cases h
    next xss h1 =>
    simp only [Option.map_eq_some_iff] at h
    obtain ⟨z, hz, rfl⟩ := h
    obtain ⟨h3, h4⟩ := allSome_map_spec _ _ h1
    obtain ⟨b, h2, h5⟩ := h4 i u hu
    cases u <;> simp only [asTup, reduceCtorEq, Option.ite_none_right_eq_some, Option.some.injEq] at h2
    obtain ⟨h6, rfl⟩ := h2
    have hall := asTup_length h1
    simp only [PyVal.mapLeaves, zipLeavesL_index hg xs hz (h3.trans hn) hall h5, Option.map_some]
  | .dict items, us, y, u, h, hn, hu => by
    simp only [PyVal.zipLeaves] at h
    split at h
    · cases h
    next xss h1 =>
    simp only [Option.map_eq_some_iff] at h
    obtain ⟨z, hz, rfl⟩ := h
    obtain ⟨h3, h4⟩ := allSome_map_spec _ _ h1
    obtain ⟨b, h2, h5⟩ := h4 i u hu
    cases u <;> simp only [asDict, reduceCtorEq, Option.ite_none_right_eq_some, Option.some.injEq] at h2
    obtain ⟨h6, rfl⟩ := h2
    have hall : ∀ ys ∈ xss, ys.length = items.length := by simpa using asDict_length h1
    simp only [PyVal.mapLeaves, zipLeavesM_index hg items hz (h3.trans hn) hall h5 h6, Option.map_some]
  | .str _, _, _, _, h, _, _ => by simp only [PyVal.zipLeaves, reduceCtorEq] at h
  | .cmeta _ _, _, _, _, h, _, _ => by simp only [PyVal.zipLeaves, reduceCtorEq] at h
  | .tree _ _, _, _, _, h, _, _ => by simp only [PyVal.zipLeaves, reduceCtorEq] at h
theorem zipLeavesL_index {g : List α → Option α} {ix : α → Option α} {i n : Nat}
    (hg : ∀ as z, g as = some z → as.length = n → ix z = as[i]?) : ∀ (xs : List (PyVal α)) {xss : List (List (PyVal α))}
    {ys us : List (PyVal α)}, zipLeavesL g xs xss = some ys → xss.length = n → (∀ zs ∈ xss, zs.length = xs.length) → xss[i]? = some us →
    mapLeavesL ix ys = some us
  | [], xss, ys, us, h, hn, hall, hu => by
    simp only [zipLeavesL, Option.some.injEq] at h
    subst h
    have := hall _ (List.mem_of_getElem? hu)
    rw [List.length_nil, List.length_eq_zero_iff] at this
    subst this; rfl
  | x :: xs, xss, ys, us, h, hn, hall, hu => by
    simp only [zipLeavesL] at h
    split at h
    · next a b ha hb =>
      cases h
      have hl := hall _ (List.mem_of_getElem? hu)
      have hne : ∀ zs ∈ xss, zs ≠ [] := by rintro zs hz rfl; have := hall _ hz; simp at this
      cases us with
      | nil => simp at hl
      | cons u us =>
        have h1 := heads_get hne i
        rw [hu] at h1
        have e1 := zipLeaves_index hg x ha (h1.1.trans hn) h1.2
        have e2 := zipLeavesL_index hg xs hb (by rw [List.length_map]; exact hn) (tails_length hall) (us := us) (by rw [List.getElem?_map, hu]; rfl)
        simp only [mapLeavesL, e1, e2]
    · cases h
theorem zipLeavesM_index {g : List α → Option α} {ix : α → Option α} {i n : Nat}
    (hg : ∀ as z, g as = some z → as.length = n → ix z = as[i]?) : ∀ (xs : List (Str × PyVal α)) {xss : List (List (PyVal α))}
    {ys us : List (Str × PyVal α)}, zipLeavesM g xs xss = some ys → xss.length = n → (∀ zs ∈ xss, zs.length = xs.length) →
    xss[i]? = some (us.map (·.2)) → us.map (·.1) = xs.map (·.1) → mapLeavesM ix ys = some us
  | [], xss, ys, us, h, hn, hall, hu, hk => by
    simp only [zipLeavesM, Option.some.injEq] at h
    subst h
    rw [List.map_nil, List.map_eq_nil_iff] at hk
    subst hk; rfl
  | (m, x) :: xs, xss, ys, us, h, hn, hall, hu, hk => by
    simp only [zipLeavesM] at h
    split at h
    · next a b ha hb =>
      cases h
      have hne : ∀ zs ∈ xss, zs ≠ [] := by rintro zs hz rfl; have := hall _ hz; simp at this
      cases us with
      | nil => simp at hk
      | cons u us =>
        obtain ⟨m', u⟩ := u
        simp only [List.map_cons, List.cons.injEq] at hk
        obtain ⟨rfl, hk⟩ := hk
        have h1 := heads_get hne i
        rw [hu] at h1
        have e1 := zipLeaves_index hg x ha (h1.1.trans hn) h1.2
        have e2 := zipLeavesM_index hg xs hb (by rw [List.length_map]; exact hn) (tails_length hall) (us := us) (by rw [List.getElem?_map, hu]; rfl) hk
        simp only [mapLeavesM, e1, e2]
    · cases h
end

mutual
/-- The leaves of values that were zipped. -/
theorem zipLeaves_leaves {g : List α → Option α} {n : Nat} {P : α → Prop} (hg : ∀ as z, g as = some z → as.length = n → P z) :
    ∀ (v : PyVal α) {us : List (PyVal α)} {y : PyVal α}, v.zipLeaves g us = some y → us.length = n →
      ∃ ls, y.leaves = some ls ∧ ∀ a ∈ ls, P a
  | .none, us, y, h, _ => by
    simp only [PyVal.zipLeaves, Option.map_eq_some_iff] at h
    obtain ⟨_, _, rfl⟩ := h
    exact ⟨[], rfl, fun _ h => by cases h⟩
  | .data c a, us, y, h, hn => by
    simp only [PyVal.zipLeaves] at h
    split at h
    · cases h
    next as h1 =>
    simp only [Option.map_eq_some_iff] at h
    obtain ⟨z, hz, rfl⟩ := h
    exact ⟨[z], rfl, fun a ha => by rw [List.mem_singleton.1 ha]; exact hg _ _ hz ((allSome_map_spec _ _ h1).1.trans hn)⟩
  | .cont c v m, us, y, h, hn => by
    simp only [PyVal.zipLeaves] at h
    split at h
    · cases h
    next vs h1 =>
    simp only [Option.map_eq_some_iff] at h
    obtain ⟨z, hz, rfl⟩ := h
    simpa only [PyVal.leaves] using zipLeaves_leaves hg v hz ((allSome_map_spec _ _ h1).1.trans hn)
  | .tup xs, us, y, h, hn => by
    simp only [PyVal.zipLeaves] at h
    split at h
    · cases h
    next xss h1 =>
    simp only [Option.map_eq_some_iff] at h
    obtain ⟨z, hz, rfl⟩ := h
    simp only [PyVal.leaves]
    exact zipLeavesL_leaves hg xs hz ((allSome_map_spec _ _ h1).1.trans hn) (asTup_length h1)
  | .dict items, us, y, h, hn => by
    simp only [PyVal.zipLeaves] at h
    split at h
    · cases h
    next xss h1 =>
    simp only [Option.map_eq_some_iff] at h
    obtain ⟨z, hz, rfl⟩ := h
    simp only [PyVal.leaves]
    exact zipLeavesM_leaves hg items hz ((allSome_map_spec _ _ h1).1.trans hn) (by simpa using asDict_length h1)
  | .str _, _, _, h, _ => by simp only [PyVal.zipLeaves, reduceCtorEq] at h
  | .cmeta _ _, _, _, h, _ => by simp only [PyVal.zipLeaves, reduceCtorEq] at h
  | .tree _ _, _, _, h, _ => by simp only [PyVal.zipLeaves, reduceCtorEq] at h
theorem zipLeavesL_leaves {g : List α → Option α} {n : Nat} {P : α → Prop} (hg : ∀ as z, g as = some z → as.length = n → P z) :
    ∀ (xs : List (PyVal α)) {xss : List (List (PyVal α))} {ys : List (PyVal α)}, zipLeavesL g xs xss = some ys → xss.length = n →
      (∀ zs ∈ xss, zs.length = xs.length) → ∃ ls, leavesL ys = some ls ∧ ∀ a ∈ ls, P a
  | [], xss, ys, h, _, _ => by
    simp only [zipLeavesL, Option.some.injEq] at h
    subst h
    exact ⟨[], rfl, fun _ h => by cases h⟩
  | x :: xs, xss, ys, h, hn, hall => by
    simp only [zipLeavesL] at h
    split at h
    · next a b ha hb =>
      cases h
      have hne : ∀ zs ∈ xss, zs ≠ [] := by rintro zs hz rfl; have := hall _ hz; simp at this
      obtain ⟨l1, e1, p1⟩ := zipLeaves_leaves hg x ha ((heads_get hne 0).1.trans hn)
      obtain ⟨l2, e2, p2⟩ := zipLeavesL_leaves hg xs hb (by rw [List.length_map]; exact hn) (tails_length hall)
      refine ⟨l1 ++ l2, by simp only [leavesL, e1, e2], ?_⟩
      intro a ha
      rcases List.mem_append.1 ha with h | h
      · exact p1 a h
      · exact p2 a h
    · cases h
theorem zipLeavesM_leaves {g : List α → Option α} {n : Nat} {P : α → Prop} (hg : ∀ as z, g as = some z → as.length = n → P z) :
    ∀ (xs : List (Str × PyVal α)) {xss : List (List (PyVal α))} {ys : List (Str × PyVal α)}, zipLeavesM g xs xss = some ys →
      xss.length = n → (∀ zs ∈ xss, zs.length = xs.length) → ∃ ls, leavesM ys = some ls ∧ ∀ a ∈ ls, P a
  | [], xss, ys, h, _, _ => by
    simp only [zipLeavesM, Option.some.injEq] at h
    subst h
    exact ⟨[], rfl, fun _ h => by cases h⟩
  | (m, x) :: xs, xss, ys, h, hn, hall => by
    simp only [zipLeavesM] at h
    split at h
    · next a b ha hb =>
      cases h
      have hne : ∀ zs ∈ xss, zs ≠ [] := by rintro zs hz rfl; have := hall _ hz; simp at this
      obtain ⟨l1, e1, p1⟩ := zipLeaves_leaves hg x ha ((heads_get hne 0).1.trans hn)
      obtain ⟨l2, e2, p2⟩ := zipLeavesM_leaves hg xs hb (by rw [List.length_map]; exact hn) (tails_length hall)
      refine ⟨l1 ++ l2, by simp only [leavesM, e1, e2], ?_⟩
      intro a ha
      rcases List.mem_append.1 ha with h | h
      · exact p1 a h
      · exact p2 a h
    · cases h
end

end Nnx
