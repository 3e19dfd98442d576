import Verif.Spec.Scan
import Verif.Proofs.ScanStates
/-
The functions on trees of the model (`zipLeaves`, `mapLeaves`, `leaves`) and the relation `TreeOf` of the specification.
-/
namespace Nnx
variable {α : Type}

/-! ### One tree -/

mutual
theorem mapLeaves_tree {g : α → Option α} : ∀ (x : PyVal α) {y : PyVal α}, x.mapLeaves g = some y →
    TreeOf (fun as b => ∃ z, as = [z] ∧ g z = some b) [x] y
  | .none, y, h => by cases h; exact .none 1
  | .data c a, y, h => by
    simp only [PyVal.mapLeaves, Option.map_eq_some_iff] at h
    obtain ⟨b, h, rfl⟩ := h
    exact .array (as := [a]) ⟨a, rfl, h⟩
  | .tup xs, y, h => by
    simp only [PyVal.mapLeaves, Option.map_eq_some_iff] at h
    obtain ⟨b, h, rfl⟩ := h
    exact mapLeavesL_tree xs h
  | .cont c v m, y, h => by
    simp only [PyVal.mapLeaves, Option.map_eq_some_iff] at h
    obtain ⟨b, h, rfl⟩ := h
    exact .cont (us := [v]) (mapLeaves_tree v h)
  | .dict items, y, h => by
    simp only [PyVal.mapLeaves, Option.map_eq_some_iff] at h
    obtain ⟨b, h, rfl⟩ := h
    exact mapLeavesM_tree items h
  | .str _, _, h => by cases h
  | .cmeta _ _, _, h => by cases h
  | .tree _ _, _, h => by cases h
theorem mapLeavesL_tree {g : α → Option α} : ∀ (xs : List (PyVal α)) {ys : List (PyVal α)}, mapLeavesL g xs = some ys →
    TreeOf (fun as b => ∃ z, as = [z] ∧ g z = some b) [.tup xs] (.tup ys)
  | [], ys, h => by cases h; exact .tupNil 1
  | x :: xs, ys, h => by
    simp only [mapLeavesL] at h
    split at h
    · next a b h1 h2 =>
      cases h
      exact .tupCons (us := [(x, xs)]) (mapLeaves_tree x h1) (mapLeavesL_tree xs h2)
    · cases h
theorem mapLeavesM_tree {g : α → Option α} : ∀ (xs : List (Str × PyVal α)) {ys : List (Str × PyVal α)}, mapLeavesM g xs = some ys →
    TreeOf (fun as b => ∃ z, as = [z] ∧ g z = some b) [.dict xs] (.dict ys)
  | [], ys, h => by cases h; exact .dictNil 1
  | (n, x) :: xs, ys, h => by
    simp only [mapLeavesM] at h
    split at h
    · next a b h1 h2 =>
      cases h
      exact .dictCons (us := [(x, xs)]) (mapLeaves_tree x h1) (mapLeavesM_tree xs h2)
    · cases h
end

theorem map_eq_one {X Y : Type} {f : X → Y} {xs : List X} {y : Y} (h : xs.map f = [y]) : ∃ x, xs = [x] ∧ f x = y := by
  match xs, h with
  | [x], h => exact ⟨x, rfl, by simpa using h⟩

theorem replicate_eq_one {Y : Type} {n : Nat} {x y : Y} (h : List.replicate n x = [y]) : y = x := by
  have : y ∈ List.replicate n x := by rw [h]; exact List.mem_singleton.2 rfl
  exact List.eq_of_mem_replicate this

theorem tree_mapLeaves {g : α → Option α} {us : List (PyVal α)} {y : PyVal α} (t : TreeOf (fun as b => ∃ z, as = [z] ∧ g z = some b) us y) :
    ∀ {x : PyVal α}, us = [x] → x.mapLeaves g = some y := by
  induction t with
  | none n => intro x h; rw [replicate_eq_one h]; rfl
  | array hg =>
    intro x h
    obtain ⟨z, rfl, hz⟩ := hg
    cases h
    simp only [PyVal.mapLeaves, hz, Option.map_some]
  | cont t ih =>
    intro x h
    obtain ⟨u, rfl, rfl⟩ := map_eq_one h
    simp only [PyVal.mapLeaves, ih rfl, Option.map_some]
  | tupNil n => intro x h; rw [replicate_eq_one h]; rfl
  | tupCons t ts ih ihs =>
    intro x h
    obtain ⟨u, rfl, rfl⟩ := map_eq_one h
    have h2 := ihs rfl
    simp only [PyVal.mapLeaves, Option.map_eq_some_iff, PyVal.tup.injEq] at h2
    obtain ⟨_, h2, rfl⟩ := h2
    simp only [PyVal.mapLeaves, mapLeavesL, ih rfl, h2, Option.map_some]
  | dictNil n => intro x h; rw [replicate_eq_one h]; rfl
  | dictCons t ts ih ihs =>
    intro x h
    obtain ⟨u, rfl, rfl⟩ := map_eq_one h
    have h2 := ihs rfl
    simp only [PyVal.mapLeaves, Option.map_eq_some_iff, PyVal.dict.injEq] at h2
    obtain ⟨_, h2, rfl⟩ := h2
    simp only [PyVal.mapLeaves, mapLeavesM, ih rfl, h2, Option.map_some]

theorem sliceVal_iff {R : Arrays α} {a : Int} {i : Nat} {x y : PyVal α} : SliceVal R a i x y ↔ x.mapLeaves (R.index a i) = some y :=
  ⟨fun h => tree_mapLeaves h rfl, mapLeaves_tree x⟩

mutual
theorem leaves_tree {P : α → Prop} : ∀ (x : PyVal α) {ls : List α}, x.leaves = some ls → (∀ y ∈ ls, P y) → AllArrays P x
  | .none, ls, h, hp => .none 1
  | .data c a, ls, h, hp => by
    cases h
    exact .array (as := [a]) ⟨rfl, hp a List.mem_cons_self⟩
  | .tup xs, ls, h, hp => leavesL_tree xs (by simpa only [PyVal.leaves] using h) hp
  | .cont c v m, ls, h, hp => .cont (us := [v]) (leaves_tree v (by simpa only [PyVal.leaves] using h) hp)
  | .dict items, ls, h, hp => leavesM_tree items (by simpa only [PyVal.leaves] using h) hp
  | .str _, _, h, _ => by cases h
  | .cmeta _ _, _, h, _ => by cases h
  | .tree _ _, _, h, _ => by cases h
theorem leavesL_tree {P : α → Prop} : ∀ (xs : List (PyVal α)) {ls : List α}, leavesL xs = some ls → (∀ y ∈ ls, P y) → AllArrays P (.tup xs)
  | [], _, _, _ => .tupNil 1
  | x :: xs, ls, h, hp => by
    simp only [leavesL] at h
    split at h
    · next a b h1 h2 =>
      cases h
      exact .tupCons (us := [(x, xs)]) (leaves_tree x h1 fun y hy => hp y (List.mem_append_left _ hy))
        (leavesL_tree xs h2 fun y hy => hp y (List.mem_append_right _ hy))
    · cases h
theorem leavesM_tree {P : α → Prop} : ∀ (xs : List (Str × PyVal α)) {ls : List α}, leavesM xs = some ls → (∀ y ∈ ls, P y) → AllArrays P (.dict xs)
  | [], _, _, _ => .dictNil 1
  | (n, x) :: xs, ls, h, hp => by
    simp only [leavesM] at h
    split at h
    · next a b h1 h2 =>
      cases h
      exact .dictCons (us := [(x, xs)]) (leaves_tree x h1 fun y hy => hp y (List.mem_append_left _ hy))
        (leavesM_tree xs h2 fun y hy => hp y (List.mem_append_right _ hy))
    · cases h
end

theorem tree_leaves {P : α → Prop} {us : List (PyVal α)} {y : PyVal α} (t : TreeOf (fun as b => as = [b] ∧ P b) us y) :
    ∃ ls, y.leaves = some ls ∧ ∀ a ∈ ls, P a := by
  induction t with
  | none n => exact ⟨[], rfl, by simp⟩
  | array hg =>
    obtain ⟨rfl, hp⟩ := hg
    exact ⟨_, rfl, by simpa using hp⟩
  | cont t ih => simpa only [PyVal.leaves] using ih
  | tupNil n => exact ⟨[], rfl, by simp⟩
  | tupCons t ts ih ihs =>
    obtain ⟨l1, h1, p1⟩ := ih
    obtain ⟨l2, h2, p2⟩ := ihs
    simp only [PyVal.leaves] at h2
    refine ⟨l1 ++ l2, by simp only [PyVal.leaves, leavesL, h1, h2], ?_⟩
    intro a ha
    exact (List.mem_append.1 ha).elim (p1 a) (p2 a)
  | dictNil n => exact ⟨[], rfl, by simp⟩
  | dictCons t ts ih ihs =>
    obtain ⟨l1, h1, p1⟩ := ih
    obtain ⟨l2, h2, p2⟩ := ihs
    simp only [PyVal.leaves] at h2
    refine ⟨l1 ++ l2, by simp only [PyVal.leaves, leavesM, h1, h2], ?_⟩
    intro a ha
    exact (List.mem_append.1 ha).elim (p1 a) (p2 a)

theorem allArrays_iff {P : α → Prop} {x : PyVal α} : AllArrays P x ↔ ∃ ls, x.leaves = some ls ∧ ∀ y ∈ ls, P y :=
  ⟨tree_leaves, fun ⟨_, h, hp⟩ => leaves_tree x h hp⟩

theorem noArrays_iff {x : PyVal α} : AllArrays (fun _ => False) x ↔ x.leaves = some [] := by
  rw [allArrays_iff]
  constructor
  · rintro ⟨ls, h, hp⟩
    cases ls with
    | nil => exact h
    | cons a ls => exact absurd (hp a List.mem_cons_self) id
  · intro h; exact ⟨[], h, by simp⟩

/-! ### Several trees -/

variable [DecidableEq α]

theorem allSome_map_iff {X Y : Type} {f : X → Option Y} {e : Y → X} (he : ∀ x y, f x = some y ↔ x = e y) : ∀ {xs : List X} {ys : List Y},
    allSome (xs.map f) = some ys ↔ xs = ys.map e
  | [], ys => by
    cases ys <;> simp [allSome]
  | x :: xs, ys => by
    cases hf : f x with
    | none =>
      simp only [List.map_cons, hf, allSome, reduceCtorEq, false_iff]
      intro h
      cases ys with
      | nil => cases h
      | cons y ys =>
        simp only [List.map_cons, List.cons.injEq] at h
        rw [(he x y).2 h.1] at hf; cases hf
    | some y =>
      have hx := (he x y).1 hf
      simp only [List.map_cons, hf, allSome, Option.map_eq_some_iff]
      constructor
      · rintro ⟨zs, h, rfl⟩
        rw [(allSome_map_iff he).1 h, hx]; rfl
      · intro h
        cases ys with
        | nil => cases h
        | cons z zs =>
          simp only [List.map_cons, List.cons.injEq] at h
          have : y = z := by
            have := (he x z).2 h.1
            rw [hf, Option.some.injEq] at this; exact this
          subst this
          exact ⟨zs, (allSome_map_iff he).2 h.2, rfl⟩

theorem asCont_iff {c : Cls} {m : Md α} (x y : PyVal α) : asCont c m x = some y ↔ x = .cont c y m := by
  cases x <;> simp [asCont]
  grind

omit [DecidableEq α] in
theorem asData_iff {c : Cls} (x : PyVal α) (a : α) : asData c x = some a ↔ x = .data c a := by
  cases x <;> simp [asData]

/-- The values at the heads of tuples, and the rest. -/
theorem heads_split {X : Type} : ∀ {xss : List (List X)} {k : Nat}, (∀ zs ∈ xss, zs.length = k + 1) → ∃ us : List (X × List X),
    xss = us.map (fun u => u.1 :: u.2) ∧ xss.filterMap List.head? = us.map (·.1) ∧ xss.map List.tail = us.map (·.2)
  | [], _, _ => ⟨[], rfl, rfl, rfl⟩
  | [] :: xss, _, h => by have := h [] List.mem_cons_self; cases this
  | (x :: xs) :: xss, k, h => by
    obtain ⟨us, h1, h2, h3⟩ := heads_split (xss := xss) (k := k) fun zs hz => h zs (List.mem_cons_of_mem _ hz)
    exact ⟨(x, xs) :: us, by rw [h1]; rfl, by simp only [List.filterMap_cons, List.head?_cons, h2, List.map_cons], by
      simp only [List.map_cons, List.tail_cons, h3]⟩

mutual
theorem zipLeaves_tree {g : List α → Option α} : ∀ (v : PyVal α) {us : List (PyVal α)} {y : PyVal α}, v.zipLeaves g us = some y →
    TreeOf (fun as b => g as = some b) us y
  | .none, us, y, h => by
    simp only [PyVal.zipLeaves, Option.map_eq_some_iff] at h
    obtain ⟨zs, h, rfl⟩ := h
    rw [(allSome_map_iff (e := fun _ => .none) (by intro x y; cases x <;> simp [asNone])).1 h, List.map_const']
    exact .none _
  | .data c a, us, y, h => by
    simp only [PyVal.zipLeaves] at h
    split at h
    · cases h
    next as has =>
    obtain ⟨b, hb, rfl⟩ := Option.map_eq_some_iff.1 h
    rw [(allSome_map_iff asData_iff).1 has]
    exact .array hb
  | .cont c v m, us, y, h => by
    simp only [PyVal.zipLeaves] at h
    split at h
    · cases h
    next as has =>
    obtain ⟨b, hb, rfl⟩ := Option.map_eq_some_iff.1 h
    rw [(allSome_map_iff asCont_iff).1 has]
    exact .cont (zipLeaves_tree v hb)
  | .tup xs, us, y, h => by
    simp only [PyVal.zipLeaves] at h
    split at h
    · cases h
    next xss has =>
    obtain ⟨b, hb, rfl⟩ := Option.map_eq_some_iff.1 h
    have hus : us = xss.map .tup ∧ ∀ zs ∈ xss, zs.length = xs.length := by
      clear h hb
      induction us generalizing xss with
      | nil => cases has; exact ⟨rfl, by simp⟩
      | cons u us ih =>
        cases u <;> simp only [List.map_cons, asTup, allSome, reduceCtorEq] at has
        split at has
        · next hl =>
          simp only [allSome, Option.map_eq_some_iff] at has
          obtain ⟨zs, h1, rfl⟩ := has
          obtain ⟨h2, h3⟩ := ih zs h1
          exact ⟨by rw [h2]; rfl, by simpa [hl] using h3⟩
        · simp [allSome] at has
    rw [hus.1]
    exact zipLeavesL_tree xs hus.2 hb
  | .dict items, us, y, h => by
    simp only [PyVal.zipLeaves] at h
    split at h
    · cases h
    next xss has =>
    obtain ⟨b, hb, rfl⟩ := Option.map_eq_some_iff.1 h
    have hus : us = xss.map (fun zs => .dict ((items.map (·.1)).zip zs)) ∧ ∀ zs ∈ xss, zs.length = items.length := by
      clear h hb
      induction us generalizing xss with
      | nil => cases has; exact ⟨rfl, by simp⟩
      | cons u us ih =>
        cases u <;> simp only [List.map_cons, asDict, allSome, reduceCtorEq] at has
        split at has
        · next its hl =>
          simp only [allSome, Option.map_eq_some_iff] at has
          obtain ⟨zs, h1, rfl⟩ := has
          obtain ⟨h2, h3⟩ := ih zs h1
          have hz : (items.map (·.1)).zip (its.map (·.2)) = its := by rw [← hl, List.zip_map']; simp
          have hlen : its.length = items.length := by simpa using congrArg List.length hl
          exact ⟨by rw [h2]; simp [hz], by simpa [hlen] using h3⟩
        · simp [allSome] at has
    rw [hus.1]
    exact zipLeavesM_tree items hus.2 hb
  | .str _, _, _, h => by cases h
  | .cmeta _ _, _, _, h => by cases h
  | .tree _ _, _, _, h => by cases h
theorem zipLeavesL_tree {g : List α → Option α} : ∀ (xs : List (PyVal α)) {xss : List (List (PyVal α))} {ys : List (PyVal α)},
    (∀ zs ∈ xss, zs.length = xs.length) → zipLeavesL g xs xss = some ys → TreeOf (fun as b => g as = some b) (xss.map .tup) (.tup ys)
  | [], xss, ys, hl, h => by
    cases h
    have : xss = List.replicate xss.length [] := List.eq_replicate_iff.2 ⟨rfl, fun z hz => List.length_eq_zero_iff.1 (hl z hz)⟩
    rw [this, List.map_replicate]
    exact .tupNil _
  | x :: xs, xss, ys, hl, h => by
    obtain ⟨us, h1, h2, h3⟩ := heads_split (k := xs.length) hl
    simp only [zipLeavesL, h2, h3] at h
    split at h
    · next a b ha hb =>
      cases h
      subst h1
      rw [List.map_map]
      exact .tupCons (zipLeaves_tree x ha) (by
        have := zipLeavesL_tree xs (by
          intro zs hz
          obtain ⟨u, hu, rfl⟩ := List.mem_map.1 hz
          have := hl _ (List.mem_map_of_mem hu)
          simpa using this) hb
        rw [List.map_map] at this
        exact this)
    · cases h
theorem zipLeavesM_tree {g : List α → Option α} : ∀ (xs : List (Str × PyVal α)) {xss : List (List (PyVal α))} {ys : List (Str × PyVal α)},
    (∀ zs ∈ xss, zs.length = xs.length) → zipLeavesM g xs xss = some ys →
    TreeOf (fun as b => g as = some b) (xss.map fun zs => .dict ((xs.map (·.1)).zip zs)) (.dict ys)
  | [], xss, ys, hl, h => by
    cases h
    simp only [List.map_nil, List.zip_nil_left, List.map_const']
    exact .dictNil _
  | (n, x) :: xs, xss, ys, hl, h => by
    obtain ⟨us, h1, h2, h3⟩ := heads_split (k := xs.length) hl
    simp only [zipLeavesM, h2, h3] at h
    split at h
    · next a b ha hb =>
      cases h
      subst h1
      have ih := zipLeavesM_tree xs (by
          intro zs hz
          obtain ⟨u, hu, rfl⟩ := List.mem_map.1 hz
          have := hl _ (List.mem_map_of_mem hu)
          simpa using this) hb
      have := TreeOf.dictCons (name := n) (us := us.map fun u => (u.1, (xs.map (·.1)).zip u.2)) (g := fun as b => g as = some b)
        (by rw [List.map_map]; exact zipLeaves_tree x ha) (by rw [List.map_map] at ih ⊢; exact ih)
      rw [List.map_map] at this ⊢
      exact this
    · cases h
end

theorem tree_zipLeaves {g : List α → Option α} {us : List (PyVal α)} {y : PyVal α} (t : TreeOf (fun as b => g as = some b) us y) :
    ∀ v ∈ us, v.zipLeaves g us = some y := by
  induction t with
  | none n =>
    intro v hv
    have := List.eq_of_mem_replicate hv
    subst this
    have : allSome ((List.replicate n (PyVal.none : PyVal α)).map asNone) = some (List.replicate n ()) :=
      (allSome_map_iff (e := fun _ => .none) (by intro x y; cases x <;> simp [asNone])).2 (by simp)
    simp only [PyVal.zipLeaves, this, Option.map_some]
  | @array c as b hg =>
    intro v hv
    obtain ⟨a, _, rfl⟩ := List.mem_map.1 hv
    simp only [PyVal.zipLeaves, (allSome_map_iff (asData_iff (c := c))).2 rfl, hg, Option.map_some]
  | @cont c m us v t ih =>
    intro u hu
    obtain ⟨u, hu', rfl⟩ := List.mem_map.1 hu
    simp only [PyVal.zipLeaves, (allSome_map_iff (asCont_iff (c := c) (m := m))).2 rfl, ih u hu', Option.map_some]
  | tupNil n =>
    intro v hv
    have := List.eq_of_mem_replicate hv
    subst this
    have : allSome ((List.replicate n (PyVal.tup [] : PyVal α)).map (asTup 0)) = some (List.replicate n []) := by
      clear hv
      induction n with
      | zero => rfl
      | succ n ih =>
        rw [List.replicate_succ, List.map_cons, List.replicate_succ]
        simp only [asTup, List.length_nil, if_true, allSome] at ih ⊢
        rw [ih, Option.map_some]
    simp only [PyVal.zipLeaves, List.length_nil, this, zipLeavesL, Option.map_some]
  | @tupCons us v vs t ts ih ihs =>
    intro u hu
    obtain ⟨⟨x, xs⟩, hm, rfl⟩ := List.mem_map.1 hu
    have h1 := ih x (List.mem_map_of_mem (f := fun u => u.1) hm)
    have h2 := ihs (.tup xs) (List.mem_map_of_mem (f := fun u => PyVal.tup u.2) hm)
    simp only [PyVal.zipLeaves] at h2
    split at h2
    · cases h2
    next xss hxss =>
    obtain ⟨_, h2', hv⟩ := Option.map_eq_some_iff.1 h2
    cases hv
    have hxs : xss = us.map (·.2) ∧ ∀ u ∈ us, u.2.length = xs.length := by
      clear ih ihs t ts hu hm h1 h2 h2'
      induction us generalizing xss with
      | nil => cases hxss; exact ⟨rfl, by simp⟩
      | cons u us ih =>
        simp only [List.map_cons, asTup, allSome] at hxss
        split at hxss
        · next hl =>
          simp only [allSome, Option.map_eq_some_iff] at hxss
          obtain ⟨zs, h1, rfl⟩ := hxss
          obtain ⟨h3, h4⟩ := ih zs h1
          exact ⟨by rw [h3]; rfl, by simpa [hl] using h4⟩
        · simp [allSome] at hxss
    have hall : allSome ((us.map fun u => PyVal.tup (u.1 :: u.2)).map (asTup (x :: xs).length)) = some (us.map fun u => u.1 :: u.2) := by
      rw [List.map_map]
      have : ∀ us' : List (PyVal α × List (PyVal α)), (∀ u ∈ us', u.2.length = xs.length) →
          allSome (us'.map (asTup (x :: xs).length ∘ fun u => PyVal.tup (u.1 :: u.2))) = some (us'.map fun u => u.1 :: u.2) := by
        intro us' hl
        induction us' with
        | nil => rfl
        | cons u us' ih =>
          have := hl u List.mem_cons_self
          simp only [List.map_cons, Function.comp, asTup, List.length_cons, this, if_true, allSome] at ih ⊢
          rw [ih fun u hu => hl u (List.mem_cons_of_mem _ hu)]; rfl
      exact this us hxs.2
    have hh : (us.map fun u => u.1 :: u.2).filterMap List.head? = us.map (·.1) := by
      rw [List.filterMap_map]
      exact List.filterMap_eq_map' ▸ (by simp [Function.comp_def])
    have ht : (us.map fun u => u.1 :: u.2).map List.tail = us.map (·.2) := by simp [Function.comp_def]
    rw [hxs.1] at h2'
    simp only [PyVal.zipLeaves, hall, zipLeavesL, hh, ht, h1, h2', Option.map_some]
  | dictNil n =>
    intro v hv
    have := List.eq_of_mem_replicate hv
    subst this
    have : allSome ((List.replicate n (PyVal.dict [] : PyVal α)).map (asDict [])) = some (List.replicate n []) := by
      clear hv
      induction n with
      | zero => rfl
      | succ n ih =>
        rw [List.replicate_succ, List.map_cons, List.replicate_succ]
        simp only [asDict, List.map_nil, if_true, allSome] at ih ⊢
        rw [ih, Option.map_some]
    simp only [PyVal.zipLeaves, List.map_nil, this, zipLeavesM, Option.map_some]
  | @dictCons name us v vs t ts ih ihs =>
    intro u hu
    obtain ⟨⟨x, xs⟩, hm, rfl⟩ := List.mem_map.1 hu
    have h1 := ih x (List.mem_map_of_mem (f := fun u => u.1) hm)
    have h2 := ihs (.dict xs) (List.mem_map_of_mem (f := fun u => PyVal.dict u.2) hm)
    simp only [PyVal.zipLeaves] at h2
    split at h2
    · cases h2
    next xss hxss =>
    obtain ⟨_, h2', hv⟩ := Option.map_eq_some_iff.1 h2
    cases hv
    have hxs : xss = us.map (·.2.map (·.2)) ∧ ∀ u ∈ us, u.2.map (·.1) = xs.map (·.1) := by
      clear ih ihs t ts hu hm h1 h2 h2'
      induction us generalizing xss with
      | nil => cases hxss; exact ⟨rfl, by simp⟩
      | cons u us ih =>
        simp only [List.map_cons, asDict, allSome] at hxss
        split at hxss
        · next hl =>
          simp only [allSome, Option.map_eq_some_iff] at hxss
          obtain ⟨zs, h1, rfl⟩ := hxss
          obtain ⟨h3, h4⟩ := ih zs h1
          exact ⟨by rw [h3]; rfl, by
            intro u' hu'
            rcases List.mem_cons.1 hu' with rfl | h
            · exact hl
            · exact h4 u' h⟩
        · simp [allSome] at hxss
    have hall : allSome ((us.map fun u => PyVal.dict ((name, u.1) :: u.2)).map (asDict (((name, x) :: xs).map (·.1)))) =
        some (us.map fun u => u.1 :: u.2.map (·.2)) := by
      rw [List.map_map]
      have : ∀ us' : List (PyVal α × List (Str × PyVal α)), (∀ u ∈ us', u.2.map (·.1) = xs.map (·.1)) →
          allSome (us'.map (asDict (((name, x) :: xs).map (·.1)) ∘ fun u => PyVal.dict ((name, u.1) :: u.2))) =
            some (us'.map fun u => u.1 :: u.2.map (·.2)) := by
        intro us' hl
        induction us' with
        | nil => rfl
        | cons u us' ih =>
          have := hl u List.mem_cons_self
          simp only [List.map_cons, Function.comp, asDict, this, if_true, allSome] at ih ⊢
          rw [ih fun u hu => hl u (List.mem_cons_of_mem _ hu)]; rfl
      exact this us hxs.2
    have hh : (us.map fun u => u.1 :: u.2.map (·.2)).filterMap List.head? = us.map (·.1) := by
      rw [List.filterMap_map]
      exact List.filterMap_eq_map' ▸ (by simp [Function.comp_def])
    have ht : (us.map fun u => u.1 :: u.2.map (·.2)).map List.tail = us.map (·.2.map (·.2)) := by simp [Function.comp_def]
    rw [hxs.1] at h2'
    simp only [PyVal.zipLeaves, hall, zipLeavesM, hh, ht, h1, h2', Option.map_some]

theorem stackedVal_iff {R : Arrays α} {a : Int} {us : List (PyVal α)} {v : PyVal α} : StackedVal R a us v ↔ stackVals R a us = some v := by
  cases us with
  | nil => simp [StackedVal, stackVals]
  | cons u us =>
    constructor
    · rintro ⟨_, t⟩; exact tree_zipLeaves t u List.mem_cons_self
    · intro h; exact ⟨nofun, zipLeaves_tree u h⟩

theorem sameTree_iff {x y : PyVal α} : SameTree x y ↔ x.sameTree y = true := by
  constructor
  · rintro ⟨z, t⟩
    simp only [PyVal.sameTree, tree_zipLeaves t x List.mem_cons_self, Option.isSome_some]
  · intro h
    obtain ⟨z, hz⟩ := Option.isSome_iff_exists.1 h
    exact ⟨z, zipLeaves_tree x hz⟩

/-! ### The specification of scans in terms of the model's functions -/

section
variable {A : Type} {R : Arrays α} {o : ScanOptions α} {s : State (PyVal α)}

omit [DecidableEq α] in
theorem IsSlice.axes' {i : Nat} {inp : State (PyVal α)} (h : IsSlice R o s i inp) : ∀ k x (g : Nat) f a, s.get k = some x →
    o.variableAxes[g]? = some (f, a) → FirstMatch o.filters k x g → ∃ y, x.mapLeaves (R.index a i) = some y ∧ inp.get k = some y := by
  intro k x g f a h1 h2 h3
  obtain ⟨y, h4, h5⟩ := h.axes k x g f a h1 h2 h3
  exact ⟨y, sliceVal_iff.1 h4, h5⟩

theorem IsStacked.axes' {after : List (State (PyVal α))} {fin : State (PyVal α)} (h : IsStacked R o s after fin) : ∀ k x (g : Nat) f a,
    s.get k = some x → o.variableAxes[g]? = some (f, a) → FirstMatch o.filters k x g →
    ∃ v, stackVals R a (after.filterMap fun t => t.get k) = some v ∧ fin.get k = some v := by
  intro k x g f a h1 h2 h3
  obtain ⟨y, h4, h5⟩ := h.axes k x g f a h1 h2 h3
  exact ⟨y, stackedVal_iff.1 h4, h5⟩

theorem Uniform.arrays' {after : List (State (PyVal α))} (h : Uniform o s after) : ∀ t ∈ after, ∀ k, s.get k = none → (t.get k).isSome →
    ∃ k' y, s.get k' = none ∧ t.get k' = some y ∧ y.leaves ≠ some [] := by
  intro t ht k h1 h2
  obtain ⟨k', y, h3, h4, h5⟩ := h.arrays t ht k h1 h2
  exact ⟨k', y, h3, h4, fun e => h5 (noArrays_iff.2 e)⟩

theorem Uniform.trees' {after : List (State (PyVal α))} (h : Uniform o s after) : ∀ t ∈ s :: after, ∀ t' ∈ after, ∀ k x y, t.get k = some x →
    t'.get k = some y → FirstMatch o.filters k y (o.variableAxes.length + 1) → x.sameTree y = true :=
  fun t ht t' ht' k x y h1 h2 h3 => sameTree_iff.1 (h.trees t ht t' ht' k x y h1 h2 h3)

omit [DecidableEq α] in
theorem HasLength.leaves' {xs : Option (List A)} {n : Nat} (h : HasLength R o s xs n) : ∀ k x (g : Nat) f a, s.get k = some x →
    o.variableAxes[g]? = some (f, a) → FirstMatch o.filters k x g → ∃ ls, x.leaves = some ls ∧ ∀ y ∈ ls, R.size a y = some n :=
  fun k x g f a h1 h2 h3 => allArrays_iff.1 (h.leaves k x g f a h1 h2 h3)

omit [DecidableEq α] in
theorem HasLength.known' {xs : Option (List A)} {n : Nat} (h : HasLength R o s xs n) : o.length = some n ∨ xs ≠ none ∨ ∃ k x g f a y ls,
    s.get k = some x ∧ o.variableAxes[(g : Nat)]? = some (f, a) ∧ FirstMatch o.filters k x g ∧ x.leaves = some (y :: ls) := by
  rcases h.known with h1 | h1 | ⟨k, x, g, f, a, h1, h2, h3, h4⟩
  · exact .inl h1
  · exact .inr (.inl h1)
  · obtain ⟨ls, hls, _⟩ := h.leaves' k x g f a h1 h2 h3
    cases ls with
    | nil => exact absurd (noArrays_iff.2 hls) h4
    | cons y ls => exact .inr (.inr ⟨k, x, g, f, a, y, ls, h1, h2, h3, hls⟩)

omit [DecidableEq α] in
theorem HasLength.of_leaves {xs : Option (List A)} {n : Nat} (leaves : ∀ k x (g : Nat) f a, s.get k = some x →
      o.variableAxes[g]? = some (f, a) → FirstMatch o.filters k x g → ∃ ls, x.leaves = some ls ∧ ∀ y ∈ ls, R.size a y = some n)
    (arg : ∀ as, xs = some as → as.length = n) (option : ∀ m, o.length = some m → m = n)
    (known : o.length = some n ∨ xs ≠ none ∨ ∃ k x g f a y ls, s.get k = some x ∧ o.variableAxes[(g : Nat)]? = some (f, a) ∧
      FirstMatch o.filters k x g ∧ x.leaves = some (y :: ls)) : HasLength R o s xs n := by
  refine ⟨fun k x g f a h1 h2 h3 => allArrays_iff.2 (leaves k x g f a h1 h2 h3), arg, option, ?_⟩
  rcases known with h1 | h1 | ⟨k, x, g, f, a, y, ls, h1, h2, h3, h4⟩
  · exact .inl h1
  · exact .inr (.inl h1)
  · exact .inr (.inr ⟨k, x, g, f, a, h1, h2, h3, fun h => by rw [noArrays_iff.1 h] at h4; cases h4⟩)

end

end Nnx
