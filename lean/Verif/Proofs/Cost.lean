import Verif.Model.Cost
import Verif.Spec.Cost
import Verif.Proofs.Graph
/-
Counting and depth of the traversals.
-/
namespace Nnx
variable {α : Type}

theorem attrCount_of {h : Heap α} {l : Loc} {o : ModObj α} (e : h[l]? = some o) : attrCount h l = o.attrs.length := by
  simp [attrCount, e]

/-- Forget the counter of a traversal. -/
def dropCount {X Y : Type} (r : Option (X × Y × Nat)) : Option (X × Y) := r.map fun x => (x.1, x.2.1)

theorem countStateAttrs_drop {rec : Loc → List Nat → List Str → Option (List (Str × PyVal α) × List Nat × Nat)}
    {rec' : Loc → List Nat → List Str → Option (List (Str × PyVal α) × List Nat)}
    (hr : ∀ l S p, dropCount (rec l S p) = rec' l S p) : ∀ (as : List (Str × Attr α)) S p,
    dropCount (countStateAttrs rec as S p) = iterStateAttrs rec' as S p
  | [], S, p => by simp [countStateAttrs, iterStateAttrs, dropCount]
  | (n, .ref l) :: as, S, p => by
    rw [countStateAttrs, iterStateAttrs, ← hr]
    cases rec l S (p ++ [n]) with
    | none => rfl
    | some x =>
      obtain ⟨ys, S1, k⟩ := x
      have ih := countStateAttrs_drop hr as S1 p
      simp only [dropCount, Option.map_some] at ih ⊢
      rw [← ih]
      cases countStateAttrs rec as S1 p with
      | none => rfl
      | some y => rfl
  | (n, .val v) :: as, S, p => by
    rw [countStateAttrs, iterStateAttrs]
    have ih := countStateAttrs_drop hr as S p
    simp only [dropCount] at ih ⊢
    rw [← ih]
    cases countStateAttrs rec as S p with
    | none => rfl
    | some y =>
      simp only [Option.map_some]
      split <;> rfl

theorem countStateRec_drop (h : Heap α) : ∀ (f : Nat) l S p,
    dropCount (countStateRec h f l S p) = iterStateRec h f l S p
  | 0, _, _, _ => rfl
  | f + 1, l, S, p => by
    rw [countStateRec, iterStateRec]
    cases h[l]? with
    | none => rfl
    | some o =>
      simp only
      split
      · rfl
      · exact countStateAttrs_drop (countStateRec_drop h f) _ _ _

theorem countGetState_drop (h : Heap α) (f : Nat) (l : Loc) :
    (countGetState f h l).map (·.1) = getState f h l := by
  unfold countGetState getState
  rw [← countStateRec_drop]
  cases countStateRec h f l [] [] with
  | none => rfl
  | some x => rfl

theorem countDefAttrs_drop {rec : Loc → List Nat → Option ((Nat ⊕ ModuleDef α) × List Nat × Nat)}
    {rec' : Loc → List Nat → Option ((Nat ⊕ ModuleDef α) × List Nat)}
    (hr : ∀ l S, dropCount (rec l S) = rec' l S) : ∀ (as : List (Str × Attr α)) S,
    (countDefAttrs rec as S).map (fun x => (x.1, x.2.1, x.2.2.1)) = makeDefAttrs rec' as S
  | [], S => by simp [countDefAttrs, makeDefAttrs]
  | (n, .ref l) :: as, S => by
    rw [countDefAttrs, makeDefAttrs, ← hr]
    cases rec l S with
    | none => rfl
    | some x =>
      obtain ⟨ys, S1, k⟩ := x
      have ih := countDefAttrs_drop hr as S1
      simp only [dropCount, Option.map_some]
      rw [← ih]
      cases countDefAttrs rec as S1 with
      | none => rfl
      | some y => rfl
  | (n, .val v) :: as, S => by
    rw [countDefAttrs, makeDefAttrs]
    have ih := countDefAttrs_drop hr as S
    rw [← ih]
    cases countDefAttrs rec as S with
    | none => rfl
    | some y =>
      simp only [Option.map_some]
      split <;> rfl

theorem countDefRec_drop (h : Heap α) : ∀ (f : Nat) l S,
    dropCount (countDefRec h f l S) = makeDefRec h f l S
  | 0, _, _ => rfl
  | f + 1, l, S => by
    rw [countDefRec, makeDefRec]
    cases h[l]? with
    | none => rfl
    | some o =>
      simp only
      split
      · rfl
      · rw [← countDefAttrs_drop (countDefRec_drop h f)]
        cases countDefAttrs (countDefRec h f) (sortItems o.attrs) (S ++ [o.uid]) with
        | none => rfl
        | some x => rfl

theorem countGetModuleDef_drop (h : Heap α) (f : Nat) (l : Loc) :
    (countGetModuleDef f h l).map (·.1) = getModuleDef f h l := by
  unfold countGetModuleDef getModuleDef
  rw [← countDefRec_drop]
  cases countDefRec h f l [] with
  | none => rfl
  | some x =>
    obtain ⟨d, S, n⟩ := x
    cases d with
    | inl i => rfl
    | inr d => rfl

/-- The attributes of the visited Modules. -/
def visitCost (h : Heap α) (vs : List (Loc × List Str)) : Nat := (vs.map fun x => attrCount h x.1).sum

theorem Dfs.countState {h : Heap α} {f t S vs S'} (d : Dfs h sortItems f t S vs S') :
    match t with
    | .visit l p => ∃ ys, countStateRec h f l S p = some (ys, S', visitCost h vs)
    | .attrs as p => ∃ ys, countStateAttrs (countStateRec h f) as S p = some (ys, S', as.length + visitCost h vs) := by
  induction d with
  | seen e hu => exact ⟨[], by simp [countStateRec, e, hu, visitCost]⟩
  | visit e hu d ih =>
    obtain ⟨ys, hy⟩ := ih
    refine ⟨ys, ?_⟩
    simp only [countStateRec, e, hu, if_false, hy, visitCost, List.map_cons, List.sum_cons, attrCount_of e,
      (sortItems_perm _).length_eq]
  | nil => exact ⟨[], by simp [countStateAttrs, visitCost]⟩
  | @val f n v rest p S vs S' d ih =>
    obtain ⟨ys, hy⟩ := ih
    have e : rest.length + 1 + visitCost h vs = 1 + (rest.length + visitCost h vs) := by omega
    simp only [countStateAttrs, hy, List.length_cons, e]
    split
    · exact ⟨_, rfl⟩
    · exact ⟨_, rfl⟩
  | ref d1 d2 ih1 ih2 =>
    obtain ⟨ys, hy⟩ := ih1
    obtain ⟨zs, hz⟩ := ih2
    refine ⟨ys ++ zs, ?_⟩
    simp only [countStateAttrs, hy, hz, visitCost, List.map_append, List.sum_append, List.length_cons,
      Option.some.injEq, Prod.mk.injEq, true_and]
    omega

theorem Dfs.countDef {h : Heap α} {f t S vs S'} (d : Dfs h sortItems f t S vs S') :
    match t with
    | .visit l _ => ∃ d, countDefRec h f l S = some (d, S', visitCost h vs)
    | .attrs as _ => ∃ a b, countDefAttrs (countDefRec h f) as S = some (a, b, S', as.length + visitCost h vs) := by
  induction d with
  | seen e hu => exact ⟨_, by simp only [countDefRec, e, hu, if_true]; rfl⟩
  | @visit f l p S S' o vs e hu d ih =>
    obtain ⟨a, b, hy⟩ := ih
    refine ⟨.inr ⟨o.cls, S.length, a, b, o.isInit⟩, ?_⟩
    · simp only [countDefRec, e, hu, if_false, hy, visitCost, List.map_cons, List.sum_cons, attrCount_of e,
        (sortItems_perm _).length_eq]
  | nil => exact ⟨_, _, by simp only [countDefAttrs]; rfl⟩
  | @val f n v rest p S vs S' d ih =>
    obtain ⟨a, b, hy⟩ := ih
    have e : rest.length + 1 + visitCost h vs = 1 + (rest.length + visitCost h vs) := by omega
    by_cases hv : (!v.isNode && !isReserved n) = true
    · exact ⟨a, (n, v) :: b, by simp only [countDefAttrs, hy, hv, if_true, List.length_cons, e]⟩
    · exact ⟨a, b, by simp only [countDefAttrs, hy, List.length_cons, e]; rw [if_neg hv]⟩
  | @ref f n l rest p S vs S1 ws S2 d1 d2 ih1 ih2 =>
    obtain ⟨dd, hd⟩ := ih1
    obtain ⟨a, b, hz⟩ := ih2
    refine ⟨.cons n dd a, b, ?_⟩
    simp only [countDefAttrs, hd, hz, visitCost, List.map_append, List.sum_append, List.length_cons,
      Option.some.injEq, Prod.mk.injEq, true_and]
    omega

/-- A recursion budget larger than the number of visited Modules is enough. -/
theorem Dfs.shallow {h : Heap α} {ord f t S vs S'} (d : Dfs h ord f t S vs S') :
    ∀ {g : Nat}, vs.length < g → Dfs h ord g t S vs S' := by
  induction d with
  | seen e hu =>
    intro g hg
    cases g with
    | zero => simp at hg
    | succ g => exact .seen e hu
  | visit e hu d ih =>
    intro g hg
    cases g with
    | zero => simp at hg
    | succ g => exact .visit e hu (ih (Nat.lt_of_succ_lt_succ hg))
  | nil => intro g _; exact .nil
  | val d ih => intro g hg; exact .val (ih hg)
  | ref d1 d2 ih1 ih2 =>
    intro g hg
    rw [List.length_append] at hg
    exact .ref (ih1 (by omega)) (ih2 (by omega))

/-- The traversal of all Modules under a root, with any budget larger than their number. -/
theorem dfs_reachable {h : Heap α} (wf : WFHeap h) {root : Loc} (hroot : root < h.length) {mods : List Loc}
    (hm : Lists h root mods) :
    ∃ vs S', (∀ g, mods.length < g → Dfs h sortItems g (.visit root []) [] vs S') ∧ (vs.map (·.1)).Perm mods := by
  obtain ⟨vs, S', d⟩ := Dfs.exists wf isOrder_sort (h.length + 1) root [] [] hroot
    (Nat.lt_of_le_of_lt (unseen_le _ _) (Nat.lt_succ_self _))
  obtain ⟨h1, h2, _, _⟩ := d.complete wf isOrder_sort hroot
  have hp : (vs.map (·.1)).Perm mods := (List.perm_ext_iff_of_nodup h1 hm.1).2 fun a => (h2 a).trans (hm.2 a).symm
  refine ⟨vs, S', fun g hg => d.shallow ?_, hp⟩
  rw [← hp.length_eq, List.length_map] at hg
  exact hg

theorem visitCost_perm {h : Heap α} {vs : List (Loc × List Str)} {mods : List Loc} (hp : (vs.map (·.1)).Perm mods) :
    visitCost h vs = (mods.map (attrCount h)).sum := by
  rw [← (hp.map (attrCount h)).sum_nat]
  simp [visitCost, Function.comp_def]

end Nnx
