import Verif.Proofs.Programs
/-
Traversals of corresponding module graphs succeed with the same recursion limit.
-/
namespace Nnx
variable {α : Type}

/-! ### Partitioning with the same recursion limit -/

theorem Sim.iterStateAttrs_some {h h' : Heap α} {R : Loc → Loc → Prop} (s : Sim h h' R) {f : Nat}
    (ih : ∀ a b S S' p d T, R a b → List.Forall₂ (IdRel h h' R) S S' → iterStateRec h f a S p = some (d, T) →
      ∃ d' T', iterStateRec h' f b S' p = some (d', T'))
    {as bs : List (Str × Attr α)} (hab : List.Forall₂ (AttrRel R) as bs) :
    ∀ S S' p d T, List.Forall₂ (IdRel h h' R) S S' → Nnx.iterStateAttrs (iterStateRec h f) as S p = some (d, T) →
      ∃ d' T', Nnx.iterStateAttrs (iterStateRec h' f) bs S' p = some (d', T') := by
  induction hab with
  | nil => exact fun S S' p d T hS e => ⟨_, _, rfl⟩
  | cons hx _ ihl =>
    intro S S' p d T hS e
    cases hx with
    | val =>
      simp only [Nnx.iterStateAttrs] at e ⊢
      split at e
      · cases e
      next s1 i1 h1 =>
      obtain ⟨d', T', h2⟩ := ihl _ _ _ _ _ hS h1
      rw [h2]
      simp only
      split <;> exact ⟨_, _, rfl⟩
    | ref hr =>
      simp only [Nnx.iterStateAttrs] at e ⊢
      split at e
      · cases e
      next d1 j1 g1 =>
      obtain ⟨d2, j2, g2⟩ := ih _ _ _ _ _ _ _ hr hS g1
      obtain ⟨_, hJ⟩ := s.iterState _ _ _ _ _ _ _ _ _ _ _ hr hS g1 g2
      rw [g2]
      simp only
      split at e
      · cases e
      next s1 i1 h1 =>
      obtain ⟨d', T', h2⟩ := ihl _ _ _ _ _ hJ h1
      rw [h2]
      exact ⟨_, _, rfl⟩

theorem Sim.iterState_some {h h' : Heap α} {R : Loc → Loc → Prop} (s : Sim h h' R) : ∀ (f : Nat) a b S S' p d T,
    R a b → List.Forall₂ (IdRel h h' R) S S' → iterStateRec h f a S p = some (d, T) →
    ∃ d' T', iterStateRec h' f b S' p = some (d', T') := by
  intro f
  induction f with
  | zero => intro a b S S' p d T _ _ e; simp [iterStateRec] at e
  | succ f ihf =>
    intro a b S S' p d T hab hS e
    obtain ⟨o, o', ho, ho', hc, hi, hat⟩ := s.obj a b hab
    have hm := s.mem hab hS
    rw [uidAt_of ho, uidAt_of ho'] at hm
    simp only [iterStateRec, ho, ho'] at e ⊢
    by_cases hu : o.uid ∈ S
    · rw [if_pos (hm.1.1 hu)]; exact ⟨_, _, rfl⟩
    · rw [if_neg hu] at e
      rw [if_neg (fun x => hu (hm.1.2 x))]
      have hS2 : List.Forall₂ (IdRel h h' R) (S ++ [o.uid]) (S' ++ [o'.uid]) :=
        List.rel_append hS (.cons ⟨a, b, hab, uidAt_of ho, uidAt_of ho'⟩ .nil)
      exact s.iterStateAttrs_some ihf hat _ _ _ _ _ hS2 e

theorem Sim.makeDefAttrs_some {h h' : Heap α} {R : Loc → Loc → Prop} (s : Sim h h' R) {f : Nat}
    (ih : ∀ a b S S' d T, R a b → List.Forall₂ (IdRel h h' R) S S' → makeDefRec h f a S = some (d, T) →
      ∃ d' T', makeDefRec h' f b S' = some (d', T'))
    {as bs : List (Str × Attr α)} (hab : List.Forall₂ (AttrRel R) as bs) :
    ∀ S S' r, List.Forall₂ (IdRel h h' R) S S' → Nnx.makeDefAttrs (makeDefRec h f) as S = some r →
      ∃ r', Nnx.makeDefAttrs (makeDefRec h' f) bs S' = some r' := by
  induction hab with
  | nil => exact fun S S' r hS e => ⟨_, rfl⟩
  | cons hx _ ihl =>
    intro S S' r hS e
    cases hx with
    | val =>
      simp only [Nnx.makeDefAttrs] at e ⊢
      split at e
      · cases e
      next s1 t1 i1 h1 =>
      obtain ⟨⟨_, _, _⟩, h2⟩ := ihl _ _ _ hS h1
      rw [h2]
      simp only
      split <;> exact ⟨_, rfl⟩
    | ref hr =>
      simp only [Nnx.makeDefAttrs] at e ⊢
      split at e
      · cases e
      next d1 j1 g1 =>
      obtain ⟨d2, j2, g2⟩ := ih _ _ _ _ _ _ hr hS g1
      obtain ⟨_, hJ⟩ := s.makeDef _ _ _ _ _ _ _ _ _ _ hr hS g1 g2
      rw [g2]
      simp only
      split at e
      · cases e
      next s1 i1 h1 =>
      obtain ⟨⟨_, _, _⟩, h2⟩ := ihl _ _ _ hJ h1
      rw [h2]
      exact ⟨_, rfl⟩

theorem Sim.makeDef_some {h h' : Heap α} {R : Loc → Loc → Prop} (s : Sim h h' R) : ∀ (f : Nat) a b S S' d T,
    R a b → List.Forall₂ (IdRel h h' R) S S' → makeDefRec h f a S = some (d, T) →
    ∃ d' T', makeDefRec h' f b S' = some (d', T') := by
  intro f
  induction f with
  | zero => intro a b S S' d T _ _ e; simp [makeDefRec] at e
  | succ f ihf =>
    intro a b S S' d T hab hS e
    obtain ⟨o, o', ho, ho', hc, hi, hat⟩ := s.obj a b hab
    have hm := s.mem hab hS
    rw [uidAt_of ho, uidAt_of ho'] at hm
    simp only [makeDefRec, ho, ho'] at e ⊢
    by_cases hu : o.uid ∈ S
    · rw [if_pos (hm.1.1 hu)]; exact ⟨_, _, rfl⟩
    · rw [if_neg hu] at e
      rw [if_neg (fun x => hu (hm.1.2 x))]
      have hS2 : List.Forall₂ (IdRel h h' R) (S ++ [o.uid]) (S' ++ [o'.uid]) :=
        List.rel_append hS (.cons ⟨a, b, hab, uidAt_of ho, uidAt_of ho'⟩ .nil)
      split at e
      · cases e
      next h1 =>
      obtain ⟨⟨_, _, _⟩, h2⟩ := s.makeDefAttrs_some ihf hat _ _ _ hS2 h1
      rw [h2]
      exact ⟨_, _, rfl⟩

theorem Sim.getState_some {h h' : Heap α} {R : Loc → Loc → Prop} (s : Sim h h' R) {a b : Loc} (hab : R a b) {k : Nat}
    {t : State (PyVal α)} (e : getState k h a = some t) : getState k h' b = some t := by
  unfold getState at e ⊢
  split at e
  · cases e
  next h1 =>
  obtain ⟨d', T', h2⟩ := s.iterState_some _ _ _ _ _ _ _ _ hab .nil h1
  rw [h2]
  cases e
  rw [(s.iterState _ _ _ _ _ _ _ _ _ _ _ hab .nil h1 h2).1]

theorem Sim.getModuleDef_some {h h' : Heap α} {R : Loc → Loc → Prop} (s : Sim h h' R) {a b : Loc} (hab : R a b) {k : Nat}
    {d : ModuleDef α} (e : getModuleDef k h a = some d) : getModuleDef k h' b = some d := by
  unfold getModuleDef at e ⊢
  split at e
  swap
  · cases e
  next h1 =>
  obtain ⟨d', T', h2⟩ := s.makeDef_some _ _ _ _ _ _ _ hab .nil h1
  have := (s.makeDef _ _ _ _ _ _ _ _ _ _ hab .nil h1 h2).1
  subst this
  rw [h2]
  exact e

theorem Bisim.sim {S : Loc → Prop} {f : Loc → Loc} {w w' : World α} (B : Bisim S f w w') (wf : WFHeap w.heap)
    (wf' : WFHeap w'.heap) {a : Loc} (ha : S a) :
    Sim w.heap w'.heap (fun x y => ∃ p, Walk w.heap a p x ∧ Walk w'.heap (f a) p y) :=
  ((B.iso ha).sameGraph wf (B.lt ha).1).sim wf wf' (B.lt ha).1 (B.lt ha).2

/-- Whatever limit suffices for a module suffices for a corresponding one. -/
theorem Bisim.getState_of {S : Loc → Prop} {f : Loc → Loc} {w w' : World α} (B : Bisim S f w w') (wf : WFHeap w.heap)
    (wf' : WFHeap w'.heap) {a : Loc} (ha : S a) {k : Nat} {t : State (PyVal α)} (e : Nnx.getState k w.heap a = some t) :
    Nnx.getState k w'.heap (f a) = some t :=
  (B.sim wf wf' ha).getState_some ⟨[], .here (B.lt ha).1, .here (B.lt ha).2⟩ e

/-- Whatever limit suffices for the state suffices for the definition. -/
theorem getModuleDef_of_getState {h : Heap α} {l : Loc} {k : Nat} {s : State (PyVal α)}
    (e : getState k h l = some s) : ∃ d, getModuleDef k h l = some d := by
  unfold getState at e
  split at e
  · cases e
  next h1 =>
  obtain ⟨vs, D, _⟩ := iterStateRec_dfs h k _ _ _ _ _ h1
  obtain ⟨m, hm⟩ := D.makeDef
  unfold getModuleDef
  rw [hm]
  cases m with
  | inr m => exact ⟨m, rfl⟩
  | inl i =>
    exfalso
    cases k with
    | zero => simp [makeDefRec] at hm
    | succ k =>
      rw [makeDefRec] at hm
      split at hm
      · cases hm
      · simp only [List.not_mem_nil, if_false] at hm
        split at hm <;> simp at hm

end Nnx
