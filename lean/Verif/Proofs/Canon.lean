import Verif.Proofs.Graph
import Verif.Spec.History
/-
Observationally equal graphs are traversed in lockstep.
-/
namespace Nnx
variable {α : Type}

/-- Attributes of corresponding modules that correspond. -/
inductive AttrRel (R : Loc → Loc → Prop) : Str × Attr α → Str × Attr α → Prop
  | val {n v} : AttrRel R (n, .val v) (n, .val v)
  | ref {n a b} : R a b → AttrRel R (n, .ref a) (n, .ref b)

/-- A correspondence of modules that respects classes, flags, attributes (in sorted order) and identity. -/
structure Sim (h h' : Heap α) (R : Loc → Loc → Prop) : Prop where
  obj : ∀ a b, R a b → ∃ o o', h[a]? = some o ∧ h'[b]? = some o' ∧ o.cls = o'.cls ∧ o.isInit = o'.isInit ∧
    List.Forall₂ (AttrRel R) (sortItems o.attrs) (sortItems o'.attrs)
  uid : ∀ a b c d, R a b → R c d → (uidAt h a = uidAt h c ↔ uidAt h' b = uidAt h' d)

/-- Ids of corresponding modules. -/
def IdRel (h h' : Heap α) (R : Loc → Loc → Prop) (u u' : Nat) : Prop :=
  ∃ a b, R a b ∧ uidAt h a = u ∧ uidAt h' b = u'

theorem Sim.mem {h h' : Heap α} {R : Loc → Loc → Prop} (s : Sim h h' R) {a b : Loc} (hab : R a b) {S S' : List Nat}
    (hS : List.Forall₂ (IdRel h h' R) S S') :
    (uidAt h a ∈ S ↔ uidAt h' b ∈ S') ∧ S.findIdx (· == uidAt h a) = S'.findIdx (· == uidAt h' b) := by
  induction hS with
  | nil => simp
  | @cons u u' S S' hu _ ih =>
    obtain ⟨c, d, hcd, rfl, rfl⟩ := hu
    have e := s.uid a b c d hab hcd
    constructor
    · simp only [List.mem_cons, e, ih.1]
    · simp only [List.findIdx_cons, ih.2]
      by_cases hc : uidAt h c = uidAt h a
      · have : uidAt h' d = uidAt h' b := (e.1 hc.symm).symm
        rw [beq_iff_eq.2 hc, beq_iff_eq.2 this]
      · have : ¬ uidAt h' d = uidAt h' b := fun h => hc (e.2 h.symm).symm
        rw [beq_eq_false_iff_ne.2 hc, beq_eq_false_iff_ne.2 this]

theorem Sim.makeDefAttrs {h h' : Heap α} {R : Loc → Loc → Prop} {f f' : Nat}
    (ih : ∀ a b S S' d d' T T', R a b → List.Forall₂ (IdRel h h' R) S S' → makeDefRec h f a S = some (d, T) →
      makeDefRec h' f' b S' = some (d', T') → d = d' ∧ List.Forall₂ (IdRel h h' R) T T')
    {as bs : List (Str × Attr α)} (hab : List.Forall₂ (AttrRel R) as bs) :
    ∀ S S' subs subs' st st' T T', List.Forall₂ (IdRel h h' R) S S' →
      makeDefAttrs (makeDefRec h f) as S = some (subs, st, T) →
      makeDefAttrs (makeDefRec h' f') bs S' = some (subs', st', T') →
      subs = subs' ∧ st = st' ∧ List.Forall₂ (IdRel h h' R) T T' := by
  induction hab with
  | nil =>
    intro S S' subs subs' st st' T T' hS e e'
    simp only [Nnx.makeDefAttrs, Option.some.injEq, Prod.mk.injEq] at e e'
    obtain ⟨rfl, rfl, rfl⟩ := e
    obtain ⟨rfl, rfl, rfl⟩ := e'
    exact ⟨rfl, rfl, hS⟩
  | cons hx _ ihl =>
    intro S S' subs subs' st st' T T' hS e e'
    cases hx with
    | val =>
      simp only [Nnx.makeDefAttrs] at e e'
      split at e
      · cases e
      next s1 t1 i1 h1 =>
      split at e'
      · cases e'
      next s2 t2 i2 h2 =>
      obtain ⟨rfl, rfl, hT⟩ := ihl _ _ _ _ _ _ _ _ hS h1 h2
      split at e
      · next hc =>
        rw [if_pos hc] at e'
        cases e; cases e'
        exact ⟨rfl, rfl, hT⟩
      · next hc =>
        rw [if_neg hc] at e'
        cases e; cases e'
        exact ⟨rfl, rfl, hT⟩
    | ref hr =>
      simp only [Nnx.makeDefAttrs] at e e'
      split at e
      · cases e
      next d1 j1 g1 =>
      split at e'
      · cases e'
      next d2 j2 g2 =>
      obtain ⟨rfl, hJ⟩ := ih _ _ _ _ _ _ _ _ hr hS g1 g2
      split at e
      · cases e
      next s1 t1 i1 h1 =>
      split at e'
      · cases e'
      next s2 t2 i2 h2 =>
      obtain ⟨rfl, rfl, hT⟩ := ihl _ _ _ _ _ _ _ _ hJ h1 h2
      cases e; cases e'
      exact ⟨rfl, rfl, hT⟩

theorem Sim.makeDef {h h' : Heap α} {R : Loc → Loc → Prop} (s : Sim h h' R) : ∀ (f f' : Nat) a b S S' d d' T T',
    R a b → List.Forall₂ (IdRel h h' R) S S' → makeDefRec h f a S = some (d, T) →
    makeDefRec h' f' b S' = some (d', T') → d = d' ∧ List.Forall₂ (IdRel h h' R) T T' := by
  intro f
  induction f with
  | zero => intro f' a b S S' d d' T T' _ _ e; simp [makeDefRec] at e
  | succ f ihf =>
    intro f'
    cases f' with
    | zero => intro a b S S' d d' T T' _ _ _ e; simp [makeDefRec] at e
    | succ f' =>
      intro a b S S' d d' T T' hab hS e e'
      obtain ⟨o, o', ho, ho', hc, hi, hat⟩ := s.obj a b hab
      have hm := s.mem hab hS
      rw [uidAt_of ho, uidAt_of ho'] at hm
      simp only [makeDefRec, ho, ho'] at e e'
      by_cases hu : o.uid ∈ S
      · rw [if_pos hu] at e
        rw [if_pos (hm.1.1 hu)] at e'
        cases e; cases e'
        exact ⟨by rw [hm.2], hS⟩
      · rw [if_neg hu] at e
        rw [if_neg (fun x => hu (hm.1.2 x))] at e'
        split at e
        · cases e
        next s1 t1 i1 h1 =>
        split at e'
        · cases e'
        next s2 t2 i2 h2 =>
        have hS2 : List.Forall₂ (IdRel h h' R) (S ++ [o.uid]) (S' ++ [o'.uid]) :=
          List.rel_append hS (.cons ⟨a, b, hab, uidAt_of ho, uidAt_of ho'⟩ .nil)
        obtain ⟨rfl, rfl, hT⟩ := Sim.makeDefAttrs (ihf f') hat _ _ _ _ _ _ _ _ hS2 h1 h2
        cases e; cases e'
        exact ⟨by rw [hc, hi, hS.length_eq], hT⟩

theorem Sim.iterStateAttrs {h h' : Heap α} {R : Loc → Loc → Prop} {f f' : Nat}
    (ih : ∀ a b S S' p d d' T T', R a b → List.Forall₂ (IdRel h h' R) S S' → iterStateRec h f a S p = some (d, T) →
      iterStateRec h' f' b S' p = some (d', T') → d = d' ∧ List.Forall₂ (IdRel h h' R) T T')
    {as bs : List (Str × Attr α)} (hab : List.Forall₂ (AttrRel R) as bs) :
    ∀ S S' p d d' T T', List.Forall₂ (IdRel h h' R) S S' →
      iterStateAttrs (iterStateRec h f) as S p = some (d, T) →
      iterStateAttrs (iterStateRec h' f') bs S' p = some (d', T') →
      d = d' ∧ List.Forall₂ (IdRel h h' R) T T' := by
  induction hab with
  | nil =>
    intro S S' p d d' T T' hS e e'
    simp only [Nnx.iterStateAttrs, Option.some.injEq, Prod.mk.injEq] at e e'
    obtain ⟨rfl, rfl⟩ := e
    obtain ⟨rfl, rfl⟩ := e'
    exact ⟨rfl, hS⟩
  | cons hx _ ihl =>
    intro S S' p d d' T T' hS e e'
    cases hx with
    | val =>
      simp only [Nnx.iterStateAttrs] at e e'
      split at e
      · cases e
      next s1 i1 h1 =>
      split at e'
      · cases e'
      next s2 i2 h2 =>
      obtain ⟨rfl, hT⟩ := ihl _ _ _ _ _ _ _ hS h1 h2
      split at e
      · next hc =>
        rw [if_pos hc] at e'
        cases e; cases e'
        exact ⟨rfl, hT⟩
      · next hc =>
        rw [if_neg hc] at e'
        cases e; cases e'
        exact ⟨rfl, hT⟩
    | ref hr =>
      simp only [Nnx.iterStateAttrs] at e e'
      split at e
      · cases e
      next d1 j1 g1 =>
      split at e'
      · cases e'
      next d2 j2 g2 =>
      obtain ⟨rfl, hJ⟩ := ih _ _ _ _ _ _ _ _ _ hr hS g1 g2
      split at e
      · cases e
      next s1 i1 h1 =>
      split at e'
      · cases e'
      next s2 i2 h2 =>
      obtain ⟨rfl, hT⟩ := ihl _ _ _ _ _ _ _ hJ h1 h2
      cases e; cases e'
      exact ⟨rfl, hT⟩

theorem Sim.iterState {h h' : Heap α} {R : Loc → Loc → Prop} (s : Sim h h' R) : ∀ (f f' : Nat) a b S S' p d d' T T',
    R a b → List.Forall₂ (IdRel h h' R) S S' → iterStateRec h f a S p = some (d, T) →
    iterStateRec h' f' b S' p = some (d', T') → d = d' ∧ List.Forall₂ (IdRel h h' R) T T' := by
  intro f
  induction f with
  | zero => intro f' a b S S' p d d' T T' _ _ e; simp [iterStateRec] at e
  | succ f ihf =>
    intro f'
    cases f' with
    | zero => intro a b S S' p d d' T T' _ _ _ e; simp [iterStateRec] at e
    | succ f' =>
      intro a b S S' p d d' T T' hab hS e e'
      obtain ⟨o, o', ho, ho', hc, hi, hat⟩ := s.obj a b hab
      have hm := s.mem hab hS
      rw [uidAt_of ho, uidAt_of ho'] at hm
      simp only [iterStateRec, ho, ho'] at e e'
      by_cases hu : o.uid ∈ S
      · rw [if_pos hu] at e
        rw [if_pos (hm.1.1 hu)] at e'
        cases e; cases e'
        exact ⟨rfl, hS⟩
      · rw [if_neg hu] at e
        rw [if_neg (fun x => hu (hm.1.2 x))] at e'
        have hS2 : List.Forall₂ (IdRel h h' R) (S ++ [o.uid]) (S' ++ [o'.uid]) :=
          List.rel_append hS (.cons ⟨a, b, hab, uidAt_of ho, uidAt_of ho'⟩ .nil)
        exact Sim.iterStateAttrs (ihf f') hat _ _ _ _ _ _ _ hS2 e e'

/-- Strictly sorted lists whose entries correspond key by key correspond element by element. -/
theorem forall₂_of_sorted {A B : Type _} {Q : Str × A → Str × B → Prop} {d : List (Str × A)} {e : List (Str × B)}
    (hd : StrictSorted d) (he : StrictSorted e)
    (hQ : ∀ k, match dget d k, dget e k with
      | none, none => True
      | some x, some y => Q (k, x) (k, y)
      | _, _ => False) : List.Forall₂ Q d e := by
  have hk : d.map (fun kv => (kv.1, ())) = e.map (fun kv => (kv.1, ())) := by
    have sd : StrictSorted (d.map (fun kv => (kv.1, ()))) := by
      unfold StrictSorted at *; rw [List.pairwise_map]; exact hd
    have se : StrictSorted (e.map (fun kv => (kv.1, ()))) := by
      unfold StrictSorted at *; rw [List.pairwise_map]; exact he
    apply sd.ext se
    intro k
    have h1 := dget_map_val (fun (_ : Str) (_ : A) => ()) d k
    have h2 := dget_map_val (fun (_ : Str) (_ : B) => ()) e k
    rw [h1, h2]
    have := hQ k
    revert this
    cases dget d k <;> cases dget e k <;> simp
  have hQ' : ∀ x ∈ d, ∀ y ∈ e, x.1 = y.1 → Q x y := by
    rintro ⟨k, x⟩ hx ⟨k', y⟩ hy rfl
    have := hQ k
    rw [mem_dget hd.nodup hx, mem_dget he.nodup hy] at this
    exact this
  clear hQ hd he
  induction d generalizing e with
  | nil =>
    cases e with
    | nil => exact .nil
    | cons _ _ => simp at hk
  | cons x d ih =>
    cases e with
    | nil => simp at hk
    | cons y e =>
      simp only [List.map_cons, List.cons.injEq, Prod.mk.injEq, and_true] at hk
      exact .cons (hQ' x List.mem_cons_self y List.mem_cons_self hk.1)
        (ih hk.2 (fun a ha b hb => hQ' a (List.mem_cons_of_mem _ ha) b (List.mem_cons_of_mem _ hb)))

end Nnx
