import Verif.Model.Ids
import Verif.Basic.Tactics
/-
C34: ids are unique.
-/
namespace Nnx

/-- The thread is inside the `with` block. -/
def IdPc.inside : IdPc → Bool
  | .idle => false
  | .wait => false
  | _ => true

structure IdInv (s : IdState) : Prop where
  mutex : ∀ t, (s.pc t).inside = true ↔ s.lock = some t
  bound : ∀ u ∈ s.returned, u.id ≤ s.counter
  loaded : ∀ t v, s.pc t = .loaded v → v = s.counter
  stored : ∀ t, s.pc t = .stored → ∀ u ∈ s.returned, u.id < s.counter
  ready : ∀ t u, s.pc t = .ready u → u.id = s.counter ∧ ∀ v ∈ s.returned, v.id < s.counter
  nodup : s.returned.Nodup

theorem IdInv.init : IdInv IdState.init := by
  refine ⟨?_, ?_, ?_, ?_, ?_, ?_⟩ <;> simp [IdState.init, IdPc.inside]

theorem IdInv.unique {s : IdState} (I : IdInv s) {t u : Nat} (h : (s.pc t).inside = true) (h' : (s.pc u).inside = true) : t = u := by
  have a := (I.mutex t).1 h
  have b := (I.mutex u).1 h'
  rw [a] at b
  exact Option.some.inj b

/-- A step that does not touch the counter, the returned ids, nor whether any thread is inside. -/
theorem IdInv.move {s : IdState} (I : IdInv s) {t : Nat} {p : IdPc} (hp : p.inside = (s.pc t).inside)
    (hl : ∀ v, p = .loaded v → v = s.counter) (hs : p = .stored → ∀ u ∈ s.returned, u.id < s.counter)
    (hr : ∀ u, p = .ready u → u.id = s.counter ∧ ∀ v ∈ s.returned, v.id < s.counter) :
    IdInv { s with pc := s.goto t p } := by
  refine ⟨?_, I.bound, ?_, ?_, ?_, I.nodup⟩
  · intro x
    simp only [IdState.goto]
    split
    · next e => subst e; rw [hp]; exact I.mutex x
    · exact I.mutex x
  · intro x v h
    simp only [IdState.goto] at h
    split at h
    · exact hl v h
    · exact I.loaded x v h
  · intro x h
    simp only [IdState.goto] at h
    split at h
    · exact hs h
    · exact I.stored x h
  · intro x u h
    simp only [IdState.goto] at h
    split at h
    · exact hr u h
    · exact I.ready x u h

/-- Leaving the block without a result. -/
theorem IdInv.leave {s : IdState} (I : IdInv s) {t : Nat} (ht : (s.pc t).inside = true) :
    IdInv { s with lock := none, pc := s.goto t .idle } := by
  have out : ∀ x, (s.goto t .idle x).inside = false := by
    intro x
    simp only [IdState.goto]
    split
    · rfl
    · next hne =>
      cases hx : (s.pc x).inside with
      | false => rfl
      | true => exact absurd (I.unique hx ht) hne
  refine ⟨fun x => by simp [out x], I.bound, ?_, ?_, ?_, I.nodup⟩
  · intro x v h
    have := out x
    simp only at h
    rw [h] at this
    cases this
  · intro x h
    have := out x
    simp only at h
    rw [h] at this
    cases this
  · intro x u h
    have := out x
    simp only at h
    rw [h] at this
    cases this

theorem IdInv.step {s : IdState} (I : IdInv s) (t : Nat) (a : IdAct) : IdInv (idStep t a s) := by
  cases a with
  | call k =>
    simp only [idStep]
    split
    · next h => exact I.move (by rw [h]; rfl) (by simp) (by simp) (by simp)
    · exact I
  | interrupt =>
    cases h : s.pc t with
    | idle => simp only [idStep, h]; exact I
    | wait => simp only [idStep, h]; exact I.move (by rw [h]; rfl) (by simp) (by simp) (by simp)
    | entered => simp only [idStep, h]; exact I.leave (by rw [h]; rfl)
    | loaded v => simp only [idStep, h]; exact I.leave (by rw [h]; rfl)
    | stored => simp only [idStep, h]; exact I.leave (by rw [h]; rfl)
    | ready u => simp only [idStep, h]; exact I.leave (by rw [h]; rfl)
  | run =>
    cases h : s.pc t with
    | idle => simp only [idStep, h]; exact I
    | wait =>
      cases hl : s.lock with
      | some u => simp only [idStep, h, hl]; exact I
      | none =>
        simp only [idStep, h, hl]
        have out : ∀ x, (s.pc x).inside = false := by
          intro x
          cases hx : (s.pc x).inside with
          | false => rfl
          | true => have := (I.mutex x).1 hx; rw [hl] at this; cases this
        refine ⟨?_, I.bound, ?_, ?_, ?_, I.nodup⟩
        · intro x
          simp only [IdState.goto, Option.some.injEq]
          split
          · next e => subst e; simp [IdPc.inside]
          · next e => simp only [out x, Bool.false_eq_true, false_iff]; exact fun e' => e e'.symm
        · intro x v hx
          simp only [IdState.goto] at hx
          split at hx
          · cases hx
          · exact I.loaded x v hx
        · intro x hx
          simp only [IdState.goto] at hx
          split at hx
          · cases hx
          · exact I.stored x hx
        · intro x u hx
          simp only [IdState.goto] at hx
          split at hx
          · cases hx
          · exact I.ready x u hx
    | entered =>
      simp only [idStep, h]
      exact I.move (by rw [h]; rfl) (fun v e => by cases e; rfl) (by simp) (by simp)
    | loaded v =>
      simp only [idStep, h]
      have hv := I.loaded t v h
      subst hv
      have others : ∀ x, x ≠ t → (s.pc x).inside = false := by
        intro x hx
        cases hi : (s.pc x).inside with
        | false => rfl
        | true => exact absurd (I.unique hi (by rw [h]; rfl)) hx
      refine ⟨?_, ?_, ?_, ?_, ?_, I.nodup⟩
      · intro x
        simp only [IdState.goto]
        split
        · next e => subst e; rw [← I.mutex x, h]; rfl
        · exact I.mutex x
      · intro u hu
        have := I.bound u hu
        simp only; omega
      · intro x w hx
        simp only [IdState.goto] at hx
        split at hx
        · cases hx
        · next e => have := others x e; rw [hx] at this; cases this
      · intro x _ u hu
        have := I.bound u hu
        simp only; omega
      · intro x u hx
        simp only [IdState.goto] at hx
        split at hx
        · cases hx
        · next e => have := others x e; rw [hx] at this; cases this
    | stored =>
      simp only [idStep, h]
      exact I.move (by rw [h]; rfl) (by simp) (by simp) (fun u e => by cases e; exact ⟨rfl, I.stored t h⟩)
    | ready u =>
      simp only [idStep, h]
      obtain ⟨hu, hlt⟩ := I.ready t u h
      have I2 := I.leave (t := t) (by rw [h]; rfl)
      have out : ∀ x, (s.goto t .idle x).inside = false := fun x => by
        cases hx : (s.goto t .idle x).inside with
        | false => rfl
        | true => have := (I2.mutex x).1 hx; cases this
      refine ⟨fun x => by simp [out x], ?_, ?_, ?_, ?_, ?_⟩
      · intro v hv
        rcases List.mem_cons.1 hv with rfl | hv
        · exact Nat.le_of_eq hu
        · exact I.bound v hv
      · intro x v hx
        have := out x; simp only at hx; rw [hx] at this; cases this
      · intro x hx
        have := out x; simp only at hx; rw [hx] at this; cases this
      · intro x v hx
        have := out x; simp only at hx; rw [hx] at this; cases this
      · refine List.nodup_cons.2 ⟨fun hm => ?_, I.nodup⟩
        have := hlt u hm
        omega

theorem IdInv.run : ∀ (sched : List (Nat × IdAct)) {s : IdState}, IdInv s → IdInv (idRun sched s) := by
  intro sched
  induction sched with
  | nil => intro s I; exact I
  | cons x xs ih => intro s I; exact ih (I.step x.1 x.2)

/-- C34. In every schedule of any number of threads that create and copy ids, with exceptions raised at any point, no two
calls return equal ids. -/
theorem C34_ids_unique (sched : List (Nat × IdAct)) : (idRun sched IdState.init).returned.Nodup :=
  (IdInv.init.run sched).nodup

/-- C34. A copy differs from every id returned before, in particular from the id that is copied. -/
theorem C34_copy_is_new (sched : List (Nat × IdAct)) (t : Nat) (a : IdAct) (u : UUID)
    (h : (idStep t a (idRun sched IdState.init)).returned = u :: (idRun sched IdState.init).returned) :
    u ∉ (idRun sched IdState.init).returned := by
  have := ((IdInv.init.run sched).step t a).nodup
  rw [h] at this
  exact (List.nodup_cons.1 this).1

/-- C34. A thread that holds the lock can always finish, so calls do return: from any reachable state in which a thread is
about to enter and the lock is free, running that thread returns a new id. -/
theorem C34_call_returns (sched : List (Nat × IdAct)) (t : Nat) (hw : (idRun sched IdState.init).pc t = .wait)
    (hl : (idRun sched IdState.init).lock = none) :
    (idRun (List.replicate 5 (t, .run)) (idRun sched IdState.init)).returned =
      ⟨(idRun sched IdState.init).counter + 1⟩ :: (idRun sched IdState.init).returned := by
  revert hw hl
  generalize idRun sched IdState.init = s
  intro hw hl
  simp [idRun, List.replicate, idStep, hl, hw, IdState.goto]

/-- Three threads, one of them interrupted while it holds the lock, one copying an id: the ids 2 and 3 are returned. -/
example : (idRun [(0, .call .new), (1, .call .new), (0, .run), (1, .run), (0, .run), (0, .run), (0, .interrupt),
    (1, .run), (1, .run), (1, .run), (2, .call (.copy ⟨2⟩)), (2, .run), (1, .run), (1, .run),
    (2, .run), (2, .run), (2, .run), (2, .run), (2, .run)] IdState.init).returned = [⟨3⟩, ⟨2⟩] := rfl

end Nnx
