import Verif.Model.State
/-
Independent specification of what a filter means, and of the histories that produce States.
-/
namespace Nnx

variable {α : Type}

mutual
/-- What it means for a filter to match an entry, read off the documentation:
a class matches its instances, `...` everything, `None` nothing, a tuple (or `Any`) a union,
`All` an intersection, `Not` a complement. -/
def Filter.Matches : Filter α → Str → PyVal α → Prop
  | .ofType c, _, v => v.isInstance c = true
  | .ellipsis, _, _ => True
  | .pred p, k, v => p k v = true
  | .tup fs, k, v => SomeMatches fs k v
  | .any fs, k, v => SomeMatches fs k v
  | .all fs, k, v => AllMatch fs k v
  | .not f, k, v => ¬ f.Matches k v
  | .none, _, _ => False
  | .str _, _, _ => False
  | .invalid _, _, _ => False
def SomeMatches : List (Filter α) → Str → PyVal α → Prop
  | [], _, _ => False
  | f :: fs, k, v => f.Matches k v ∨ SomeMatches fs k v
def AllMatch : List (Filter α) → Str → PyVal α → Prop
  | [], _, _ => True
  | f :: fs, k, v => f.Matches k v ∧ AllMatch fs k v
end

mutual
/-- A filter is well formed when no string and no other non-filter object occurs in it. -/
def Filter.WellFormed : Filter α → Prop
  | .str _ => False
  | .invalid _ => False
  | .tup fs => AllWellFormed fs
  | .any fs => AllWellFormed fs
  | .all fs => AllWellFormed fs
  | .not f => f.WellFormed
  | .ofType _ => True
  | .ellipsis => True
  | .none => True
  | .pred _ => True
def AllWellFormed : List (Filter α) → Prop
  | [] => True
  | f :: fs => f.WellFormed ∧ AllWellFormed fs
end

theorem SomeMatches_iff {fs : List (Filter α)} {k : Str} {v : PyVal α} :
    SomeMatches fs k v ↔ ∃ f ∈ fs, f.Matches k v := by
  induction fs with
  | nil => simp [SomeMatches]
  | cons f fs ih => simp [SomeMatches, ih]

theorem AllMatch_iff {fs : List (Filter α)} {k : Str} {v : PyVal α} :
    AllMatch fs k v ↔ ∀ f ∈ fs, f.Matches k v := by
  induction fs with
  | nil => simp [AllMatch]
  | cons f fs ih => simp [AllMatch, ih]

theorem AllWellFormed_iff {fs : List (Filter α)} :
    AllWellFormed fs ↔ ∀ f ∈ fs, f.WellFormed := by
  induction fs with
  | nil => simp [AllWellFormed]
  | cons f fs ih => simp [AllWellFormed, ih]

/-- The truth value a filter yields on an entry when the code converts and calls it; `none` if the
conversion raises. -/
def Filter.test (f : Filter α) (k : Str) (v : PyVal α) : Option Bool :=
  match toPredicate f with
  | .ok p => some (p k v)
  | .error _ => Option.none

/-- Filter number `i` is the first one in the list that matches the entry. -/
def FirstMatch (filters : List (Filter α)) (k : Str) (v : PyVal α) (i : Nat) : Prop :=
  (∃ f, filters[i]? = some f ∧ f.Matches k v) ∧
  ∀ j < i, ∀ g, filters[j]? = some g → ¬ g.Matches k v

/-- The States a program can get hold of: by construction from arbitrary pairs, by `partition`,
`filter`, `merge`, `|`, `-`, and by JAX rebuilding one of them with other leaves. -/
inductive Obtainable : State (PyVal α) → Prop
  | new (input : List (Str × PyVal α)) : Obtainable (.new input)
  | partition {s fs ss t} : Obtainable s → s.partition fs = .ok ss → t ∈ ss → Obtainable t
  | filter {s fs ss t} : Obtainable s → s.filter fs = .ok ss → t ∈ ss → Obtainable t
  | merge {s ss} : Obtainable s → (∀ t ∈ ss, Obtainable t) → Obtainable (s.merge ss)
  | or {s t} : Obtainable s → Obtainable t → Obtainable (s.or t)
  | sub {s t} : Obtainable s → Obtainable t → Obtainable (s.sub t)
  | unflatten {s} (leaves : List (PyVal α)) : Obtainable s → leaves.length = s.flatten.1.length →
      Obtainable (State.unflatten s.flatten.2 leaves)

end Nnx
