import Verif.Spec.FilterErrors
import Verif.Props.State
/-
C09: what malformed filters raise.
-/
namespace Nnx
variable {α : Type}

mutual
theorem toPredicate_faults : ∀ (f : Filter α),
    (f.faults = [] ∧ ∃ p, toPredicate f = .ok p) ∨ (∃ e es, f.faults = e :: es ∧ toPredicate f = .error e)
  | .str _ => .inr ⟨_, _, rfl, rfl⟩
  | .invalid _ => .inr ⟨_, _, rfl, rfl⟩
  | .ofType _ => .inl ⟨rfl, _, rfl⟩
  | .ellipsis => .inl ⟨rfl, _, rfl⟩
  | .none => .inl ⟨rfl, _, rfl⟩
  | .pred _ => .inl ⟨rfl, _, rfl⟩
  | .tup fs => by
    rcases toPredicates_faults fs with ⟨h, p, e⟩ | ⟨e, es, h, h'⟩
    · exact .inl ⟨h, _, by simp [toPredicate, e, Except.map]; rfl⟩
    · exact .inr ⟨e, es, h, by simp [toPredicate, h', Except.map]⟩
  | .any fs => by
    rcases toPredicates_faults fs with ⟨h, p, e⟩ | ⟨e, es, h, h'⟩
    · exact .inl ⟨h, _, by simp [toPredicate, e, Except.map]; rfl⟩
    · exact .inr ⟨e, es, h, by simp [toPredicate, h', Except.map]⟩
  | .all fs => by
    rcases toPredicates_faults fs with ⟨h, p, e⟩ | ⟨e, es, h, h'⟩
    · exact .inl ⟨h, _, by simp [toPredicate, e, Except.map]; rfl⟩
    · exact .inr ⟨e, es, h, by simp [toPredicate, h', Except.map]⟩
  | .not f => by
    rcases toPredicate_faults f with ⟨h, p, e⟩ | ⟨e, es, h, h'⟩
    · exact .inl ⟨h, _, by simp [toPredicate, e, Except.map]; rfl⟩
    · exact .inr ⟨e, es, h, by simp [toPredicate, h', Except.map]⟩
theorem toPredicates_faults : ∀ (fs : List (Filter α)),
    (allFaults fs = [] ∧ ∃ ps, toPredicates fs = .ok ps) ∨ (∃ e es, allFaults fs = e :: es ∧ toPredicates fs = .error e)
  | [] => .inl ⟨rfl, _, rfl⟩
  | f :: fs => by
    rcases toPredicate_faults f with ⟨h, p, e⟩ | ⟨e, es, h, h'⟩
    · rcases toPredicates_faults fs with ⟨h2, ps, e2⟩ | ⟨e2, es, h2, h2'⟩
      · exact .inl ⟨by simp [allFaults, h, h2], _, by simp [toPredicates, e, e2]; rfl⟩
      · exact .inr ⟨e2, es, by simp [allFaults, h, h2], by simp [toPredicates, e, h2']⟩
    · exact .inr ⟨e, es ++ allFaults fs, by simp [allFaults, h], by simp [toPredicates, h']⟩
end

/-- **C09, faults.** Filters with a malformed part, however deeply nested, make `partition` and `filter` raise what the leftmost
malformed part raises, which for a string is TypeError, unless `...` is misplaced (ValueError, C02); the State does not matter. -/
theorem C09_leftmost_fault (s : State (PyVal α)) {filters : List (Filter α)} (hell : ¬ MisplacedEllipsis filters) {e : Err} {es : List Err}
    (hf : allFaults filters = e :: es) : s.partition filters = .error e ∧ s.filter filters = .error e := by
  have he : ellipsisMisplaced filters = false := by
    cases h : ellipsisMisplaced filters with
    | false => rfl
    | true => exact absurd ((ellipsisMisplaced_iff filters).1 h) hell
  rcases toPredicates_faults filters with ⟨h, _⟩ | ⟨e', es', h, h'⟩
  · rw [h] at hf; cases hf
  · rw [h] at hf; cases hf
    simp [State.partition, State.filter, splitState, he, h']

/-- **C09, strings.** A filter is malformed exactly if it has a malformed part; if all of these are strings, converting it
raises TypeError. -/
theorem C09_string_filter (f : Filter α) :
    (f.faults = [] ↔ f.WellFormed) ∧ (∀ e, toPredicate f = .error e → f.faults.head? = some e) ∧
    (¬ f.WellFormed → (∀ e ∈ f.faults, e = .typeError) → toPredicate f = .error .typeError) := by
  have key := toPredicate_faults f
  have hwf := (C09_filter_meaning f).1
  refine ⟨?_, ?_, ?_⟩
  · rw [← hwf]
    rcases key with ⟨h, p, e⟩ | ⟨e, es, h, h'⟩
    · exact ⟨fun _ => ⟨p, e⟩, fun _ => h⟩
    · constructor
      · intro h2; rw [h] at h2; cases h2
      · rintro ⟨p, hp⟩; rw [h'] at hp; cases hp
  · intro e he
    rcases key with ⟨h, p, e'⟩ | ⟨e', es, h, h'⟩
    · rw [e'] at he; cases he
    · rw [h'] at he; cases he; rw [h]; rfl
  · intro hn ht
    rcases key with ⟨h, p, e⟩ | ⟨e, es, h, h'⟩
    · exact absurd (hwf.1 ⟨p, e⟩) hn
    · rw [h', ht e (by rw [h]; exact List.mem_cons_self)]

/-- A string inside of a tuple inside of `Not`, after a class. -/
example : allFaults ([.ofType cParam, .not (.tup [.none, .str (py! "params")]), .invalid .valueError] : List (Filter Nat)) =
    [.typeError, .valueError] := by rfl

example : exState.partition [.ofType cParam, .not (.tup [.none, .str (py! "params")]), .ellipsis] = .error .typeError :=
  (C09_leftmost_fault exState (by rw [← ellipsisMisplaced_iff]; decide) (e := .typeError) (es := []) rfl).1

end Nnx
