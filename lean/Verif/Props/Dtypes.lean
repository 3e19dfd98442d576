import Verif.Model.Dtypes

/-!
# C65: dtype promotion is uniform
-/

namespace Nnx

variable {A D : Type}

/-- **C65** (uniformity): when `promote_dtype` succeeds there is one dtype such that the result has exactly one entry
for each argument, `None` for `None` and the argument cast to that dtype otherwise; and that dtype is the one
`canonicalize_dtype` gives for the same arguments. -/
theorem C65_uniform (O : DtypeOps A D) (args : List (Option A)) (dtype : Option D) (inexact : Bool)
    (rs : List (Option A)) (h : promoteDtype O args dtype inexact = .ok rs) :
    ∃ d, canonicalizeDtype O args dtype inexact = .ok d ∧ rs.length = args.length ∧
      ∀ i : Nat, (args[i]? = some none → rs[i]? = some none) ∧
        ∀ x, args[i]? = some (some x) → rs[i]? = some (some (O.cast x d)) := by
  unfold promoteDtype at h
  split at h
  · cases h
  · rename_i d hd
    cases h
    refine ⟨d, hd, by simp, fun i => ⟨fun hi => ?_, fun x hi => ?_⟩⟩
    · simp [List.getElem?_map, hi]
    · simp [List.getElem?_map, hi]

/-- **C65** (one dtype): if casting to a dtype gives an array of that dtype, all arrays in the result have the same
dtype. -/
theorem C65_one_dtype (O : DtypeOps A D) (hcast : ∀ x d, O.dtypeOf (O.cast x d) = d) (args : List (Option A))
    (dtype : Option D) (inexact : Bool) (rs : List (Option A)) (h : promoteDtype O args dtype inexact = .ok rs) :
    ∃ d, ∀ r, some r ∈ rs → O.dtypeOf r = d := by
  obtain ⟨d, hd, hl, hi⟩ := C65_uniform O args dtype inexact rs h
  refine ⟨d, fun r hr => ?_⟩
  obtain ⟨i, h1, h2⟩ := List.mem_iff_getElem.1 hr
  have hri : rs[i]? = some (some r) := by rw [List.getElem?_eq_getElem h1, h2]
  have hai : i < args.length := by omega
  cases ha : args[i] with
  | none =>
    have := (hi i).1 (by rw [List.getElem?_eq_getElem hai, ha])
    rw [this] at hri; cases hri
  | some x =>
    have := (hi i).2 x (by rw [List.getElem?_eq_getElem hai, ha])
    rw [this] at hri
    cases hri
    exact hcast x d

/-- **C65** (explicit dtype): an explicit dtype is returned unmodified, unless it is not inexact though that is asked
for: then ValueError. -/
theorem C65_explicit (O : DtypeOps A D) (args : List (Option A)) (d : D) (inexact : Bool) :
    canonicalizeDtype O args (some d) inexact =
      if inexact = true ∧ O.inexact d = false then .error .valueError else .ok d := rfl

/-- **C65** (inexact): with `inexact=True` the dtype is inexact or ValueError is raised. -/
theorem C65_inexact (O : DtypeOps A D) (args : List (Option A)) (dtype : Option D) :
    canonicalizeDtype O args dtype true = .error .valueError ∨
      ∃ d, canonicalizeDtype O args dtype true = .ok d ∧ O.inexact d = true := by
  unfold canonicalizeDtype
  simp only
  split
  · rename_i e he
    left
    split at he
    · cases he
    · split at he
      · cases he; rfl
      · split at he <;> cases he
  · rename_i d hd
    cases hx : O.inexact d with
    | false => left; simp
    | true => right; exact ⟨d, by simp, hx⟩

/-- **C65** (inference): without a dtype, the dtype is inferred from the arrays among the arguments, in order, `None`s
being ignored; if an inexact one is asked for and the inferred one is not, it is promoted with float32. -/
theorem C65_inferred (O : DtypeOps A D) (args : List (Option A)) (a : A) (as : List A) (inexact : Bool)
    (h : args.filterMap id = a :: as)
    (hp : ∀ d, O.inexact (O.promote O.float32 d) = true) :
    canonicalizeDtype O args none inexact =
      .ok (if inexact = true ∧ O.inexact (O.resultType (O.dtypeOf a) (as.map O.dtypeOf)) = false
        then O.promote O.float32 (O.resultType (O.dtypeOf a) (as.map O.dtypeOf))
        else O.resultType (O.dtypeOf a) (as.map O.dtypeOf)) := by
  unfold canonicalizeDtype
  simp only [h]
  generalize O.resultType (O.dtypeOf a) (as.map O.dtypeOf) = r
  by_cases hc : inexact = true ∧ O.inexact r = false
  · simp [if_pos hc, hp]
  · simp only [if_neg hc]

/-- **C65** (nothing to infer from): without a dtype and without arrays ValueError is raised. -/
theorem C65_nothing (O : DtypeOps A D) (args : List (Option A)) (inexact : Bool) (h : ∀ a ∈ args, a = none) :
    promoteDtype O args none inexact = .error .valueError := by
  have : args.filterMap id = [] := by
    rw [List.filterMap_eq_nil_iff]
    intro a ha
    rw [h a ha]; rfl
  simp only [promoteDtype, canonicalizeDtype, this]

/-- Three dtypes ordered by promotion (0 = int32, 1 = float32, 2 = complex64); arrays are pairs of a dtype and a
value. -/
def exDtypes : DtypeOps (Nat × Int) Nat where
  dtypeOf := Prod.fst
  cast x d := (d, x.2)
  resultType d ds := ds.foldl max d
  promote := max
  inexact d := decide (1 ≤ d)
  float32 := 1

example : promoteDtype exDtypes [some (0, 5), none, some (2, 7)] none true = .ok [some (2, 5), none, some (2, 7)] ∧
    promoteDtype exDtypes [some (0, 5), none] none true = .ok [some (1, 5), none] ∧
    promoteDtype exDtypes [some (2, 5), none] (some 0) false = .ok [some (0, 5), none] ∧
    promoteDtype exDtypes [some (2, 5), none] (some 0) true = .error .valueError ∧
    (∀ x d, exDtypes.dtypeOf (exDtypes.cast x d) = d) ∧
    ∀ d, exDtypes.inexact (exDtypes.promote exDtypes.float32 d) = true := by
  refine ⟨rfl, rfl, rfl, rfl, fun _ _ => rfl, fun d => ?_⟩
  simp only [exDtypes, decide_eq_true_eq]
  exact Nat.le_max_left 1 d

end Nnx
