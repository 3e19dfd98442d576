import Verif.Model.PytreeDel
import Verif.Props.PytreeAssign
/-
C41 speaks of assignments only, and has to: `del` is not blocked on an immutable Pytree, and the object it leaves
cannot be flattened.
-/
namespace Nnx
variable {α : Type}

theorem flattenFields_missing {vars : Md α} {name : Str} (hm : dget vars name = none) :
    ∀ {fs : List Str}, name ∈ fs → flattenFields vars fs = .error .keyError
  | [], h => by cases h
  | f :: fs, h => by
    unfold flattenFields
    cases hd : dget vars f with
    | none => rfl
    | some v =>
      rcases List.mem_cons.1 h with rfl | h
      · rw [hm] at hd; cases hd
      · simp only [flattenFields_missing hm h]

/-- On every Pytree object that its constructor left, immutable or not, unless its class is a frozen dataclass: `del`
of any attribute goes through, whatever `mutable` says; no other attribute and no other object changes; and
afterwards flattening the object (what `jax.jit`, `jax.tree_map` and every other JAX function does with it) raises
KeyError. -/
theorem C41_del_not_blocked {env : PEnv α} {h : PHeap α} {l : Nat} {c : Cls} {vars : Md α} {name : Str}
    (ho : h[l]? = some (c, vars)) (wf : WFPytree vars) (hf : ¬ ∃ fs, (env c).dataclass = some (fs, true))
    (hk : name ∈ dkeys vars) (hs : name ≠ kSorted) :
    ∃ vars', hDelattr env l name h = (h.set l (c, vars'), none) ∧ dget vars' name = none ∧
      (∀ k, k ≠ name → dget vars' k = dget vars k) ∧
      pytreeFlattenKeys (.tree c vars') = .error .keyError ∧ pytreeFlatten (.tree c vars') = .error .keyError := by
  have hdel : hDelattr env l name h = (h.set l (c, ddel vars name), none) := by
    unfold hDelattr
    rw [ho]
    simp only
    split
    · rename_i fs he; exact absurd ⟨_, he⟩ hf
    · rw [if_pos (dhas_iff.2 hk)]
  have hnone : dget (ddel vars name) name = none := by
    rw [dget_ddel wf.nodup]; simp
  have hother : ∀ k, k ≠ name → dget (ddel vars name) k = dget vars k := fun k hne => by
    rw [dget_ddel wf.nodup]; simp [Ne.symm hne]
  have hsorted : sortedFields (ddel vars name) = sortedFields vars := by
    unfold sortedFields
    rw [hother _ (Ne.symm hs)]
  have hfl : pytreeFlattenKeys (.tree c (ddel vars name)) = .error .keyError := by
    unfold pytreeFlattenKeys
    simp only [hsorted, sortedFields_wf wf]
    rw [flattenFields_missing hnone]
    exact ((sortItems_perm vars).map (·.1)).mem_iff.2 hk
  exact ⟨_, hdel, hnone, hother, hfl, by unfold pytreeFlatten; rw [hfl]⟩

/-- `del` of any attribute of a frozen dataclass, and of an attribute that is not there, raises AttributeError and changes no
object. -/
theorem C41_del_refused {env : PEnv α} {h : PHeap α} {l : Nat} {c : Cls} {vars : Md α} {name : Str}
    (ho : h[l]? = some (c, vars)) (hr : (∃ fs, (env c).dataclass = some (fs, true)) ∨ name ∉ dkeys vars) :
    hDelattr env l name h = (h, some .attributeError) := by
  unfold hDelattr
  rw [ho]
  simp only
  split
  · rfl
  · next hne =>
    rcases hr with ⟨fs, e⟩ | hm
    · exact absurd e (hne fs)
    · rw [if_neg (by rw [dhas_iff]; exact hm)]

/-- The hypotheses are met by an immutable object with an array and a string, as its constructor makes it; and the call
does what the theorem says. -/
example :
    let i : PInfo Nat := { mutable := false, dataclass := none }
    let vars : Md Nat := [(kSorted, .tup [.str kSorted, .str (py! "w"), .str (py! "x")]), (py! "x", .data cArray 1),
      (py! "w", .str (py! "relu"))]
    callVars i [(py! "x", .data cArray 1), (py! "w", .str (py! "relu"))] = .ok vars ∧ WFPytree vars ∧
      hDelattr (fun _ => i) 0 (py! "x") [(cPytree, vars)] =
        ([(cPytree, [(kSorted, .tup [.str kSorted, .str (py! "w"), .str (py! "x")]), (py! "w", .str (py! "relu"))])],
          none) := by
  refine ⟨by decide, ⟨⟨by unfold DNodup; decide, by decide, by decide⟩, by rfl, ?_⟩, by rfl⟩
  intro k v h
  have := dget_mem h
  simp only [List.mem_cons, List.not_mem_nil, or_false, Prod.mk.injEq] at this
  rcases this with ⟨_, rfl⟩ | ⟨_, rfl⟩ | ⟨_, rfl⟩ <;> exact .inl trivial

end Nnx
