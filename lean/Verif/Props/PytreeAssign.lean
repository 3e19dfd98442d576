import Verif.Proofs.Pytree
import Verif.Props.PytreeFlatten
/-
C41: assignment to Pytree objects. C42: `Pytree.replace`.
-/
namespace Nnx
variable {α : Type} [DecidableEq α]

/-! ### Heap lemmas -/

theorem hSetattr_last (env : PEnv α) (h : PHeap α) (c : Cls) (vars : Md α) (name : Str) (v : PyVal α) :
    hSetattr env h.length name v (h ++ [(c, vars)]) =
      match (env c).setattr vars name v with
      | .error e => (h ++ [(c, vars)], some e)
      | .ok vars' => (h ++ [(c, vars')], none) := by
  unfold hSetattr
  simp only [List.getElem?_concat_length]
  split <;> simp_all

omit [DecidableEq α] in
theorem hModify_last (h : PHeap α) (c : Cls) (vars : Md α) (f : Md α → Md α) :
    hModify h.length f (h ++ [(c, vars)]) = h ++ [(c, f vars)] := by
  unfold hModify
  simp

theorem setattr_ok {i : PInfo α} {vars vars' : Md α} {name : Str} {v : PyVal α} (h : i.setattr vars name v = .ok vars') :
    setattrVars i.mutable vars name v = .ok vars' ∧ ¬ ∃ fs, i.dataclass = some (fs, true) := by
  unfold PInfo.setattr at h
  split at h
  · cases h
  · rename_i hne
    exact ⟨h, fun ⟨fs, hf⟩ => hne fs hf⟩

/-- Assignment outside constructors and `replace` writes an existing name of an object whose class allows it. -/
theorem setattr_sealed {i : PInfo α} {vars vars' : Md α} {name : Str} {v : PyVal α} (hs : Sealed vars)
    (h : i.setattr vars name v = .ok vars') :
    Sealed vars' ∧ (∀ k, k ∈ dkeys vars' ↔ k ∈ dkeys vars) ∧ ¬ i.Immutable := by
  obtain ⟨h1, h2⟩ := setattr_ok h
  obtain ⟨hk, hm⟩ := setattrVars_sealed hs.noInit h1
  obtain ⟨x, rfl⟩ := setattrVars_ok h1
  have hkeys := mem_dkeys_dset_of_mem hk x
  refine ⟨⟨dnodup_dset hs.nodup _ _, by rw [hkeys]; exact hs.noInit, by rw [hkeys]; exact hs.noMut⟩, hkeys, ?_⟩
  rintro (h' | h')
  · rcases hm with hm | hm
    · exact hs.noMut hm
    · rw [h'] at hm; cases hm
  · exact h2 h'

/-- The loop of `replace` on the fresh copy. -/
theorem hSetattrs_last {env : PEnv α} {h : PHeap α} {c : Cls} :
    ∀ {kw vars : Md α}, DNodup vars → kInit ∉ dkeys vars → ∃ vars' r,
      hSetattrs env h.length kw (h ++ [(c, vars)]) = (h ++ [(c, vars')], r) ∧ DNodup vars' ∧
      (∀ k, k ∈ dkeys vars' ↔ k ∈ dkeys vars)
  | [], vars, hn, _ => ⟨vars, none, rfl, hn, fun _ => Iff.rfl⟩
  | (name, v) :: rest, vars, hn, hi => by
    simp only [hSetattrs, hSetattr_last]
    cases hs : (env c).setattr vars name v with
    | error e => exact ⟨vars, some e, rfl, hn, fun _ => Iff.rfl⟩
    | ok vars1 =>
      obtain ⟨h1, _⟩ := setattr_ok hs
      obtain ⟨hk, _⟩ := setattrVars_sealed hi h1
      obtain ⟨x, rfl⟩ := setattrVars_ok h1
      have hkeys := mem_dkeys_dset_of_mem hk x
      obtain ⟨vars', r, e, hn', hk'⟩ := hSetattrs_last (env := env) (h := h) (c := c) (kw := rest)
        (dnodup_dset hn name x) (by rw [hkeys]; exact hi)
      exact ⟨vars', r, e, hn', fun k => (hk' k).trans (hkeys k)⟩

/-- Whatever `replace` does, old objects stay as they are; at most one object is added, and it is sealed. -/
theorem hReplace_heap {env : PEnv α} {l : Nat} {kw : Md α} {h : PHeap α} {c : Cls} {vars : Md α} (hl : h[l]? = some (c, vars))
    (hs : Sealed vars) :
    (∃ e, hReplace env l kw h = (h, .error e)) ∨
    ∃ vars' r, hReplace env l kw h = (h ++ [(c, vars')], r) ∧ Sealed vars' ∧ (∀ l', r = .ok l' → l' = h.length) := by
  unfold hReplace
  rw [hl]
  simp only
  split
  · split
    · exact Or.inl ⟨_, rfl⟩
    · split
      · exact Or.inl ⟨_, rfl⟩
      · rename_i vars' hcall
        right
        refine ⟨vars', _, rfl, ?_, fun l' hl' => by cases hl'; rfl⟩
        unfold callDataclass at hcall
        split at hcall
        · cases hcall
        · split at hcall
          · cases hcall
          · exact (callVars_keys hcall).1
  · split
    · exact Or.inl ⟨_, rfl⟩
    · right
      rw [hModify_last]
      have hn1 : DNodup (dset vars kMutable .none) := dnodup_dset hs.nodup _ _
      have hi1 : kInit ∉ dkeys (dset vars kMutable .none) := by
        rw [mem_dkeys_dset]
        rintro (h | h)
        · exact kMut_ne_init h.symm
        · exact hs.noInit h
      obtain ⟨vars2, r, e, hn2, hk2⟩ := hSetattrs_last (env := env) (h := h) (c := c) (kw := kw) hn1 hi1
      rw [e]
      have hsealed : Sealed (ddel vars2 kMutable) :=
        ⟨dnodup_ddel hn2 _, by rw [mem_dkeys_ddel hn2, hk2]; exact fun h => hi1 h.2,
          by rw [mem_dkeys_ddel hn2]; exact fun h => h.1 rfl⟩
      cases r with
      | some err => exact ⟨_, .error err, by simp only [hModify_last], hsealed, fun l' hl' => by cases hl'⟩
      | none => exact ⟨_, .ok h.length, by simp only [hModify_last], hsealed, fun l' hl' => by cases hl'; rfl⟩

/-! ### Histories -/

/-- Every object of the heap is sealed. -/
def AllSealed (h : PHeap α) : Prop := ∀ (l : Nat) (c : Cls) (vars : Md α), h[l]? = some (c, vars) → Sealed vars

omit [DecidableEq α] in
theorem AllSealed.append {h : PHeap α} (ha : AllSealed h) {c : Cls} {vars : Md α} (hs : Sealed vars) :
    AllSealed (h ++ [(c, vars)]) := by
  intro l d vs hl
  rw [List.getElem?_append] at hl
  split at hl
  · exact ha l d vs hl
  · rename_i hlt
    cases hq : l - h.length with
    | zero => rw [hq] at hl; cases hl; exact hs
    | succ n => rw [hq] at hl; cases hl

theorem PyOp.run_step {env : PEnv α} {h : PHeap α} (ha : AllSealed h) (op : PyOp α) :
    AllSealed (op.run env h) ∧
    ∀ (l : Nat) (c : Cls) (vars : Md α), h[l]? = some (c, vars) → ∃ vars', (op.run env h)[l]? = some (c, vars') ∧
      (∀ k, k ∈ dkeys vars' ↔ k ∈ dkeys vars) ∧ ((env c).Immutable → vars' = vars) := by
  have happ : ∀ (d : Cls) (vs : Md α) (l : Nat) (c : Cls) (vars : Md α), h[l]? = some (c, vars) → ∃ vars', (h ++ [(d, vs)])[l]? = some (c, vars') ∧
      (∀ k, k ∈ dkeys vars' ↔ k ∈ dkeys vars) ∧ ((env c).Immutable → vars' = vars) := by
    intro d vs l c vars hl
    refine ⟨vars, ?_, fun _ => Iff.rfl, fun _ => rfl⟩
    obtain ⟨hlt, _⟩ := List.getElem?_eq_some_iff.1 hl
    rw [List.getElem?_append_left hlt]; exact hl
  have hid : ∀ (l : Nat) (c : Cls) (vars : Md α), h[l]? = some (c, vars) → ∃ vars', h[l]? = some (c, vars') ∧
      (∀ k, k ∈ dkeys vars' ↔ k ∈ dkeys vars) ∧ ((env c).Immutable → vars' = vars) :=
    fun l c vars hl => ⟨vars, hl, fun _ => Iff.rfl, fun _ => rfl⟩
  cases op with
  | create c steps =>
    simp only [PyOp.run]
    cases hc : callVars (env c) steps with
    | error e => exact ⟨ha, hid⟩
    | ok vars => exact ⟨ha.append (callVars_keys hc).1, happ c vars⟩
  | assign l name v =>
    simp only [PyOp.run, hSetattr]
    cases hl : h[l]? with
    | none => exact ⟨ha, hid⟩
    | some cv =>
      obtain ⟨c, vars⟩ := cv
      simp only
      cases hs : (env c).setattr vars name v with
      | error e => exact ⟨ha, hid⟩
      | ok vars' =>
        obtain ⟨h1, h2, h3⟩ := setattr_sealed (ha l c vars hl) hs
        obtain ⟨hlt, _⟩ := List.getElem?_eq_some_iff.1 hl
        refine ⟨fun l2 c2 vs2 hl2 => ?_, fun l2 c2 vs2 hl2 => ?_⟩
        · simp only [List.getElem?_set] at hl2
          split at hl2
          · cases hl2; exact h1
          · exact ha l2 c2 vs2 hl2
        · simp only [List.getElem?_set]
          by_cases e : l = l2
          · subst e
            rw [hl] at hl2
            cases hl2
            rw [if_pos rfl, if_pos hlt]
            exact ⟨vars', rfl, h2, fun hi => absurd hi h3⟩
          · rw [if_neg e]; exact hid l2 c2 vs2 hl2
  | replace l kw =>
    simp only [PyOp.run]
    cases hl : h[l]? with
    | none => rw [hReplace, hl]; exact ⟨ha, hid⟩
    | some cv =>
      obtain ⟨c, vars⟩ := cv
      rcases hReplace_heap (env := env) (kw := kw) hl (ha l c vars hl) with ⟨e, he⟩ | ⟨vars', r, he, hs, _⟩
      · rw [he]; exact ⟨ha, hid⟩
      · rw [he]; exact ⟨ha.append hs, happ c vars'⟩

theorem PyOp.runAll_step {env : PEnv α} {h : PHeap α} (ha : AllSealed h) (ops : List (PyOp α)) :
    AllSealed (PyOp.runAll env h ops) ∧
    ∀ (l : Nat) (c : Cls) (vars : Md α), h[l]? = some (c, vars) → ∃ vars', (PyOp.runAll env h ops)[l]? = some (c, vars') ∧
      (∀ k, k ∈ dkeys vars' ↔ k ∈ dkeys vars) ∧ ((env c).Immutable → vars' = vars) := by
  induction ops generalizing h with
  | nil => exact ⟨ha, fun l c vars hl => ⟨vars, hl, fun _ => Iff.rfl, fun _ => rfl⟩⟩
  | cons op ops ih =>
    obtain ⟨h1, h2⟩ := PyOp.run_step (env := env) ha op
    obtain ⟨h3, h4⟩ := ih h1
    refine ⟨h3, fun l c vars hl => ?_⟩
    obtain ⟨v1, e1, k1, i1⟩ := h2 l c vars hl
    obtain ⟨v2, e2, k2, i2⟩ := h4 l c v1 e1
    exact ⟨v2, e2, fun k => (k2 k).trans (k1 k), fun hi => (i2 hi).trans (i1 hi)⟩

omit [DecidableEq α] in
theorem allSealed_nil : AllSealed ([] : PHeap α) := by intro l c vars h; simp at h

/-- **C41**: in every history of constructions, assignments and replaces (failing or not), an object keeps its class and its set of
fields from its construction on, and if its class is immutable it never changes at all. -/
theorem C41_history (env : PEnv α) (ops ops' : List (PyOp α)) (l : Nat) (c : Cls) (vars : Md α)
    (hl : (PyOp.runAll env [] ops)[l]? = some (c, vars)) :
    ∃ vars', (PyOp.runAll env [] (ops ++ ops'))[l]? = some (c, vars') ∧
      (∀ k, k ∈ dkeys vars' ↔ k ∈ dkeys vars) ∧ ((env c).Immutable → vars' = vars) := by
  have h1 := (PyOp.runAll_step (env := env) allSealed_nil ops).1
  have h2 := (PyOp.runAll_step (env := env) h1 ops').2 l c vars hl
  rw [PyOp.runAll, List.foldl_append]
  exact h2

/-- **C41**, immutable objects: after any history, assigning anything to any name of an object of an immutable class raises
AttributeError and changes nothing. -/
theorem C41_immutable (env : PEnv α) (ops : List (PyOp α)) (l : Nat) (c : Cls) (vars : Md α)
    (hl : (PyOp.runAll env [] ops)[l]? = some (c, vars)) (hi : (env c).Immutable) (name : Str) (v : PyVal α) :
    hSetattr env l name v (PyOp.runAll env [] ops) = (PyOp.runAll env [] ops, some .attributeError) := by
  have hs := (PyOp.runAll_step (env := env) allSealed_nil ops).1 l c vars hl
  rw [hSetattr, hl]
  have : (env c).setattr vars name v = .error .attributeError := by
    unfold PInfo.setattr
    split
    · rfl
    · rename_i hne
      rcases hi with hi | ⟨fs, hf⟩
      · rw [hi]; exact setattrVars_immutable name v hs.noInit hs.noMut
      · exact absurd hf (hne fs)
  simp only [this]

/-- **C41**, new names: after any history, assigning to a name that is not a field of the object, whatever its class,
raises AttributeError and changes nothing. -/
theorem C41_no_new_fields (env : PEnv α) (ops : List (PyOp α)) (l : Nat) (c : Cls) (vars : Md α)
    (hl : (PyOp.runAll env [] ops)[l]? = some (c, vars)) (name : Str) (hn : name ∉ dkeys vars) (v : PyVal α) :
    hSetattr env l name v (PyOp.runAll env [] ops) = (PyOp.runAll env [] ops, some .attributeError) := by
  have hs := (PyOp.runAll_step (env := env) allSealed_nil ops).1 l c vars hl
  rw [hSetattr, hl]
  have : (env c).setattr vars name v = .error .attributeError := by
    unfold PInfo.setattr
    split
    · rfl
    · exact setattrVars_unknown v hs.noInit hn
  simp only [this]

/-- **C41**, mutable objects: assigning to an existing field stores the value (a container field keeps its kind and metadata) and
changes no other field and no other object; the only failure is a container of another kind or with other metadata, and then
nothing changes. -/
theorem C41_mutable_assign (env : PEnv α) {h : PHeap α} {l : Nat} {c : Cls} {vars : Md α} (hl : h[l]? = some (c, vars))
    (hw : WFPytree vars) (hm : ¬ (env c).Immutable) {name : Str} (hn : name ∈ dkeys vars) {v : PyVal α} (hv : GoodField v) :
    (∃ x vars', Stored (dget vars name) v x ∧ hSetattr env l name v h = (h.set l (c, vars'), none) ∧
      (∀ k, dget vars' k = if k = name then some x else dget vars k)) ∨
    (Refused (dget vars name) v ∧ hSetattr env l name v h = (h, some .valueError)) := by
  have hmut : (env c).mutable = true := by
    cases hq : (env c).mutable with
    | true => rfl
    | false => exact absurd (Or.inl hq) hm
  have hset : (env c).setattr vars name v = setattrVars (env c).mutable vars name v := by
    unfold PInfo.setattr
    split
    · rename_i fs hf
      exact absurd (Or.inr ⟨fs, hf⟩) hm
    · rfl
  rw [hSetattr, hl]
  simp only [hset]
  rcases setattrVars_allowed (b := (env c).mutable) hv (hw.good name) (Or.inr ⟨hn, Or.inr hmut⟩) with ⟨x, hx, _, he⟩ | ⟨hr, he⟩
  · left
    refine ⟨x, dset vars name x, hx, by rw [he], fun k => ?_⟩
    rw [dget_dset]
    by_cases hk : name = k
    · simp [hk]
    · simp [hk, Ne.symm hk]
  · exact Or.inr ⟨hr, by rw [he]⟩

/-- A mutable class: construct, assign the container field, fail to add a field. -/
example :
    let env : PEnv Nat := fun _ => { mutable := true, dataclass := none }
    let ops : List (PyOp Nat) := [.create cPytree [(py! "x", .cont cNode (.data cArray 1) [])], .assign 0 (py! "x") (.data cArray 2),
      .assign 0 (py! "y") .none]
    PyOp.runAll env [] ops = [(cPytree, [(kSorted, .tup [.str kSorted, .str (py! "x")]), (py! "x", .cont cNode (.data cArray 2) [])])] := by
  decide

/-- An immutable class: the assignment has no effect; `replace` makes a second object. -/
example :
    let env : PEnv Nat := fun _ => { mutable := false, dataclass := none }
    let ops : List (PyOp Nat) := [.create cPytree [(py! "x", .cont cNode (.data cArray 1) [])], .assign 0 (py! "x") (.data cArray 2),
      .replace 0 [(py! "x", .data cArray 3)]]
    PyOp.runAll env [] ops = [(cPytree, [(kSorted, .tup [.str kSorted, .str (py! "x")]), (py! "x", .cont cNode (.data cArray 1) [])]),
      (cPytree, [(kSorted, .tup [.str kSorted, .str (py! "x")]), (py! "x", .cont cNode (.data cArray 3) [])])] := by
  decide

end Nnx
