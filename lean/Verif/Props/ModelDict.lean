import Verif.Proofs.ModelDict
/-
C106: a Module is a dictionary from paths to variables, whatever is done to it.
-/
namespace Nnx
variable {α : Type} [DecidableEq α]

/-- **C106.** After any program of operations that return normally, the State of the Module is what the operations make of
the dictionary it was before. -/
theorem C106_program {ops : List (ModelOp α)} {w w' : World α} (wf : WFWorld w) {r r' : Loc} (hr : r < w.heap.length) {f : Nat}
    {s : State (PyVal α)} (hs : getState f w.heap r = some s) (hop : AllAllowed ops s.get) (hp : Program ops w r w' r') :
    WFWorld w' ∧ r' < w'.heap.length ∧
      ∃ s', getState (w'.heap.length + 1) w'.heap r' = some s' ∧ s'.get = dictAfter ops s.get := by
  induction hp generalizing f s with
  | done =>
    obtain ⟨s', hs'⟩ := getState_exists wf.heap hr (Nat.lt_succ_self _)
    exact ⟨wf, hr, s', hs', by rw [getState_det wf.heap hr hs' hs]; rfl⟩
  | more hd _ ih =>
    obtain ⟨wf1, hr1, s1, hs1, h1⟩ := does_opDone wf hr hs hop.1 hd
    obtain ⟨wf', hr', s', hs', h'⟩ := ih wf1 hr1 hs1 (by rw [h1]; exact hop.2)
    exact ⟨wf', hr', s', hs', by rw [h', h1]; rfl⟩

/-- **C106, attributes.** What is found by following a path of the dictionary from the Module is what the dictionary has
there. -/
theorem C106_reads {ops : List (ModelOp α)} {w w' : World α} (wf : WFWorld w) {r r' : Loc} (hr : r < w.heap.length) {f : Nat}
    {s : State (PyVal α)} (hs : getState f w.heap r = some s) (hop : AllAllowed ops s.get) (hp : Program ops w r w' r')
    {k : Str} {v : PyVal α} (hk : dictAfter ops s.get k = some v) :
    access w'.heap (.ref r') (splitSlash k) = some (.val v) := by
  obtain ⟨wf', hr', s', hs', h'⟩ := C106_program wf hr hs hop hp
  obtain ⟨l, n, ⟨p, e, hw⟩, ha, _⟩ := (state_paths wf'.heap hr' hs').1 k v (by rw [h']; exact hk)
  rw [e, access_snoc hw, ha]

/-- **C106, two programs.** The same operations done to two Modules with equal dictionaries, in whatever worlds and on
whatever objects, give Modules with equal States. -/
theorem C106_same_state {ops : List (ModelOp α)} {w w' v v' : World α} (wf : WFWorld w) (vf : WFWorld v) {r r' q q' : Loc}
    (hr : r < w.heap.length) (hq : q < v.heap.length) {f g : Nat} {s : State (PyVal α)}
    (hs : getState f w.heap r = some s) (ht : getState g v.heap q = some s)
    (hop : AllAllowed ops s.get) (hp : Program ops w r w' r') (hp' : Program ops v q v' q') :
    ∃ s', getState (w'.heap.length + 1) w'.heap r' = some s' ∧ getState (v'.heap.length + 1) v'.heap q' = some s' := by
  obtain ⟨_, _, s1, h1, e1⟩ := C106_program wf hr hs hop hp
  obtain ⟨_, _, s2, h2, e2⟩ := C106_program vf hq ht hop hp'
  refine ⟨s1, h1, ?_⟩
  rw [State.Canonical.ext (getState_canonical h1) (getState_canonical h2) (fun k => by rw [e1, e2])]
  exact h2

/-! A program on a Module with a shared submodule: set "w", write a variable of the submodule, remove the statistics,
rebuild, add a variable, delete another. -/

def exOps : List (ModelOp Nat) :=
  [.update [.new [(py! "w", .data cArray 3)]], .write (py! "a/w") (.data cArray 8), .pop [.ofType cBatchStat],
    .rebuild [.ofType cParam] [.new [(py! "w", exParam 3), (py! "a/w", exParam 8)]], .assign (py! "v") (exStat 4), .delete (py! "w")]

def exSharedWorld : World Nat := ⟨exShared, 9, 0, []⟩

theorem exSharedWorld_wf : WFWorld exSharedWorld := by
  refine ⟨exShared_wf, ?_⟩
  intro l o ho
  have := List.mem_of_getElem? ho
  simp only [exSharedWorld, exShared, List.mem_cons, List.not_mem_nil, or_false] at this ⊢
  rcases this with rfl | rfl <;> simp

omit [DecidableEq α] in
theorem notRef {x : Option (Attr α)} (h : x.all (fun a => !a.isModule) = true) : ∀ b, x ≠ some (.ref b) := by
  rintro b rfl; simp [Attr.isModule] at h

omit [DecidableEq α] in
theorem noBox {x : Option (Attr α)} (h : x.isNone = true) : ∀ c y m, x = some (.val (.cont c y m)) → (PyVal.cont c y m).isNode = true := by
  rintro c y m rfl; cases h

/-- The program runs, and leaves the written variable and the new one. -/
theorem exOps_run : ∃ w' r' s, Program exOps exSharedWorld 0 w' r' ∧ getState 9 w'.heap r' = some s ∧
    s.items = [(py! "a/w", exParam 8), (py! "v", exStat 4)] :=
  ⟨_, _, _, .more ⟨rfl, 3, rfl⟩ <| .more ⟨rfl, 3, _, (1, py! "w"), by decide, rfl, by decide, rfl⟩ <|
    .more ⟨rfl, 3, _, _, by decide, rfl, rfl⟩ <| .more ⟨3, _, _, rfl, .refl _, rfl⟩ <|
    .more ⟨rfl, rfl, notRef (by decide +kernel), noBox (by decide +kernel)⟩ <|
    .more ⟨rfl, notRef (by decide +kernel), _, rfl, rfl⟩ .done, rfl, by decide +kernel⟩

/-- And every operation is allowed. -/
example : ∃ s, getState 9 exSharedWorld.heap 0 = some s ∧ AllAllowed exOps s.get := by
  refine ⟨_, rfl, ⟨?_, .inl trivial, ?_, trivial, ⟨⟨by unfold NoSlash; decide, by decide⟩, .inr (exStat_wf 4)⟩, trivial, trivial⟩⟩
  · intro t ht
    rw [List.mem_singleton] at ht
    subst ht
    refine ⟨State.new_strict _, fun k v h => ?_⟩
    have := dget_mem h
    have : (k, v) ∈ [(py! "w", (PyVal.data cArray 3 : PyVal Nat))] := this
    have : k = py! "w" ∧ v = .data cArray 3 := by simpa using this
    rw [this.1, this.2]
    exact ⟨.inl trivial, by decide +kernel⟩
  · intro f hf k k' v
    rw [List.mem_singleton] at hf
    subst hf
    exact id

end Nnx
