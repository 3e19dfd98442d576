import Verif.Proofs.Spmd
/-
C44, C45: logical_to_mesh_axes. C47: logical_axis_rules. C48, C74: sharding constraints.
-/
namespace Nnx

/-! ### C44 -/

theorem logicalToMesh_ok {dims : List (Option Str)} {rules : List LRule} {spec : List MeshAxes}
    (h : logicalToMeshAxes (some dims) rules = .ok (some spec)) :
    ¬ RepeatedName dims ∧
      spec = (rules.foldl (applyRule dims) (List.replicate dims.length .unassigned)).map Slot.fill := by
  unfold logicalToMeshAxes logicalToMeshRaw at h
  simp only at h
  split at h
  · simp at h
  · next slots hs =>
    split at hs
    · simp at hs
    · next hr =>
      rw [repeated_iff] at hr
      refine ⟨hr, ?_⟩
      simp only [Except.ok.injEq, Option.some.injEq] at h hs
      rw [← h, ← hs]

/-- C44. The PartitionSpec has one entry per dimension, or the call raises ValueError; it raises exactly if a logical name is
repeated. -/
theorem C44_total (dims : List (Option Str)) (rules : List LRule) :
    (RepeatedName dims → logicalToMeshAxes (some dims) rules = .error .valueError) ∧
    (¬ RepeatedName dims → ∃ spec, logicalToMeshAxes (some dims) rules = .ok (some spec) ∧ spec.length = dims.length) := by
  constructor
  · intro h
    rw [← repeated_iff] at h
    simp only [logicalToMeshAxes, logicalToMeshRaw, h, if_true]
  · intro h
    rw [← repeated_iff] at h
    simp only [logicalToMeshAxes, logicalToMeshRaw, h, if_false, Bool.false_eq_true]
    exact ⟨_, rfl, by rw [List.length_map, foldl_applyRule_length]⟩

theorem spec_entry {dims : List (Option Str)} {rules : List LRule} {spec : List MeshAxes}
    (h : logicalToMeshAxes (some dims) rules = .ok (some spec)) {i : Nat} {m : MeshAxes} (hm : spec[i]? = some m) :
    m = .none ∨ Gets dims rules (fires dims rules) i m := by
  obtain ⟨-, rfl⟩ := logicalToMesh_ok h
  rw [List.getElem?_map] at hm
  simp only [Option.map_eq_some_iff] at hm
  obtain ⟨s, hs, rfl⟩ := hm
  cases s with
  | unassigned => exact Or.inl rfl
  | assigned m => exact Or.inr ((foldl_applyRule_iff dims rules (fires_applied dims rules) i m).1 hs)

/-- C44. No mesh axis is used by two dimensions. -/
theorem C44_disjoint {dims : List (Option Str)} {rules : List LRule} {spec : List MeshAxes}
    (h : logicalToMeshAxes (some dims) rules = .ok (some spec)) {i j : Nat} {m m' : MeshAxes} (hij : i ≠ j)
    (hi : spec[i]? = some m) (hj : spec[j]? = some m') : ∀ a, a ∈ m.names → a ∉ m'.names := by
  rcases spec_entry h hi with rfl | ⟨k, n, hk, hr, hd⟩
  · intro a ha; simp [MeshAxes.names] at ha
  rcases spec_entry h hj with rfl | ⟨k', n', hk', hr', hd'⟩
  · intro a _ ha; simp [MeshAxes.names] at ha
  have hne : n ≠ n' := by
    rintro rfl
    exact hij ((dimNamed_iff.1 hd).2.symm.trans (dimNamed_iff.1 hd').2)
  rcases Nat.lt_trichotomy k k' with hlt | rfl | hlt
  · obtain ⟨n1, m1, h1, -, h3⟩ := (fires_applied dims rules k').1 hk'
    rw [hr'] at h1
    obtain ⟨rfl, rfl⟩ : n' = n1 ∧ m' = m1 := by simpa using h1
    exact (h3 k n m hlt hk hr).2
  · rw [hr] at hr'
    simp only [Option.some.injEq, Prod.mk.injEq] at hr'
    exact absurd hr'.1 hne
  · obtain ⟨n1, m1, h1, -, h3⟩ := (fires_applied dims rules k).1 hk
    rw [hr] at h1
    obtain ⟨rfl, rfl⟩ : n = n1 ∧ m = m1 := by simpa using h1
    intro a ha ha'
    exact (h3 k' n' m' hlt hk' hr').2 a ha' ha

/-- C44. If no rule repeats a mesh axis within its own tuple, each mesh axis occurs at most once in the whole PartitionSpec. -/
theorem C44_once {dims : List (Option Str)} {rules : List LRule} {spec : List MeshAxes}
    (hrules : ∀ r ∈ rules, r.2.names.Nodup) (h : logicalToMeshAxes (some dims) rules = .ok (some spec)) :
    (spec.flatMap MeshAxes.names).Nodup := by
  rw [List.nodup_flatMap]
  constructor
  · intro m hm
    obtain ⟨i, hi⟩ := List.getElem?_of_mem hm
    rcases spec_entry h hi with rfl | ⟨k, n, -, hr, -⟩
    · exact List.nodup_nil
    · exact hrules _ (List.mem_of_getElem? hr)
  · rw [List.pairwise_iff_getElem]
    intro i j hi hj hij
    have := C44_disjoint h (Nat.ne_of_lt hij) (List.getElem?_eq_getElem hi) (List.getElem?_eq_getElem hj)
    intro a ha ha'
    exact this a ha ha'

/-- C44. No dimension names: no PartitionSpec. -/
theorem C44_none (rules : List LRule) : logicalToMeshAxes none rules = .ok none := rfl

/-- Every entry is `None` or comes from a rule with the name of that dimension. -/
theorem C44_from_rules {dims : List (Option Str)} {rules : List LRule} {spec : List MeshAxes}
    (h : logicalToMeshAxes (some dims) rules = .ok (some spec)) {i : Nat} {m : MeshAxes} (hi : spec[i]? = some m) :
    m = .none ∨ ∃ n, dims[i]? = some n ∧ (n, m) ∈ rules := by
  rcases spec_entry h hi with rfl | ⟨k, n, -, hr, hd⟩
  · exact Or.inl rfl
  · exact Or.inr ⟨n, hd.1, List.mem_of_getElem? hr⟩

/-- The documented example: ('batch','length','heads','features') with rules batch→X, features→X, heads→Y, batch→Z. -/
def exDims : List (Option Str) := [some (py! "batch"), some (py! "length"), some (py! "heads"), some (py! "features")]

def exRules : List LRule :=
  [(some (py! "batch"), .axis (py! "X")), (some (py! "features"), .axis (py! "X")), (some (py! "heads"), .axes [py! "Y", py! "W"]),
    (some (py! "batch"), .axis (py! "Z"))]

example : logicalToMeshAxes (some exDims) exRules =
    .ok (some [.axis (py! "X"), .none, .axes [py! "Y", py! "W"], .none]) := by decide

example : ¬ RepeatedName exDims := by rw [← repeated_iff]; decide

example : RepeatedName [some (py! "a"), none, none, some (py! "a")] := ⟨0, 3, py! "a", by decide, rfl, rfl⟩

example : ∀ r ∈ exRules, r.2.names.Nodup := by decide

/-! ### C45 -/

/-- C45. There is exactly one set of rules that take effect by priority. -/
theorem C45_applied_unique (dims : List (Option Str)) (rules : List LRule) :
    (∃ applied, Applied dims rules applied) ∧
    ∀ p q, Applied dims rules p → Applied dims rules q → ∀ k, p k ↔ q k :=
  ⟨⟨_, fires_applied dims rules⟩, fun _ _ hp hq k => hp.unique hq k⟩

/-- C45. A dimension has the mesh axes of the rule for its name that takes effect; without such a rule it is unsharded. -/
theorem C45_priority {dims : List (Option Str)} {rules : List LRule} {spec : List MeshAxes}
    (h : logicalToMeshAxes (some dims) rules = .ok (some spec)) {applied : Nat → Prop} (ha : Applied dims rules applied) :
    (∀ i m, Gets dims rules applied i m → spec[i]? = some m) ∧
    (∀ i, i < dims.length → (∀ m, ¬ Gets dims rules applied i m) → spec[i]? = some .none) := by
  obtain ⟨-, rfl⟩ := logicalToMesh_ok h
  constructor
  · intro i m hg
    rw [List.getElem?_map, (foldl_applyRule_iff dims rules ha i m).2 hg]
    rfl
  · intro i hi hg
    rw [List.getElem?_map]
    have hlt : i < (rules.foldl (applyRule dims) (List.replicate dims.length .unassigned)).length := by
      rw [foldl_applyRule_length]; exact hi
    rw [List.getElem?_eq_getElem hlt]
    cases hs : (rules.foldl (applyRule dims) (List.replicate dims.length .unassigned))[i] with
    | unassigned => rfl
    | assigned m =>
      exfalso
      apply hg m
      rw [← foldl_applyRule_iff dims rules ha, List.getElem?_eq_getElem hlt, hs]

/-- C45. A dimension gets the first rule for its name whose mesh axes are free: if rule `k` names dimension `i`, each rule before
it with that name clashes with a rule of still higher priority that took effect, and rule `k` clashes with none, then dimension
`i` has the mesh axes of rule `k`. -/
theorem C45_first_free {dims : List (Option Str)} {rules : List LRule} {spec : List MeshAxes}
    (h : logicalToMeshAxes (some dims) rules = .ok (some spec)) {applied : Nat → Prop} (ha : Applied dims rules applied)
    {i k : Nat} {n : Option Str} {m : MeshAxes} (hd : DimNamed dims i n) (hk : rules[k]? = some (n, m))
    (hearlier : ∀ j m', j < k → rules[j]? = some (n, m') →
      ∃ j' n'' m'', j' < j ∧ applied j' ∧ rules[j']? = some (n'', m'') ∧ ¬ m''.Disjoint m')
    (hfree : ∀ j n' m', j < k → applied j → rules[j]? = some (n', m') → m'.Disjoint m) : spec[i]? = some m := by
  apply (C45_priority h ha).1
  refine ⟨k, n, ?_, hk, hd⟩
  rw [ha k]
  refine ⟨n, m, hk, (dimNamed_iff.1 hd).1, ?_⟩
  intro j n' m' hj haj hr
  refine ⟨?_, hfree j n' m' hj haj hr⟩
  rintro rfl
  obtain ⟨j', n'', m'', hlt, hap, hr', hnd⟩ := hearlier j m' hj hr
  obtain ⟨n1, m1, h1, -, h3⟩ := (ha j).1 haj
  rw [hr] at h1
  obtain ⟨rfl, rfl⟩ : n' = n1 ∧ m' = m1 := by simpa using h1
  exact hnd (h3 j' n'' m'' hlt hap hr').2

/-- C45. A rule mapping a name to `None` pins its dimension as unsharded, whatever rules for that name follow. -/
theorem C45_none_pins {dims : List (Option Str)} {rules : List LRule} {spec : List MeshAxes}
    (h : logicalToMeshAxes (some dims) rules = .ok (some spec)) {i k : Nat} {n : Option Str} (hd : DimNamed dims i n)
    (hk : rules[k]? = some (n, .none)) (hfirst : ∀ j m, j < k → rules[j]? ≠ some (n, m)) : spec[i]? = some .none := by
  refine C45_first_free h (fires_applied dims rules) hd hk (fun j m' hj hr => absurd hr (hfirst j m' hj)) ?_
  intro j n' m' _ _ _ a _ ha
  simp [MeshAxes.names] at ha

/-- C45. A dimension for whose name there is no rule is unsharded. -/
theorem C45_no_rule {dims : List (Option Str)} {rules : List LRule} {spec : List MeshAxes}
    (h : logicalToMeshAxes (some dims) rules = .ok (some spec)) {i : Nat} {n : Option Str} (hd : dims[i]? = some n)
    (hno : ∀ r ∈ rules, r.1 ≠ n) : spec[i]? = some .none := by
  apply (C45_priority h (fires_applied dims rules)).2 i (List.getElem?_eq_some_iff.1 hd).1
  rintro m ⟨k, n', -, hr, hd', -⟩
  rw [hd] at hd'
  exact hno _ (List.mem_of_getElem? hr) (Option.some.inj hd').symm

example : logicalToMeshAxes (some [some (py! "a"), some (py! "b")])
    [(some (py! "a"), .none), (some (py! "b"), .axis (py! "X")), (some (py! "a"), .axis (py! "Y"))] =
    .ok (some [.none, .axis (py! "X")]) := by decide

example : DimNamed exDims 2 (some (py! "heads")) ∧ exRules[2]? = some (some (py! "heads"), .axes [py! "Y", py! "W"]) ∧
    (∀ j m', j < 2 → exRules[j]? ≠ some (some (py! "heads"), m')) := by
  refine ⟨?_, rfl, ?_⟩
  · rw [dimNamed_iff]; decide
  · rintro (_ | _ | j) m' hj
    · simp only [exRules, List.getElem?_cons_zero, ne_eq, Option.some.injEq, Prod.mk.injEq, not_and]
      intro h; exact absurd h (by decide)
    · simp only [exRules, List.getElem?_cons_succ, List.getElem?_cons_zero, ne_eq, Option.some.injEq, Prod.mk.injEq, not_and]
      intro h; exact absurd h (by decide)
    · exact absurd hj (by simp)

/-! ### C47 -/

theorem RProg.run_spec (p : RProg) : ∀ r, p.run r = ⟨(p.spec r).1, (p.spec r).2.1, (p.spec r).2.2⟩ := by
  induction p with
  | skip => intro; rfl
  | raise e => intro; rfl
  | seq p q ihp ihq =>
    intro r
    simp only [RProg.run, RProg.spec, ihp]
    rcases p.spec r with ⟨o, r', _ | e⟩ <;> simp [ihq]
  | block rules p ih => intro r; simp only [RProg.run, RProg.spec, ih]
  | set rules => intro; rfl
  | tryExcept p h ihp ihh =>
    intro r
    simp only [RProg.run, RProg.spec, ihp]
    rcases p.spec r with ⟨o, r', _ | e⟩ <;> simp [ihh]
  | observe => intro; rfl

/-- C47. However a `logical_axis_rules` block is left, and whatever its body did to the rules, the rules afterwards are the ones
from before. -/
theorem C47_block_restores (rules : List LRule) (p : RProg) (r : List LRule) : ((RProg.block rules p).run r).rules = r := by
  rfl

/-- C47. A program that changes rules only by such blocks, at any depth and with any exceptions, leaves the rules unchanged. -/
theorem C47_restored (p : RProg) (hp : p.NoSet) (r : List LRule) : (p.run r).rules = r := by
  induction p generalizing r with
  | skip => rfl
  | raise e => rfl
  | seq p q ihp ihq =>
    simp only [RProg.run]
    have h1 := ihp hp.1 r
    split
    · exact h1
    · simp only [h1, ihq hp.2 r]
  | block rules p ih => rfl
  | set rules => exact absurd hp (by simp [RProg.NoSet])
  | tryExcept p h ihp ihh =>
    simp only [RProg.run]
    have h1 := ihp hp.1 r
    split
    · exact h1
    · simp only [h1, ihh hp.2 r]
  | observe => rfl

/-- C47. Inside a block the innermost block's rules are in force: what a program reads and raises is what the semantics without
saved rules says. -/
theorem C47_inside (p : RProg) (r : List LRule) :
    (p.run r).obs = (p.spec r).1 ∧ (p.run r).rules = (p.spec r).2.1 ∧ (p.run r).exc = (p.spec r).2.2 := by
  rw [p.run_spec r]; exact ⟨rfl, rfl, rfl⟩

theorem runSchedule_local (sched : List (Nat × RuleOp)) : ∀ (st : Nat → RThread) (i : Nat),
    runSchedule sched st i = ((sched.filter (fun s => s.1 = i)).map (·.2)).foldl (fun t op => op.apply t) (st i) := by
  induction sched with
  | nil => intros; rfl
  | cons s sched ih =>
    intro st i
    have : runSchedule (s :: sched) st i = runSchedule sched (fun i => if i = s.1 then s.2.apply (st i) else st i) i := rfl
    rw [this, ih]
    by_cases h : i = s.1
    · subst h
      simp
    · rw [List.filter_cons_of_neg (by simpa using fun h' => h h'.symm), if_neg h]

/-- C47. Rules are per thread: under every interleaving, what a thread reads depends only on its own steps. -/
theorem C47_threads (s s' : List (Nat × RuleOp)) (st : Nat → RThread) (i : Nat)
    (h : s.filter (fun x => x.1 = i) = s'.filter (fun x => x.1 = i)) : runSchedule s st i = runSchedule s' st i := by
  rw [runSchedule_local, runSchedule_local, h]

/-- The steps of a thread's own well-nested blocks. -/
inductive Balanced : List RuleOp → Prop
  | nil : Balanced []
  | get {l} : Balanced l → Balanced (.get :: l)
  | block {r b l} : Balanced b → Balanced l → Balanced (.enter r :: (b ++ .exit :: l))

/-- C47. Under every interleaving, after its own well-nested blocks a thread's rules are what they were before, whatever the other
threads do. -/
theorem C47_thread_restored (s : List (Nat × RuleOp)) (st : Nat → RThread) (i : Nat)
    (h : Balanced ((s.filter (fun x => x.1 = i)).map (·.2))) : (runSchedule s st i).rules = (st i).rules := by
  rw [runSchedule_local]
  generalize (s.filter (fun x => x.1 = i)).map (·.2) = l at h
  suffices ∀ t : RThread, (l.foldl (fun t op => op.apply t) t).rules = t.rules ∧
      (l.foldl (fun t op => op.apply t) t).saved = t.saved from (this _).1
  induction h with
  | nil => intro t; exact ⟨rfl, rfl⟩
  | get _ ih => intro t; rw [List.foldl_cons]; exact ih _
  | @block r b l _ _ ihb ihl =>
    intro t
    rw [List.foldl_cons, List.foldl_append, List.foldl_cons]
    have h1 := ihb (RuleOp.apply (.enter r) t)
    generalize b.foldl (fun t op => op.apply t) (RuleOp.apply (.enter r) t) = t' at h1
    have h2 := ihl (RuleOp.apply .exit t')
    have h3 : (RuleOp.apply .exit t').rules = t.rules ∧ (RuleOp.apply .exit t').saved = t.saved := by
      have hs : t'.saved = t.rules :: t.saved := h1.2
      simp only [RuleOp.apply, hs, and_self]
    exact ⟨h2.1.trans h3.1, h2.2.trans h3.2⟩

example : (RProg.seq (.tryExcept (.block exRules (.seq .observe (.block [] (.seq (.set exRules) (.raise 3))))) .observe) .observe).run [] =
    ⟨[exRules, [], []], [], none⟩ := by decide

example : Balanced [.enter exRules, .get, .enter [], .exit, .exit, .get] :=
  .block (b := [.get, .enter [], .exit]) (.get (.block (b := []) .nil .nil)) (.get .nil)

/-! ### C48 -/

/-- Some dimension gets no rule. -/
def Unmatched (dims : List (Option Str)) (rules : List LRule) : Prop :=
  ∃ i, i < dims.length ∧ ∀ applied, Applied dims rules applied → ∀ m, ¬ Gets dims rules applied i m

variable {X M : Type}

theorem unmatched_iff (dims : List (Option Str)) (rules : List LRule) :
    (rules.foldl (applyRule dims) (List.replicate dims.length .unassigned)).contains .unassigned = true ↔ Unmatched dims rules := by
  rw [List.contains_iff_mem]
  constructor
  · intro h
    obtain ⟨i, hi⟩ := List.getElem?_of_mem h
    refine ⟨i, ?_, ?_⟩
    · have := (List.getElem?_eq_some_iff.1 hi).1
      rwa [foldl_applyRule_length] at this
    · intro applied ha m hg
      rw [← foldl_applyRule_iff dims rules ha, hi] at hg
      exact absurd hg (by simp)
  · rintro ⟨i, hi, h⟩
    have hlt : i < (rules.foldl (applyRule dims) (List.replicate dims.length .unassigned)).length := by
      rw [foldl_applyRule_length]; exact hi
    cases hs : (rules.foldl (applyRule dims) (List.replicate dims.length .unassigned))[i] with
    | unassigned => exact List.mem_of_getElem? (by rw [List.getElem?_eq_getElem hlt, hs])
    | assigned m =>
      exfalso
      apply h _ (fires_applied dims rules) m
      rw [← foldl_applyRule_iff dims rules (fires_applied dims rules), List.getElem?_eq_getElem hlt, hs]

/-- What "constrained to `spec`" means: under an explicit mesh with that mesh, else under the global mesh; without any mesh not at
all. -/
def constrainedTo (globalMesh : Bool) (mesh : Option M) (x : X) (spec : List MeshAxes) : Constrained X M :=
  match mesh with
  | some m => .constrained x (some spec) (some m)
  | none => if globalMesh then .constrained x (some spec) none else .same x

theorem withShardingConstraint_eq (g : Bool) (x : X) (spec : List MeshAxes) (mesh : Option M) :
    withShardingConstraint g x (some spec) mesh = constrainedTo g mesh x spec := by
  cases mesh <;> cases g <;> rfl

/-- C48. With no rules, given or in force, or with no spec, the value is returned as it is. -/
theorem C48_no_rules_or_spec (g : Bool) (ctx : List LRule) (x : X) (dims : Option (List (Option Str)))
    (rules : Option (List LRule)) (mesh : Option M) (fb : Fallback) (h : rules.getD ctx = [] ∨ dims = none) :
    withLogicalConstraint g ctx x dims rules mesh fb = .ok (.same x) := by
  unfold withLogicalConstraint
  rcases h with h | rfl
  · simp [h]
  · simp

/-- C48. The whole table, for a spec `dims` and non-empty rules (the ones given, else the ones in force): a repeated name raises
ValueError; an unmatched dimension raises ValueError under RAISE_ERROR and gives back the value under NO_CONSTRAINT; in all other
cases the value is constrained to the PartitionSpec of `logical_to_mesh_axes`, where unmatched dimensions are None. -/
theorem C48_table (g : Bool) (ctx : List LRule) (x : X) (dims : List (Option Str)) (rules : Option (List LRule)) (mesh : Option M)
    (fb : Fallback) (h : rules.getD ctx ≠ []) :
    (RepeatedName dims → withLogicalConstraint g ctx x (some dims) rules mesh fb = .error .valueError) ∧
    (¬ RepeatedName dims → Unmatched dims (rules.getD ctx) → fb = .raiseError →
      withLogicalConstraint g ctx x (some dims) rules mesh fb = .error .valueError) ∧
    (¬ RepeatedName dims → Unmatched dims (rules.getD ctx) → fb = .noConstraint →
      withLogicalConstraint g ctx x (some dims) rules mesh fb = .ok (.same x)) ∧
    (¬ RepeatedName dims → (Unmatched dims (rules.getD ctx) → fb = .axisIsUnsharded) →
      ∃ spec, logicalToMeshAxes (some dims) (rules.getD ctx) = .ok (some spec) ∧
        withLogicalConstraint g ctx x (some dims) rules mesh fb = .ok (constrainedTo g mesh x spec)) := by
  have he : (rules.getD ctx).isEmpty = false := by simpa using h
  unfold withLogicalConstraint
  simp only [he, Option.isNone_some, Bool.or_self, Bool.false_eq_true, if_false, oneFallback, logicalToMeshAxes, logicalToMeshRaw]
  generalize rules.getD ctx = rs
  rw [← repeated_iff, ← unmatched_iff]
  refine ⟨?_, ?_, ?_, ?_⟩
  · intro hr; simp [hr]
  · intro hr hu hfb
    subst hfb
    rw [if_neg hr]
    simp only [hu, if_true]
  · intro hr hu hfb
    subst hfb
    rw [if_neg hr]
    simp only [hu, if_true]
    simp
  · intro hr hu
    rw [if_neg hr]
    refine ⟨_, rfl, ?_⟩
    cases fb with
    | axisIsUnsharded => simp only [withShardingConstraint_eq]
    | raiseError =>
      have : ¬ (rs.foldl (applyRule dims) (List.replicate dims.length .unassigned)).contains .unassigned = true := by
        intro hc; exact absurd (hu hc) (by simp)
      simp only [this, Bool.false_eq_true, if_false, withShardingConstraint_eq]
    | noConstraint =>
      have : ¬ (rs.foldl (applyRule dims) (List.replicate dims.length .unassigned)).contains .unassigned = true := by
        intro hc; exact absurd (hu hc) (by simp)
      simp only [this, Bool.false_eq_true, if_false, withShardingConstraint_eq]

/-- C48. Without a mesh, neither given nor global, no call constrains anything. -/
theorem C48_no_mesh (ctx : List LRule) (x : X) (dims : Option (List (Option Str))) (rules : Option (List LRule)) (fb : Fallback)
    {r : Constrained X M} (h : withLogicalConstraint false ctx x dims rules none fb = .ok r) : r = .same x := by
  by_cases h1 : rules.getD ctx = [] ∨ dims = none
  · rw [C48_no_rules_or_spec false ctx x dims rules none fb h1] at h
    exact (Except.ok.inj h).symm
  · obtain ⟨hr, hd⟩ := not_or.1 h1
    obtain ⟨d, rfl⟩ := Option.ne_none_iff_exists'.1 hd
    obtain ⟨t1, t2, t3, t4⟩ := C48_table false ctx x d rules (none : Option M) fb hr
    by_cases ha : RepeatedName d
    · rw [t1 ha] at h; simp at h
    by_cases hb : Unmatched d (rules.getD ctx) → fb = .axisIsUnsharded
    · obtain ⟨spec, -, e⟩ := t4 ha hb
      rw [e] at h
      exact (Except.ok.inj h).symm
    · obtain ⟨hu, hfb⟩ := Classical.not_imp.1 hb
      cases fb with
      | axisIsUnsharded => exact absurd rfl hfb
      | raiseError => rw [t2 ha hu rfl] at h; simp at h
      | noConstraint => rw [t3 ha hu rfl] at h; exact (Except.ok.inj h).symm

/-- C48. The value itself is never changed: every returned value is `x`, constrained or not. -/
theorem C48_value_kept (g : Bool) (ctx : List LRule) (x : X) (dims : Option (List (Option Str))) (rules : Option (List LRule))
    (mesh : Option M) (fb : Fallback) {r : Constrained X M} (h : withLogicalConstraint g ctx x dims rules mesh fb = .ok r) :
    r = .same x ∨ ∃ spec mesh', r = .constrained x spec mesh' := by
  have hk : ∀ s, withShardingConstraint g x s mesh = .same x ∨ ∃ spec mesh', withShardingConstraint g x s mesh = .constrained x spec mesh' := by
    intro s
    unfold withShardingConstraint
    split
    · exact Or.inl rfl
    · split <;> exact Or.inr ⟨_, _, rfl⟩
  unfold withLogicalConstraint at h
  simp only at h
  split at h
  · exact Or.inl (Except.ok.inj h).symm
  · unfold oneFallback at h
    split at h
    · rw [← Except.ok.inj h]; exact hk _
    · split at h
      · simp at h
      · split at h
        · rw [← Except.ok.inj h]; exact hk _
        · split at h
          · split at h
            · simp at h
            · exact Or.inl (Except.ok.inj h).symm
          · rw [← Except.ok.inj h]; exact hk _

theorem mapExcept_ok {A B : Type} {f : A → Except Err B} : ∀ {l : List A} {r : List B}, mapExcept f l = .ok r →
    r.length = l.length ∧ ∀ (i : Nat) (a : A), l[i]? = some a → ∃ b, f a = .ok b ∧ r[i]? = some b := by
  intro l
  induction l with
  | nil => intro r h; rw [← Except.ok.inj h]; simp
  | cons x xs ih =>
    intro r h
    simp only [mapExcept] at h
    split at h
    · simp at h
    · next y hy =>
      split at h
      · simp at h
      · next ys hys =>
        rw [← Except.ok.inj h]
        obtain ⟨h1, h2⟩ := ih hys
        refine ⟨by simp [h1], ?_⟩
        rintro (_ | i) a ha
        · simp only [List.getElem?_cons_zero, Option.some.injEq] at ha
          exact ⟨y, ha ▸ hy, rfl⟩
        · exact h2 i a (by simpa using ha)

theorem mapExcept_error {A B : Type} {f : A → Except Err B} : ∀ {l : List A} {e : Err}, mapExcept f l = .error e →
    ∃ (i : Nat) (a : A), l[i]? = some a ∧ f a = .error e ∧ ∀ (j : Nat) (b : A), j < i → l[j]? = some b → ∃ c, f b = .ok c := by
  intro l
  induction l with
  | nil => intro e h; simp [mapExcept] at h
  | cons x xs ih =>
    intro e h
    simp only [mapExcept] at h
    split at h
    · next e' he =>
      exact ⟨0, x, rfl, by rw [he, Except.error.inj h], fun j _ hj => absurd hj (Nat.not_lt_zero _)⟩
    · next y hy =>
      split at h
      · next e' he =>
        obtain ⟨i, a, h1, h2, h3⟩ := ih he
        refine ⟨i + 1, a, by simpa using h1, by rw [h2, Except.error.inj h], ?_⟩
        rintro (_ | j) b hj hb
        · simp only [List.getElem?_cons_zero, Option.some.injEq] at hb; exact ⟨y, hb ▸ hy⟩
        · exact h3 j b (Nat.lt_of_succ_lt_succ hj) (by simpa using hb)
      · simp at h

/-- C48. A tree of arrays is treated leaf by leaf: each leaf of the result is what the call gives for that array with its spec
(a leaf with spec None is handed to jax with no spec under a mesh, else left alone). -/
theorem C48_tree (g : Bool) (ctx : List LRule) (xs : List (Option (List (Option Str)) × X)) (rules : Option (List LRule))
    (mesh : Option M) (fb : Fallback) {r : List (Constrained X M)}
    (h : withLogicalConstraints g ctx xs rules mesh fb = .ok r) :
    r.length = xs.length ∧ ∀ (i : Nat) (d : List (Option Str)) (x : X), xs[i]? = some (some d, x) →
      ∃ y, withLogicalConstraint g ctx x (some d) rules mesh fb = .ok y ∧ r[i]? = some y := by
  unfold withLogicalConstraints at h
  simp only at h
  split at h
  · next he =>
    rw [← Except.ok.inj h]
    refine ⟨by simp, ?_⟩
    intro i d x hx
    refine ⟨.same x, C48_no_rules_or_spec g ctx x _ rules mesh fb (Or.inl (by simpa using he)), ?_⟩
    rw [List.getElem?_map, hx]; rfl
  · next he =>
    obtain ⟨h1, h2⟩ := mapExcept_ok h
    refine ⟨h1, ?_⟩
    intro i d x hx
    obtain ⟨y, hy, hi⟩ := h2 i _ hx
    refine ⟨y, ?_, hi⟩
    unfold withLogicalConstraint
    simpa [he] using hy

/-- An unnamed dimension counts as unmatched: under RAISE_ERROR a spec with a None entry raises, even if every name has a rule. -/
theorem C48_unnamed_raises : withLogicalConstraint (M := Nat) true [] (0 : Nat) (some [none, some (py! "a")])
    (some [(some (py! "a"), .axis (py! "X"))]) none .raiseError = .error .valueError := by decide

example : withLogicalConstraint (M := Nat) false [] (0 : Nat) (some exDims) (some exRules) (some 7) .axisIsUnsharded =
    .ok (.constrained 0 (some [.axis (py! "X"), .none, .axes [py! "Y", py! "W"], .none]) (some 7)) := by decide

example : Unmatched exDims exRules := by rw [← unmatched_iff]; decide

example : withLogicalConstraint (M := Nat) true exRules (0 : Nat) (some exDims) none none .noConstraint = .ok (.same 0) := by decide

/-! ### C74 -/

/-- C74. What an initializer from `with_logical_partitioning` stores is its result, constrained to the PartitionSpec of its sharding
under the mesh and rules given to it; reading the attribute applies the same constraint with the mesh and rules kept in the
container's metadata. So both agree, for every sharding that is not empty, when the rules in force are the same. -/
theorem C74_read_as_stored (g : Bool) (ctx : List LRule) (hasShape : X → Bool) (y : X) (sharding : List (Option Str))
    (mesh : Option M) (rules : Option (List LRule)) (h : sharding ≠ []) :
    logicalUnbox g ctx hasShape ⟨y, sharding, mesh, rules⟩ = logicalInit g ctx y sharding mesh rules := by
  have he : sharding.isEmpty = false := by simpa using h
  simp [logicalUnbox, logicalInit, he]

/-- C74. Reading such an attribute: without any mesh, or without rules, it is the stored value; otherwise it is the stored value
constrained to the PartitionSpec of the sharding, unmatched names being unsharded. -/
theorem C74_read (g : Bool) (ctx : List LRule) (hasShape : X → Bool) (node : LogicalNode X M) (h : node.sharding ≠ [])
    (hd : ¬ RepeatedName node.sharding) :
    ((g = false ∧ node.mesh = none) ∨ node.rules.getD ctx = [] → logicalUnbox g ctx hasShape node = .ok (.same node.value)) ∧
    (node.rules.getD ctx ≠ [] → ∃ spec, logicalToMeshAxes (some node.sharding) (node.rules.getD ctx) = .ok (some spec) ∧
      logicalUnbox g ctx hasShape node = .ok (constrainedTo g node.mesh node.value spec)) := by
  have he : node.sharding.isEmpty = false := by simpa using h
  constructor
  · rintro (⟨rfl, hm⟩ | hr)
    · simp [logicalUnbox, hm]
    · unfold logicalUnbox
      simp only [he, C48_no_rules_or_spec g ctx node.value _ node.rules node.mesh _ (Or.inl hr), ite_self]
  · intro hr
    obtain ⟨spec, h1, h2⟩ := (C48_table g ctx node.value node.sharding node.rules node.mesh .axisIsUnsharded hr).2.2.2 hd (fun _ => rfl)
    refine ⟨spec, h1, ?_⟩
    unfold logicalUnbox
    simp only [he, Bool.false_eq_true, if_false, h2]
    split
    · rfl
    · next hc =>
      cases g <;> cases hm : node.mesh <;> simp [hm] at hc
      rfl

example : logicalUnbox (M := Nat) true exRules (fun _ => true) ⟨(5 : Nat), exDims, none, none⟩ =
    .ok (.constrained 5 (some [.axis (py! "X"), .none, .axes [py! "Y", py! "W"], .none]) none) := by decide

end Nnx
