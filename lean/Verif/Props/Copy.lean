import Verif.Proofs.Copy
import Verif.Props.ModuleDef
import Verif.Spec.Programs
/-
C97: copying Modules with Python's copy module.
-/
namespace Nnx
variable {α : Type} [DecidableEq α]

/-! ### deepcopy -/

omit [DecidableEq α] in
/-- Right after a deep copy, no Module can be reached both from the original and from the copy. -/
theorem deepCopy_apart {fresh : Nat → Nat} {w w' : World α} (wf : WFWorld w) {m c : Loc} (hm : m < w.heap.length) {fuel : Nat}
    (hf : w.heap.length < fuel) (hc : deepCopy fresh fuel m w = (w', .ok c)) :
    WFWorld w' ∧ m < w'.heap.length ∧ c < w'.heap.length ∧ Apart w' [m] [c] := by
  obtain ⟨w1, f, h1, sp, _, _, hids, _⟩ := deepCopy_spec (fresh := fresh) wf.heap hm hf
  rw [hc] at h1; cases h1
  have hwf : WFWorld w' := by
    refine ⟨sp.wf wf.heap wf.heap wf.ids, ?_⟩
    intro l o ho
    by_cases hl : l < w.heap.length
    · rw [sp.old l hl] at ho
      exact Nat.le_trans (wf.ids l o ho) hids
    · exact (sp.fresh l o (Nat.le_of_not_lt hl) ho).2
  have hclt : w.heap.length < w'.heap.length := by
    obtain ⟨o', ho', _⟩ := sp.iso.obj m _ ⟨[], .here hm⟩ (List.getElem?_eq_getElem hm)
    rw [sp.iso.root] at ho'
    exact (List.getElem?_eq_some_iff.1 ho').1
  refine ⟨hwf, Nat.lt_of_lt_of_le hm sp.len, hclt, ?_⟩
  intro a ha b hb l hal hbl
  simp only [List.mem_singleton] at ha hb
  subst ha; subst hb
  obtain ⟨p, hp⟩ := hal
  obtain ⟨q, hq⟩ := hbl
  have h1 := (walk_same (h := w.heap) (h' := w'.heap) (B := fun _ => True) (fun _ _ _ _ _ => trivial) sp.len
    (fun l _ hl => sp.old l hl) trivial hm wf.heap.refs).1 hp
  rw [← sp.iso.root] at hq
  obtain ⟨b, hb, _⟩ := sp.iso.walk_back wf.heap ⟨[], .here hm⟩ hq
  rw [hb] at h1
  exact Nat.lt_irrefl _ (Nat.lt_of_lt_of_le h1.lt (sp.ge b))

omit [DecidableEq α] in
/-- **C97, a deep copy is an equal, separate Module.** `copy.deepcopy(m)` returns; it changes no existing Module; the
copy shows on every access path what `m` shows, with the same sharing; `partition()` gives the same State and ModuleDef
for both; every Module of the copy is a new object with an id that was never used before.
Partial: the copy cannot be assigned to (`C97_deep_copy_frozen`, `C97_deep_copy_not_assignable`). -/
theorem C97_deep_copy_partial (fresh : Nat → Nat) {w : World α} (wf : WFWorld w) {m : Loc} (hm : m < w.heap.length)
    {fuel : Nat} (hf : w.heap.length < fuel) :
    ∃ w' c, deepCopy fresh fuel m w = (w', .ok c) ∧ WFWorld w' ∧ SameGraph w.heap m w'.heap c ∧
      (∀ l : Loc, l < w.heap.length → w'.heap[l]? = w.heap[l]?) ∧
      (∀ (l : Loc) (o : ModObj α), Reaches w'.heap c l → w'.heap[l]? = some o → w.heap.length ≤ l ∧ w.nextId < o.uid) ∧
      ∀ k k', w.heap.length < k → w'.heap.length < k' → ∃ s d, partitionModule k w.heap m [] = .ok ([s], d) ∧
        partitionModule k' w'.heap c [] = .ok ([s], d) := by
  obtain ⟨w', f, h1, sp, _, _, hids, _⟩ := deepCopy_spec (fresh := fresh) wf.heap hm hf
  obtain ⟨a1, a2, a3, _⟩ := deepCopy_apart wf hm hf h1
  have hs := sp.iso.sameGraph wf.heap hm
  refine ⟨w', _, h1, a1, hs, sp.old, ?_, fun k k' hk hk' => C24_partition_canonical wf.heap a1.heap hm a3 hs hk hk'⟩
  rintro l o ⟨p, hp⟩ ho
  rw [← sp.iso.root] at hp
  obtain ⟨b, rfl, _⟩ := sp.iso.walk_back wf.heap ⟨[], .here hm⟩ hp
  exact ⟨sp.ge b, (sp.fresh _ _ (sp.ge b) ho).1⟩

/-- **C97, independence.** After `c = copy.deepcopy(m)`, in every interleaved history of API calls by a party that starts
with `m` and a party that starts with `c`, no call of one party ever changes a Module that the other can reach. -/
theorem C97_deep_copy_independent {fresh : Nat → Nat} {w w1 : World α} (wf : WFWorld w) {m c : Loc} (hm : m < w.heap.length)
    {fuel : Nat} (hf : w.heap.length < fuel) (hc : deepCopy fresh fuel m w = (w1, .ok c)) {A B : List Loc} {w2 : World α}
    (hr : Run [m] [c] w1 A B w2) :
    (∀ A' w3, Step A w2 A' w3 → ∀ b ∈ B, ∀ l, Reaches w2.heap b l → w3.heap[l]? = w2.heap[l]?) ∧
    (∀ B' w3, Step B w2 B' w3 → ∀ a ∈ A, ∀ l, Reaches w2.heap a l → w3.heap[l]? = w2.heap[l]?) := by
  obtain ⟨h1, h2, h3, h4⟩ := deepCopy_apart wf hm hf hc
  obtain ⟨i1, i2, i3, i4⟩ := hr.invariant h1 (by simpa using h2) (by simpa using h3) h4
  constructor
  · intro A' w3 s b hb l hl
    exact (s.other i1 i2 i3 i4).1 b hb l hl
  · intro B' w3 s a ha l hl
    exact (s.other i1 i3 i2 (fun b hb a ha l h h' => i4 a ha b hb l h' h)).1 a ha l hl

/-- **C97, a deep copy is frozen.** The trace objects that a Module remembers are copied with it, and validity compares
them by identity. So after any history of API calls, as long as the current jax trace is not such a copy, assigning to an
attribute of any Module of the copy raises TraceContextError. -/
theorem C97_deep_copy_frozen {fresh : Nat → Nat} {w w1 : World α} (wf : WFWorld w) {m c : Loc} (hm : m < w.heap.length)
    {fuel : Nat} (hf : w.heap.length < fuel) (hc : deepCopy fresh fuel m w = (w1, .ok c))
    {K K' : List Loc} {w2 : World α} (hr : Steps K w1 K' w2) (hK : ∀ k ∈ K, k < w1.heap.length)
    (hnew : ∀ t, fresh t ≠ w2.jaxTrace) {l : Loc} (hl : Reaches w1.heap c l) (n : Str) (x : Attr α) :
    setAttr w2 l n x = .error .traceContextError := by
  obtain ⟨w', f, h1, sp, _, _, _, htr⟩ := deepCopy_spec (fresh := fresh) wf.heap hm hf
  obtain ⟨a1, _⟩ := deepCopy_apart wf hm hf hc
  rw [hc] at h1; cases h1
  obtain ⟨p, hp⟩ := hl
  rw [← sp.iso.root] at hp
  obtain ⟨b, rfl, hw⟩ := sp.iso.walk_back wf.heap ⟨[], .here hm⟩ hp
  obtain ⟨o', ho', ht⟩ := htr b _ ⟨_, hw⟩ (List.getElem?_eq_getElem hw.lt)
  obtain ⟨o2, ho2, _, _, ht2⟩ := C71_identity_stable hr a1 hK ho'
  have hbad : w2.traceValid o2.trace = false := by
    simp only [World.traceValid, ht2, ht, copyTrace, World.curTrace, decide_eq_false (hnew _), Bool.false_and]
  simp only [setAttr, ho2, hbad, if_true]

/-- **C97, a clone of the deep copy can be used.** `copy.deepcopy(m).clone()` shows what `m` shows and all its Modules can be
assigned to. -/
theorem C97_clone_thaws (fresh : Nat → Nat) {w : World α} (wf : WFWorld w) {m : Loc} (hm : m < w.heap.length)
    {fuel fuel' : Nat} (hf : w.heap.length < fuel) {w1 : World α} {c : Loc} (hc : deepCopy fresh fuel m w = (w1, .ok c))
    (hf' : w1.heap.length < fuel') :
    ∃ w2 d, cloneModule fuel' c w1 = (w2, .ok d) ∧ SameGraph w.heap m w2.heap d ∧ AllValid w2 d := by
  obtain ⟨a1, _, a3, _⟩ := deepCopy_apart wf hm hf hc
  obtain ⟨w', f', h1', sp', _⟩ := deepCopy_spec (fresh := fresh) wf.heap hm hf
  rw [hc] at h1'; cases h1'
  obtain ⟨w2, f, h2, sp⟩ := clone_spec a1.heap a3 hf'
  have s1 := sp'.iso.sameGraph wf.heap hm
  have s2 := sp.iso.sameGraph a1.heap a3
  refine ⟨w2, _, h2, ⟨fun p => (s2.1 p).trans (s1.1 p), fun p q => (s2.2 p q).trans (s1.2 p q)⟩, ?_⟩
  rintro l o ⟨p, hp⟩ ho
  rw [← sp.iso.root] at hp
  obtain ⟨b, rfl, _⟩ := sp.iso.walk_back a1.heap ⟨[], .here a3⟩ hp
  have := (sp.fresh _ _ (sp.ge b) ho).2.2
  simp only [World.traceValid, this, World.curTrace, sp.jax, sp.stack, decide_true, Bool.and_self]

/-- The graph of the examples, with a shared submodule and a cycle, is copied; the copy has the state of the original. -/
example : ∃ w' c, deepCopy (· + 100) 4 0 exWorld = (w', .ok c) ∧ w'.heap.length = 2 * exWorld.heap.length ∧
    getState 10 w'.heap c = getState 4 exWorld.heap 0 ∧ (getState 4 exWorld.heap 0).isSome = true :=
  ⟨_, _, rfl, by decide, by decide, by decide⟩

/-- **C97 fails as stated.** A Module of the current trace can be assigned to, its deep copy cannot. -/
theorem C97_deep_copy_not_assignable : ∃ (w : World Nat) (m : Loc) (w1 : World Nat) (c : Loc) (v : PyVal Nat),
    WFWorld w ∧ deepCopy (· + 100) 4 m w = (w1, .ok c) ∧ (∃ w', setAttr w m (py! "k") (.val v) = .ok w') ∧
    setAttr w1 c (py! "k") (.val v) = .error .traceContextError :=
  ⟨exWorld, 0, _, _, .data cTuple 99, exWorld_wf, rfl, ⟨_, rfl⟩, rfl⟩

/-! ### copy -/

omit [DecidableEq α] in
/-- **C97, a shallow copy** is a new object with the attributes of the original; Module attributes are the same
objects; nothing that exists changes; the id is the id of the original. -/
theorem C97_shallow_copy {w : World α} {m : Loc} (hm : m < w.heap.length) :
    ∃ w1 c, shallowCopy m w = .ok (c, w1) ∧ w.heap.length ≤ c ∧
      (∀ n, attrAt w1.heap c n = attrAt w1.heap m n) ∧ (∀ n, attrAt w1.heap m n = attrAt w.heap m n) ∧
      (∀ l : Loc, l < w.heap.length → w1.heap[l]? = w.heap[l]?) ∧
      (∃ o o', w1.heap[m]? = some o ∧ w1.heap[c]? = some o' ∧ o'.uid = o.uid) := by
  have ho := List.getElem?_eq_getElem hm
  generalize w.heap[m] = o at ho
  have hold : ∀ l : Loc, l < w.heap.length → (w.heap ++ [o])[l]? = w.heap[l]? := fun l hl => List.getElem?_append_left hl
  have hnew : (w.heap ++ [o])[w.heap.length]? = some o := List.getElem?_concat_length
  refine ⟨_, _, by simp only [shallowCopy, ho]; rfl, Nat.le_refl _, ?_, ?_, hold, o, o, (hold m hm).trans ho, hnew, rfl⟩
  · intro n
    simp only [attrAt, hnew, hold m hm, ho]
  · intro n
    simp only [attrAt, hold m hm]

omit [DecidableEq α] in
theorem iterStateRec_seen {h : Heap α} {f l S p ys S'} (e : iterStateRec h f l S p = some (ys, S')) : ∀ u ∈ S, u ∈ S' := by
  obtain ⟨vs, d, _⟩ := iterStateRec_dfs h f l S p ys S' e
  exact d.subset

omit [DecidableEq α] in
theorem makeDef_seen (h : Heap α) (f : Nat) :
    (∀ (l : Loc) (S : List Nat) d S', makeDefRec h f l S = some (d, S') → ∀ u ∈ S, u ∈ S') ∧
    (∀ (as : List (Str × Attr α)) (S : List Nat) a b S', makeDefAttrs (makeDefRec h f) as S = some (a, b, S') →
      ∀ u ∈ S, u ∈ S') := by
  have step : ∀ f, (∀ (l : Loc) (S : List Nat) d S', makeDefRec h f l S = some (d, S') → ∀ u ∈ S, u ∈ S') →
      ∀ (as : List (Str × Attr α)) (S : List Nat) a b S', makeDefAttrs (makeDefRec h f) as S = some (a, b, S') →
      ∀ u ∈ S, u ∈ S' := by
    intro f ih as
    induction as with
    | nil => intro S a b S' e; cases e; exact fun u h => h
    | cons x as iha =>
      obtain ⟨n, x⟩ := x
      intro S a b S' e
      cases x with
      | val v =>
        rw [makeDefAttrs] at e
        split at e
        · cases e
        · next he => split at e <;> (cases e; exact iha _ _ _ _ he)
      | ref l =>
        rw [makeDefAttrs] at e
        split at e
        · cases e
        · next h1 =>
          split at e
          · cases e
          · next h2 => cases e; exact fun u hu => iha _ _ _ _ h2 u (ih _ _ _ _ h1 u hu)
  suffices hr : ∀ (l : Loc) (S : List Nat) d S', makeDefRec h f l S = some (d, S') → ∀ u ∈ S, u ∈ S' from ⟨hr, step f hr⟩
  induction f with
  | zero => intro l S d S' e; cases e
  | succ f ih =>
    intro l S d S' e
    rw [makeDefRec] at e
    split at e
    · cases e
    · split at e
      · cases e; exact fun u h => h
      · split at e
        · cases e
        · next subs statics idx he =>
          cases e
          exact fun u hu => step f ih _ _ _ _ _ he u (List.mem_append_left _ hu)

omit [DecidableEq α] in
/-- Two heaps that differ only in the attributes of the Module at `c`. -/
structure DiffersAt (c : Loc) (h h' : Heap α) : Prop where
  same : ∀ l : Loc, l ≠ c → h'[l]? = h[l]?
  uid : ∃ o o', h[c]? = some o ∧ h'[c]? = some o' ∧ o'.uid = o.uid

omit [DecidableEq α] in
/-- A Module whose id has been seen contributes nothing. -/
theorem DiffersAt.iterState {c : Loc} {h h' : Heap α} (D : DiffersAt c h h') {u : Nat} (hu : ∃ o, h[c]? = some o ∧ o.uid = u) (f : Nat) :
    (∀ (l : Loc) (S : List Nat) (p : List Str), u ∈ S → iterStateRec h' f l S p = iterStateRec h f l S p) ∧
    (∀ (as : List (Str × Attr α)) (S : List Nat) (p : List Str), u ∈ S →
      iterStateAttrs (iterStateRec h' f) as S p = iterStateAttrs (iterStateRec h f) as S p) := by
  induction f with
  | zero =>
    refine ⟨fun _ _ _ _ => rfl, ?_⟩
    intro as S p _
    rw [show iterStateRec h' 0 = iterStateRec h 0 from rfl]
  | succ f ih =>
    have h1 : ∀ (l : Loc) (S : List Nat) (p : List Str), u ∈ S → iterStateRec h' (f + 1) l S p = iterStateRec h (f + 1) l S p := by
      intro l S p hS
      rw [iterStateRec, iterStateRec]
      by_cases e : l = c
      · subst e
        obtain ⟨o, o', ho, ho', huu⟩ := D.uid
        obtain ⟨o2, ho2, rfl⟩ := hu
        rw [ho] at ho2; cases ho2
        simp only [ho, ho', huu, hS, if_true]
      · rw [D.same l e]
        split
        · rfl
        · split
          · rfl
          · exact ih.2 _ _ _ (List.mem_append_left _ hS)
    refine ⟨h1, ?_⟩
    intro as
    induction as with
    | nil => intros; rfl
    | cons x as iha =>
      obtain ⟨n, x⟩ := x
      intro S p hS
      cases x with
      | val v => rw [iterStateAttrs, iterStateAttrs, iha S p hS]
      | ref l =>
        rw [iterStateAttrs, iterStateAttrs, h1 l S _ hS]
        split
        · rfl
        · next ys S1 he => rw [iha S1 p (iterStateRec_seen he u hS)]

omit [DecidableEq α] in
theorem DiffersAt.makeDef {c : Loc} {h h' : Heap α} (D : DiffersAt c h h') {u : Nat} (hu : ∃ o, h[c]? = some o ∧ o.uid = u) (f : Nat) :
    (∀ (l : Loc) (S : List Nat), u ∈ S → makeDefRec h' f l S = makeDefRec h f l S) ∧
    (∀ (as : List (Str × Attr α)) (S : List Nat), u ∈ S →
      makeDefAttrs (makeDefRec h' f) as S = makeDefAttrs (makeDefRec h f) as S) := by
  induction f with
  | zero =>
    refine ⟨fun _ _ _ => rfl, ?_⟩
    intro as S _
    rw [show makeDefRec h' 0 = makeDefRec h 0 from rfl]
  | succ f ih =>
    have h1 : ∀ (l : Loc) (S : List Nat), u ∈ S → makeDefRec h' (f + 1) l S = makeDefRec h (f + 1) l S := by
      intro l S hS
      rw [makeDefRec, makeDefRec]
      by_cases e : l = c
      · subst e
        obtain ⟨o, o', ho, ho', huu⟩ := D.uid
        obtain ⟨o2, ho2, rfl⟩ := hu
        rw [ho] at ho2; cases ho2
        simp only [ho, ho', huu, hS, if_true]
      · rw [D.same l e]
        split
        · rfl
        · split
          · rfl
          · rw [ih.2 _ _ (List.mem_append_left _ hS)]
    refine ⟨h1, ?_⟩
    intro as
    induction as with
    | nil => intros; rfl
    | cons x as iha =>
      obtain ⟨n, x⟩ := x
      intro S hS
      cases x with
      | val v => rw [makeDefAttrs, makeDefAttrs, iha S hS]
      | ref l =>
        rw [makeDefAttrs, makeDefAttrs, h1 l S hS]
        split
        · rfl
        · next d S1 he => rw [iha S1 ((makeDef_seen h _).1 _ _ _ _ he u hS)]

omit [DecidableEq α] in
/-- If `p` holds `m` and then `c`, and both have one id, nothing in `c` shows in the partition of `p`. -/
theorem DiffersAt.partition {c m p : Loc} {h h' : Heap α} (D : DiffersAt c h h') (hm : m ≠ c) (hp : p ≠ c)
    {om oc op : ModObj α} (h1 : h[m]? = some om) (h2 : h[c]? = some oc) (h3 : h[p]? = some op) (hid : oc.uid = om.uid)
    {a b : Str} (has : sortItems op.attrs = [(a, .ref m), (b, .ref c)]) (fuel : Nat) (fs : List (Filter α)) :
    partitionModule fuel h' p fs = partitionModule fuel h p fs := by
  have hu : ∃ o, h[c]? = some o ∧ o.uid = om.uid := ⟨oc, h2, hid⟩
  -- visiting `m` first makes the id known
  have hm1 : ∀ f S q, iterStateRec h' f m S q = iterStateRec h f m S q := by
    intro f S q
    cases f with
    | zero => rfl
    | succ f =>
      rw [iterStateRec, iterStateRec, D.same m hm, h1]
      simp only
      split
      · rfl
      · exact (D.iterState hu f).2 _ _ _ (by simp)
  have hm2 : ∀ f S, makeDefRec h' f m S = makeDefRec h f m S := by
    intro f S
    cases f with
    | zero => rfl
    | succ f =>
      rw [makeDefRec, makeDefRec, D.same m hm, h1]
      simp only
      split
      · rfl
      · rw [(D.makeDef hu f).2 _ _ (by simp)]
  have hs1 : ∀ f S q ys S', iterStateRec h f m S q = some (ys, S') → om.uid ∈ S' := by
    intro f S q ys S' e
    obtain ⟨vs, d, _⟩ := iterStateRec_dfs h f m S q ys S' e
    cases d with
    | seen e1 e2 => rw [h1] at e1; cases e1; exact e2
    | visit e1 e2 d => rw [h1] at e1; cases e1; exact d.subset _ (by simp)
  have hs2 : ∀ f S d S', makeDefRec h f m S = some (d, S') → om.uid ∈ S' := by
    intro f S d S' e
    cases f with
    | zero => cases e
    | succ f =>
      rw [makeDefRec, h1] at e
      simp only at e
      split at e
      · next hi => cases e; exact hi
      · split at e
        · cases e
        · next he => cases e; exact (makeDef_seen h f).2 _ _ _ _ _ he _ (by simp)
  have g1 : getState fuel h' p = getState fuel h p := by
    cases fuel with
    | zero => rfl
    | succ f =>
      simp only [getState, iterStateRec, D.same p hp, h3, List.not_mem_nil, if_false, has, iterStateAttrs, hm1]
      cases e : iterStateRec h f m ([] ++ [op.uid]) ([] ++ [a]) with
      | none => rfl
      | some r =>
        obtain ⟨ys, S1⟩ := r
        simp only [(D.iterState hu f).1 c S1 _ (hs1 _ _ _ _ _ e)]
  have g2 : getModuleDef fuel h' p = getModuleDef fuel h p := by
    cases fuel with
    | zero => rfl
    | succ f =>
      simp only [getModuleDef, makeDefRec, D.same p hp, h3, List.not_mem_nil, if_false, has, makeDefAttrs, hm2]
      cases e : makeDefRec h f m ([] ++ [op.uid]) with
      | none => rfl
      | some r =>
        obtain ⟨ys, S1⟩ := r
        simp only [(D.makeDef hu f).1 c S1 (hs2 _ _ _ _ e)]
  simp only [partitionModule, g1, g2]

theorem setAttr_differs {w w' : World α} {c : Loc} {n : Str} {x : Attr α} (e : setAttr w c n x = .ok w') :
    DiffersAt c w.heap w'.heap := by
  obtain ⟨o, a, ho, _, _, _, rfl⟩ := setAttr_ok_iff.1 e
  refine ⟨fun l hl => ?_, o, { o with attrs := dset o.attrs n a }, ho, ?_, rfl⟩
  · exact List.getElem?_set_ne (fun h => hl h.symm)
  · exact List.getElem?_set_self (List.getElem?_eq_some_iff.1 ho).1

/-- **C97, a shallow copy is not a Module of its own.** Make `c = copy.copy(m)`, a new Module `p`, and set `p.a = m` and
`p.b = c` (any names with `a` before `b`). Then whatever is assigned to an attribute of `c`, the State and the ModuleDef that
`p.partition(...)` gives do not change: the assignment is lost by `partition`, `clone` and all transforms. -/
theorem C97_shallow_copy_ignored {w w1 w2 w3 w4 w5 : World α} {m c p : Loc} (hm : m < w.heap.length)
    (h1 : shallowCopy m w = .ok (c, w1)) {k : Cls} (h2 : newModule k w1 = (w2, p)) {a b : Str}
    (hab : strLe a b = true) (hne : a ≠ b) (h3 : setAttr w2 p a (.ref m) = .ok w3) (h4 : setAttr w3 p b (.ref c) = .ok w4)
    {n : Str} {x : Attr α} (h5 : setAttr w4 c n x = .ok w5) (fuel : Nat) (fs : List (Filter α)) :
    partitionModule fuel w5.heap p fs = partitionModule fuel w4.heap p fs := by
  have ho := List.getElem?_eq_getElem hm
  generalize w.heap[m] = o at ho
  simp only [shallowCopy, ho, Except.ok.injEq, Prod.mk.injEq] at h1
  obtain ⟨rfl, rfl⟩ := h1
  simp only [newModule, Prod.mk.injEq] at h2
  obtain ⟨rfl, rfl⟩ := h2
  obtain ⟨o2, x2, e2, _, _, hx2, rfl⟩ := setAttr_ok_iff.1 h3
  simp only [List.getElem?_concat_length, Option.some.injEq] at e2
  subst e2
  obtain rfl := storedAttr_ref hx2
  obtain ⟨o3, x3, e3, _, _, hx3, rfl⟩ := setAttr_ok_iff.1 h4
  simp only [World.setAttrs] at e3
  rw [List.getElem?_set_self (by simp)] at e3
  cases e3
  obtain rfl := storedAttr_ref hx3
  have hmlt : m < w.heap.length + 1 := Nat.lt_succ_of_lt hm
  have hmne : ∀ x : ModObj α, (w.heap ++ [x]).length ≠ m := by
    intro x h
    simp only [List.length_append, List.length_singleton] at h
    exact absurd hmlt (by rw [h]; exact Nat.lt_irrefl _)
  refine (setAttr_differs h5).partition (m := m) (om := o) (oc := o)
    (op := ⟨k, [(a, .ref m), (b, .ref w.heap.length)], w.nextId + 1, false, w.curTrace⟩) (a := a) (b := b)
    (Nat.ne_of_lt hm) (by simp) ?_ ?_ ?_ rfl ?_ fuel fs
  · simp only [World.setAttrs]
    rw [List.getElem?_set_ne (hmne _), List.getElem?_set_ne (hmne _),
      List.getElem?_append_left (by simpa using hmlt), List.getElem?_append_left hm, ho]
  · simp only [World.setAttrs]
    rw [List.getElem?_set_ne (by simp), List.getElem?_set_ne (by simp),
      List.getElem?_append_left (by simp), List.getElem?_concat_length]
  · simp only [World.setAttrs]
    rw [List.getElem?_set_self (by simp)]
    simp [dset, hne, World.curTrace]
  · refine sortItems_of_strict ?_
    simp [StrictSorted, hab, hne]

/-- The hypotheses are met, and a Param assigned to the shallow copy is lost by `clone()`: `p.b.k` is the new value, in the
clone it is the old value (and `clone.a`, `clone.b` are one object). -/
example : ∃ (w1 w2 w3 w4 w5 w6 : World Nat) (c p q : Loc), shallowCopy 1 exWorld = .ok (c, w1) ∧
    newModule (exCls (py! "P")) w1 = (w2, p) ∧ setAttr w2 p (py! "a") (.ref 1) = .ok w3 ∧
    setAttr w3 p (py! "b") (.ref c) = .ok w4 ∧ setAttr w4 c (py! "k") (.val (.data cTuple 99)) = .ok w5 ∧
    cloneModule 10 p w5 = (w6, .ok q) ∧
    observe w6.heap p [py! "b", py! "k"] = some (.value (.data cTuple 99)) ∧
    observe w6.heap q [py! "b", py! "k"] = some (.value (.data cTuple 3)) ∧
    access w6.heap (.ref q) [py! "a"] = access w6.heap (.ref q) [py! "b"] :=
  ⟨_, _, _, _, _, _, _, _, _, rfl, rfl, rfl, rfl, rfl, rfl, by decide, by decide, by decide⟩

end Nnx
