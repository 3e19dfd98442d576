import Verif.Proofs.SameLimit
import Verif.Props.ModuleUpdate
import Verif.Model.Transforms
/-
Calling a function on a merged copy and writing the state back.
-/
namespace Nnx
variable {α β : Type} [DecidableEq α]

/-- The world while the transformed function runs. -/
def World.entered (w : World α) (j : Nat) (t : Option Nat) : World α :=
  { w with jaxTrace := j, nnxStack := w.nnxStack ++ t.toList }

/-- The world after it has left its traces. -/
def World.left (w w' : World α) : World α := { w' with jaxTrace := w.jaxTrace, nnxStack := w.nnxStack }

omit [DecidableEq α] in
theorem wfWorld_traces {w : World α} {j : Nat} {s : List Nat} (wf : WFWorld w) :
    WFWorld { w with jaxTrace := j, nnxStack := s } := ⟨wf.heap, wf.ids⟩

/-- Everything we need to know about running a function on a merged copy of a module: `w` is the world in which a direct call
on the module `l` is made, `u` the world in which the copy is made, `u3` the world after running on the copy `l'`. -/
structure CopyRun (w u : World α) (l : Loc) (F : Loc → World α → World α × Except Err β) (u3 : World α) (l' : Loc) : Prop where
  wf : WFWorld u3
  wfd : WFWorld (F l w).1
  len : u.heap.length ≤ u3.heap.length
  old : ∀ a : Loc, a < u.heap.length → u3.heap[a]? = u.heap[a]?
  lt : l' < u3.heap.length
  ltd : l < (F l w).1.heap.length
  part : ∀ k k', (F l w).1.heap.length < k → u3.heap.length < k' → ∃ s d,
    partitionModule k (F l w).1.heap l [] = .ok ([s], d) ∧ partitionModule k' u3.heap l' [] = .ok ([s], d) ∧
    getState k (F l w).1.heap l = some s ∧ getState k' u3.heap l' = some s
  states : ∀ k s, getState k (F l w).1.heap l = some s → getState k u3.heap l' = some s

/-- The case where both are the same. -/
abbrev PureRun (w : World α) (l : Loc) (F : Loc → World α → World α × Except Err β) (w3 : World α) (l' : Loc) : Prop :=
  CopyRun w w l F w3 l'

/-- Merging a module that is split in pieces, inside a trace and in a world `u`, gives a copy that corresponds to it. -/
theorem copyOf {w u : World α} (wf : WFWorld w) (wfu : WFWorld u) {l : Loc} (hl : l < w.heap.length) (hv : AllValid w l)
    {f1 f2 : Nat} {d : ModuleDef α} (hd : getModuleDef f1 w.heap l = some d)
    {s : State (PyVal α)} (hs : getState f2 w.heap l = some s) {ss : List (State (PyVal α))} (hpc : Pieces s ss)
    (j : Nat) (t : Option Nat) :
    ∃ u2 f, mergeDef d ss (u.entered j t) = (u2, .ok u.heap.length) ∧ WFWorld u2 ∧ u.heap.length < u2.heap.length ∧
      (∀ a : Loc, a < u.heap.length → u2.heap[a]? = u.heap[a]?) ∧ u2.jaxTrace = j ∧ u2.nnxStack = u.nnxStack ++ t.toList ∧
      Closed u2.heap (fun x => u.heap.length ≤ x) ∧
      (∀ (a : Loc) (o : ModObj α), u.heap.length ≤ a → u2.heap[a]? = some o → u2.traceValid o.trace = true) ∧
      Bisim (Reaches w.heap l) f w u2 ∧ f l = u.heap.length ∧ SameGraph w.heap l u2.heap u.heap.length := by
  have wfe : WFWorld (u.entered j t) := wfWorld_traces wfu
  obtain ⟨w2, f, hm, sp⟩ := mergeDef_spec wf.heap hl hd hs hpc (w := u.entered j t) wfu.heap.conts
  have hlen0 : (u.entered j t).heap.length = u.heap.length := rfl
  rw [hlen0] at hm
  have wf2 : WFWorld w2 := by
    refine ⟨sp.wf wf.heap wfe.heap wfe.ids, ?_⟩
    intro a o ho
    by_cases ha : a < u.heap.length
    · rw [sp.old _ ha] at ho; exact Nat.le_trans (wfu.ids _ _ ho) sp.ids
    · exact (sp.fresh _ _ (Nat.le_of_not_lt ha) ho).2.1
  have hroot : Reaches w.heap l l := ⟨[], .here hl⟩
  have htr : ∀ (a : Loc) (o : ModObj α), u.heap.length ≤ a → w2.heap[a]? = some o → w2.traceValid o.trace = true := by
    intro a o ha ho'
    have := (sp.fresh _ _ ha ho').2.2
    rw [traceValid_eq, this]
    simp only [World.curTrace, sp.jax, sp.stack]
  have B : Bisim (Reaches w.heap l) f w w2 := by
    refine ⟨sp.iso.inj, ?_, ?_⟩
    · rintro a ⟨q, hq⟩
      have hlt := hq.lt
      refine ⟨w.heap[a], ?_⟩
      have ho : w.heap[a]? = some w.heap[a] := List.getElem?_eq_getElem hlt
      obtain ⟨o', ho', h1, h2⟩ := sp.iso.obj a _ ⟨q, hq⟩ ho
      refine ⟨o', ho, ho', h1, h2, hv a _ ⟨q, hq⟩ ho, htr _ _ (sp.ge a) ho', ?_⟩
      intro n
      have := sp.iso.attr a ⟨q, hq⟩ n
      simpa only [attrAt, ho, ho'] using this
    · rintro a n b ⟨q, hq⟩ hb
      refine ⟨q ++ [n], ?_⟩
      exact hq.snoc hb (wf.heap.refs _ _ _ hb)
  have hfl : f l = u.heap.length := sp.iso.root
  refine ⟨w2, f, hm, wf2, hfl ▸ (B.lt hroot).2, sp.old, sp.jax, sp.stack, ?_, htr, B, hfl, sp.iso.sameGraph wf.heap hl⟩
  intro x n y hx e
  have hxlt := attrAt_some_lt e
  obtain ⟨x0, hx0, rfl⟩ := sp.surj x hx hxlt
  rw [sp.iso.attr x0 hx0 n] at e
  cases hxa : attrAt w.heap x0 n with
  | none => rw [hxa] at e; cases e
  | some z =>
    rw [hxa] at e
    cases z with
    | val v => cases e
    | ref z => cases e; exact sp.ge z

theorem copyRun {w u : World α} (wf : WFWorld w) (wfu : WFWorld u) {l : Loc} (hl : l < w.heap.length) (hv : AllValid w l)
    {F : Loc → World α → World α × Except Err β} (hF : Parametric F) {f1 f2 : Nat} {d : ModuleDef α}
    (hd : getModuleDef f1 w.heap l = some d)
    {s : State (PyVal α)} (hs : getState f2 w.heap l = some s) {ss : List (State (PyVal α))} (hpc : Pieces s ss)
    (j : Nat) (t : Option Nat) :
    ∃ u2, mergeDef d ss (u.entered j t) = (u2, .ok u.heap.length) ∧
      (F u.heap.length u2).2 = (F l w).2 ∧
      CopyRun w u l F (u.left (F u.heap.length u2).1) u.heap.length ∧
      SameGraph w.heap l u2.heap u.heap.length := by
  obtain ⟨w2, f, hm, wf2, hl2, hold, _, _, hcl, _, B, hfl, hsg⟩ := copyOf wf wfu hl hv hd hs hpc j t
  have hroot : Reaches w.heap l l := ⟨[], .here hl⟩
  obtain ⟨S', f', hS, B', he⟩ := hF.bisim _ f l w w2 B wf wf2 hroot
  rw [hfl] at B' he
  have c := hF.confined (fun x => u.heap.length ≤ x) u.heap.length w2 wf2 hcl (Nat.le_refl _) hl2
  have wd := hF.wf wf hl
  have hf' : f' l = u.heap.length := (hS l hroot).2.trans hfl
  refine ⟨w2, hm, he.symm, ⟨wfWorld_traces c.wf, wd, Nat.le_trans (Nat.le_of_lt hl2) c.len, ?_,
    Nat.lt_of_lt_of_le hl2 c.len, Nat.lt_of_lt_of_le hl (hF.keeps l w wf hl).len, ?_, ?_⟩, hsg⟩
  · intro a ha
    exact (c.same a (Nat.lt_trans ha hl2) (Nat.not_le.2 ha)).trans (hold a ha)
  · intro k k' hk hk'
    have := B'.getState wd.heap c.wf.heap (hS l hroot).1 hk hk'
    rwa [hf'] at this
  · intro k s hs
    have := B'.getState_of wd.heap c.wf.heap (hS l hroot).1 hs
    rwa [hf'] at this

theorem pureRun {w : World α} (wf : WFWorld w) {l : Loc} (hl : l < w.heap.length) (hv : AllValid w l)
    {F : Loc → World α → World α × Except Err β} (hF : Parametric F) {f1 f2 : Nat} {d : ModuleDef α}
    (hd : getModuleDef f1 w.heap l = some d)
    {s : State (PyVal α)} (hs : getState f2 w.heap l = some s) {ss : List (State (PyVal α))} (hpc : Pieces s ss)
    (j : Nat) (t : Option Nat) :
    ∃ w2, mergeDef d ss (w.entered j t) = (w2, .ok w.heap.length) ∧
      (F w.heap.length w2).2 = (F l w).2 ∧
      PureRun w l F (w.left (F w.heap.length w2).1) w.heap.length ∧
      SameGraph w.heap l w2.heap w.heap.length := copyRun wf wf hl hv hF hd hs hpc j t

omit [DecidableEq α] in
/-- References of reachable modules are the same before and after node writes. -/
theorem NodeWrites.walk {w w' : World α} {root : Loc} (hn : NodeWrites w w' root)
    (hlen : w.heap.length ≤ w'.heap.length) (wf : WFHeap w.heap) {a b : Loc} {p : List Str} (ha : Reaches w.heap root a) :
    Walk w'.heap a p b ↔ Walk w.heap a p b := by
  have key : ∀ a n b, Reaches w.heap root a → (attrAt w'.heap a n = some (.ref b) ↔ attrAt w.heap a n = some (.ref b)) := by
    intro a n b ha
    rcases hn a n ha with h | ⟨v, h1, _, h2, _⟩
    · rw [h]
    · rw [h1]; exact ⟨nofun, fun h => absurd h (h2 b)⟩
  constructor
  · intro hw
    induction hw with
    | here h => obtain ⟨q, hq⟩ := ha; exact .here hq.lt
    | step e _ ih =>
      have e' := (key _ _ _ ha).1 e
      obtain ⟨q, hq⟩ := ha
      exact .step e' (ih ⟨_, hq.snoc e' (wf.refs _ _ _ e')⟩)
  · intro hw
    induction hw with
    | here h => exact .here (Nat.lt_of_lt_of_le h hlen)
    | step e _ ih =>
      have e' := (key _ _ _ ha).2 e
      obtain ⟨q, hq⟩ := ha
      exact .step e' (ih ⟨_, hq.snoc e (wf.refs _ _ _ e)⟩)

omit [DecidableEq α] in
theorem given_single (s : State (PyVal α)) (k : Str) : given [s] k = s.get k := by
  simp only [given, List.reverse_singleton, List.findSome?_cons, List.findSome?_nil]
  cases s.get k <;> rfl

omit [DecidableEq α] in
theorem mdSame_refl' (m : Md α) : MdSame m m := by
  unfold MdSame; exact fun _ => rfl

/-- **Writing back.** Updating `root` in `u` with all entries of the state `root` has in `w'` that differ makes all attributes the same
as in `w'`, if the difference is node writes. -/
theorem update_from_all {u w' : World α} (wf : WFWorld u) (wf' : WFWorld w') {root : Loc} (hroot : root < u.heap.length)
    (hroot' : root < w'.heap.length) (hwalk : ∀ p b, Walk w'.heap root p b ↔ Walk u.heap root p b)
    (hv : AllValid u root) (hn : NodeWrites u w' root) {k : Nat} {s : State (PyVal α)}
    (hs : getState k w'.heap root = some s) {us : List (State (PyVal α))} (hc : ∀ t ∈ us, t.Canonical)
    (hsub : ∀ t ∈ us, ∀ key v, t.get key = some v → s.get key = some v)
    (hrest : ∀ key v a n, s.get key = some v → given us key = none → Addresses u.heap root key a n →
      attrAt u.heap a n = some (.val v)) {fuel : Nat} {su : State (PyVal α)} (hf : getState fuel u.heap root = some su) :
    ∃ u', updateState fuel root us u = (u', none) ∧ SameObjects u u' ∧
      (∀ a n, Reaches u.heap root a → attrAt u'.heap a n = attrAt w'.heap a n) ∧
      (∀ a n, ¬ Reaches u.heap root a → attrAt u'.heap a n = attrAt u.heap a n) := by
  obtain ⟨p1, p2, p3⟩ := state_paths wf'.heap hroot' hs
  have hgiven : ∀ key v, given us key = some v → s.get key = some v := by
    intro key v h
    obtain ⟨t, ht, htk⟩ := List.exists_of_findSome?_eq_some h
    exact hsub t (by simpa using ht) key v htk
  have hadr : ∀ key a n, Addresses w'.heap root key a n ↔ Addresses u.heap root key a n := by
    intro key a n
    constructor
    · rintro ⟨p, e, hp⟩; exact ⟨p, e, (hwalk p a).1 hp⟩
    · rintro ⟨p, e, hp⟩; exact ⟨p, e, (hwalk p a).2 hp⟩
  have hval : ∀ key v a n, s.get key = some v → Addresses u.heap root key a n →
      attrAt w'.heap a n = some (.val v) ∧ v.isNode = true := by
    intro key v a n hk ha
    obtain ⟨a', n', ha', h1, h2⟩ := p1 key v hk
    obtain ⟨rfl, rfl⟩ := ha'.functional ((hadr key a n).2 ha)
    exact ⟨h1, h2⟩
  have hg : GoodUpdates us := by
    intro t ht key v hm
    have := hsub t ht key v (mem_dget (hc t ht).nodup hm)
    exact getState_good wf'.heap hroot' hs key v (dget_mem this)
  have hleaf : LeafPaths u.heap root us := by
    intro key v hk a n ha b hb
    have hk := hgiven key v hk
    obtain ⟨h1, _⟩ := hval key v a n hk ha
    rcases hn a n ha.reaches with h | ⟨v', _, _, h2, _⟩
    · rw [h, hb] at h1; cases h1
    · exact h2 b hb
  have hnc : NoConflict u.heap root us := by
    intro key v key' v' hk hk' a n ha ha'
    have hk := hgiven key v hk
    have hk' := hgiven key' v' hk'
    have := p2 key key' a n (by rw [hk]; rfl) (by rw [hk']; rfl) ((hadr _ _ _).2 ha) ((hadr _ _ _).2 ha')
    subst this
    rw [hk] at hk'; cases hk'; rfl
  have hnew : ∀ key v a n, s.get key = some v → Addresses u.heap root key a n →
      Compatible (attrAt u.heap a n) v ∧ newValue (attrAt u.heap a n) v = v := by
    intro key v a n hk ha
    obtain ⟨h1, _⟩ := hval key v a n hk ha
    rcases hn a n ha.reaches with h | ⟨v', e, _, h2, h3⟩
    · rw [← h, h1]; exact ⟨compatible_self v, newValue_self v⟩
    · rw [h1] at e
      cases e
      cases hu : attrAt u.heap a n with
      | none => exact ⟨nofun, rfl⟩
      | some z =>
        cases z with
        | ref b => exact absurd hu (h2 b)
        | val z =>
          cases z with
          | cont c x m =>
            obtain ⟨y, rfl⟩ := h3 c x m hu
            refine ⟨?_, rfl⟩
            intro c' x' m' d' y' n' e1 e2
            cases e1; cases e2
            exact ⟨rfl, mdSame_refl' _⟩
          | _ => exact ⟨nofun, rfl⟩
  obtain ⟨u', hu'⟩ := C14_succeeds_limit wf hroot hf hc hg hleaf hnc hv (by
    intro key v hk
    have hk := hgiven key v hk
    obtain ⟨a, n, ha, _⟩ := p1 key v hk
    exact ⟨a, n, (hadr _ _ _).1 ha, (hnew key v a n hk ((hadr _ _ _).1 ha)).1⟩)
  obtain ⟨so, _, _, hset⟩ := C14_addressed_updated wf hroot hc hg hleaf hnc hu'
  refine ⟨u', hu', so, ?_, ?_⟩
  · intro a n hr
    by_cases hex : ∃ key v, given us key = some v ∧ Addresses u.heap root key a n
    · obtain ⟨key, v, hk, ha⟩ := hex
      rw [hset key v a n hk ha]
      have hk := hgiven key v hk
      rw [(hnew key v a n hk ha).2, (hval key v a n hk ha).1]
    · rw [C14_frame wf hroot hc hg hleaf hu' (fun key v hk ha => hex ⟨key, v, hk, ha⟩)]
      rcases hn a n hr with h | ⟨v, h1, h2, _⟩
      · exact h.symm
      · obtain ⟨q, hq⟩ := hr
        obtain ⟨key, hk, ha⟩ := p3 a n v ⟨q, (hwalk q a).2 hq⟩ h1 h2
        have ha' := (hadr _ _ _).1 ha
        cases hgk : given us key with
        | some v' => exact absurd ⟨key, v', hgk, ha'⟩ hex
        | none => rw [h1]; exact hrest key v a n hk hgk ha'
  · intro a n hr
    exact C14_frame wf hroot hc hg hleaf hu' (fun key v hk ha => hr ha.reaches)

/-- The case of a single State with all entries. -/
theorem update_from {u w' : World α} (wf : WFWorld u) (wf' : WFWorld w') {root : Loc} (hroot : root < u.heap.length)
    (hroot' : root < w'.heap.length) (hwalk : ∀ p b, Walk w'.heap root p b ↔ Walk u.heap root p b)
    (hv : AllValid u root) (hn : NodeWrites u w' root) {k : Nat} {s : State (PyVal α)}
    (hs : getState k w'.heap root = some s) {fuel : Nat} (hf : u.heap.length < fuel) :
    ∃ u', updateState fuel root [s] u = (u', none) ∧ SameObjects u u' ∧
      (∀ a n, Reaches u.heap root a → attrAt u'.heap a n = attrAt w'.heap a n) ∧
      (∀ a n, ¬ Reaches u.heap root a → attrAt u'.heap a n = attrAt u.heap a n) :=
  update_from_all wf wf' hroot hroot' hwalk hv hn hs
    (by intro t ht; rw [List.mem_singleton.1 ht]; exact getState_canonical hs)
    (by intro t ht key v h; rwa [List.mem_singleton.1 ht] at h)
    (by intro key v a n h1 h2; rw [given_single, h1] at h2; cases h2) (getState_exists wf.heap hroot hf).choose_spec

end Nnx
