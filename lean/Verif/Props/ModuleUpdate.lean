import Verif.Proofs.UpdateState
import Verif.Props.ModuleGraph
/-
Properties C14 - C16 and C21: update_state and the trace guard.
-/
namespace Nnx
variable {α : Type} [DecidableEq α]

omit [DecidableEq α] in
theorem access_snoc {h : Heap α} {a l : Loc} {p : List Str} (w : Walk h a p l) (n : Str) :
    access h (.ref a) (p ++ [n]) = attrAt h l n := by
  induction w with
  | here _ =>
    simp only [List.nil_append, access]
    split <;> simp_all
  | step e _ ih => simp only [List.cons_append, access, e]; exact ih

omit [DecidableEq α] in
theorem Assigned.ref {vs : List (PyVal α)} : ∀ {old : Option (Attr α)} {b : Loc},
    Assigned old vs (some (.ref b)) → old = some (.ref b) ∧ vs = [] := by
  induction vs with
  | nil => intro old b h; cases h; exact ⟨rfl, rfl⟩
  | cons v vs ih =>
    intro old b h
    cases h with
    | cons _ h => have := (ih h).1; simp at this

omit [DecidableEq α] in
/-- References are the same before and after a successful update that overwrites no Module. -/
theorem Effect.refs {w w' : World α} (wf : WFWorld w) {root : Loc} (hroot : root < w.heap.length) {fuel : Nat}
    {s : State (PyVal α)} (hs : getState fuel w.heap root = some s) {us : List (State (PyVal α))}
    (hg : GoodUpdates us) (hleaf : LeafPaths w.heap root us)
    {E A B cell} (ef : Effect w w' root s us E A B cell) (l : Loc) (n : Str) (b : Loc) :
    attrAt w'.heap l n = some (.ref b) ↔ attrAt w.heap l n = some (.ref b) := by
  have hass := ef.assigned l n
  constructor
  · intro h; rw [h] at hass; exact hass.ref.1
  · intro h
    have hno : ∀ e ∈ E, cell e.1 ≠ (l, n) := by
      intro e he hc
      have ha := ef.addr e he
      rw [hc] at ha
      exact (plan_entries wf hroot hs hg hleaf ef.plan).2 e he l n ha b h
    rw [cellVals_none hno, h] at hass
    generalize attrAt w'.heap l n = x at hass ⊢
    cases hass; rfl

omit [DecidableEq α] in
theorem updateState_some [DecidableEq α] {w w' : World α} {root : Loc} {fuel : Nat} {us : List (State (PyVal α))}
    (e : updateState fuel root us w = (w', none)) : ∃ s, getState fuel w.heap root = some s := by
  unfold updateState at e
  split at e
  · simp at e
  · next s hs => exact ⟨s, hs⟩

/-! ### C14 -/

/-- **C14, the addressed attributes.** If `m.update_state(us)` succeeds, every path of the update reads
afterwards as the value the update gives to it (last State wins; a container keeps its kind and takes over the
value), and so does every other path to the same attribute of a shared module. Classes, ids, flags, traces
and references are unchanged. -/
theorem C14_addressed_updated {w w' : World α} (wf : WFWorld w) {root : Loc} (hroot : root < w.heap.length)
    {fuel : Nat} {us : List (State (PyVal α))} (hc : ∀ t ∈ us, t.Canonical) (hg : GoodUpdates us)
    (hleaf : LeafPaths w.heap root us) (hnc : NoConflict w.heap root us)
    (e : updateState fuel root us w = (w', none)) :
    SameObjects w w' ∧
    (∀ a p b, Walk w'.heap a p b ↔ Walk w.heap a p b) ∧
    (∀ k v, given us k = some v → access w'.heap (.ref root) (splitSlash k) =
      some (.val (newValue (access w.heap (.ref root) (splitSlash k)) v))) ∧
    (∀ k v l n, given us k = some v → Addresses w.heap root k l n →
      attrAt w'.heap l n = some (.val (newValue (attrAt w.heap l n) v))) := by
  obtain ⟨s, hs⟩ := updateState_some e
  obtain ⟨E, A, B, cell, ef⟩ := update_effect wf hroot hs hc hg hleaf e
  have hrefs := ef.refs wf hroot hs hg hleaf
  have hwalk : ∀ a p b, Walk w'.heap a p b ↔ Walk w.heap a p b := fun a p b =>
    ⟨fun h => h.congr ef.same.len.symm (fun l n b hb => (hrefs l n b).1 hb),
     fun h => h.congr ef.same.len (fun l n b hb => (hrefs l n b).2 hb)⟩
  have hcell : ∀ k v l n, given us k = some v → Addresses w.heap root k l n →
      attrAt w'.heap l n = some (.val (newValue (attrAt w.heap l n) v)) := by
    intro k v l n hk ha
    have hass := ef.assigned l n
    obtain ⟨pre, vs, hvs, hne, hall, hpre⟩ := vals_touched wf hroot hs ef.plan ef.addr hnc hk ha
    rw [hvs, Assigned.append] at hass
    obtain ⟨mid, h1, h2⟩ := hass
    have hmid : mid = attrAt w.heap l n := by
      rcases hpre with rfl | ⟨x, rfl, hx⟩
      · generalize attrAt w.heap l n = y at h1 ⊢
        cases h1; rfl
      · rw [h1.single, hx, newValue_self]
    rw [hmid] at h2
    exact Assigned.const hne hall h2
  refine ⟨ef.same, hwalk, ?_, hcell⟩
  intro k v hk
  have hkE : (k, v) ∈ E := (ef.plan.mem k v).2 (by rw [hk]; rfl)
  have ha := ef.addr _ hkE
  obtain ⟨p, hp, hw⟩ := ha
  rw [hp, access_snoc hw, access_snoc ((hwalk _ _ _).2 hw)]
  exact hcell k v _ _ hk ⟨p, hp, hw⟩

/-- **C14, frame.** Every attribute, of any module anywhere, that no path of the update addresses keeps its
content. -/
theorem C14_frame {w w' : World α} (wf : WFWorld w) {root : Loc} (hroot : root < w.heap.length)
    {fuel : Nat} {us : List (State (PyVal α))} (hc : ∀ t ∈ us, t.Canonical) (hg : GoodUpdates us)
    (hleaf : LeafPaths w.heap root us) (e : updateState fuel root us w = (w', none))
    {l : Loc} {n : Str} (hno : ∀ k v, given us k = some v → ¬ Addresses w.heap root k l n) :
    attrAt w'.heap l n = attrAt w.heap l n := by
  obtain ⟨s, hs⟩ := updateState_some e
  obtain ⟨E, A, B, cell, ef⟩ := update_effect wf hroot hs hc hg hleaf e
  have hass := ef.assigned l n
  rcases vals_untouched wf hroot hs ef.plan ef.addr hno with h | ⟨x, h, hx⟩
  · rw [h] at hass
    generalize attrAt w.heap l n = y at hass ⊢
    generalize attrAt w'.heap l n = z at hass ⊢
    cases hass; rfl
  · rw [h] at hass
    rw [hass.single, hx, newValue_self]

omit [DecidableEq α] in
theorem compatible_self (x : PyVal α) : Compatible (some (.val x)) x := by
  intro c y m d z n h1 h2
  cases h1; cases h2
  exact ⟨rfl, fun _ => rfl⟩

omit [DecidableEq α] in
theorem Compatible.again {old : Option (Attr α)} {v : PyVal α} (h : Compatible old v) :
    Compatible (some (.val (newValue old v))) v := by
  by_cases hx : ∃ c x m, old = some (.val (.cont c x m))
  · obtain ⟨c, x, m, rfl⟩ := hx
    intro c' x' m' d y n h1 h2
    simp only [newValue, Option.some.injEq, Attr.val.injEq, PyVal.cont.injEq] at h1
    obtain ⟨rfl, _, rfl⟩ := h1
    exact h _ _ _ _ _ _ rfl h2
  · have : newValue old v = v := by
      unfold newValue
      split
      · next c x m => exact absurd ⟨c, x, m, rfl⟩ hx
      · rfl
    rw [this]; exact compatible_self v

omit [DecidableEq α] in
theorem Compatible.const {v : PyVal α} {vs : List (PyVal α)} : ∀ {old : Option (Attr α)}, Compatible old v →
    (∀ y ∈ vs, y = v) → ∃ new, Assigned old vs new := by
  induction vs with
  | nil => intro old _ _; exact ⟨_, .nil⟩
  | cons x vs ih =>
    intro old hc hall
    have hx := hall x List.mem_cons_self
    subst hx
    obtain ⟨new, hn⟩ := ih hc.again (fun y hy => hall y (List.mem_cons_of_mem _ hy))
    exact ⟨new, .cons hc hn⟩

/-- **C14, success.** With whatever recursion limit suffices for the state of the module, the update succeeds when every reachable module belongs to the current trace, the paths
lead to modules of the graph, and containers are updated by compatible values. -/
theorem C14_succeeds_limit {w : World α} (wf : WFWorld w) {root : Loc} (hroot : root < w.heap.length)
    {fuel : Nat} {s : State (PyVal α)} (hs : getState fuel w.heap root = some s) {us : List (State (PyVal α))} (hc : ∀ t ∈ us, t.Canonical)
    (hg : GoodUpdates us) (hleaf : LeafPaths w.heap root us) (hnc : NoConflict w.heap root us)
    (htr : ∀ (l : Loc) (o : ModObj α), Reaches w.heap root l → w.heap[l]? = some o → w.traceValid o.trace = true)
    (hpaths : ∀ k v, given us k = some v → ∃ l n, Addresses w.heap root k l n ∧ Compatible (attrAt w.heap l n) v) :
    ∃ w', updateState fuel root us w = (w', none) := by
  obtain ⟨A, B, hp⟩ := updatePlan (getState_canonical hs) hc
  rw [updateState, hs]
  simp only [updateModule]
  generalize (s :: us).foldl (fun d t => dupdate d t.items) ([] : Dict Str (PyVal α)) = E at *
  obtain ⟨hgood, hnr⟩ := plan_entries wf hroot hs hg hleaf hp
  obtain ⟨hp1, hp2, hp3⟩ := state_paths wf.heap hroot hs
  have hex : ∀ e ∈ E, ∃ l n, Addresses w.heap root e.1 l n := by
    rintro ⟨k, v⟩ he
    have := (hp.mem k v).1 he
    cases hgv : given us k with
    | some v' => obtain ⟨l, n, ha, _⟩ := hpaths k v' hgv; exact ⟨l, n, ha⟩
    | none =>
      rw [hgv] at this
      obtain ⟨l, n, ha, _⟩ := hp1 k v this
      exact ⟨l, n, ha⟩
  have hch : ∀ k : Str, ∃ c : Loc × Str, ∀ e ∈ E, e.1 = k → Addresses w.heap root k c.1 c.2 := by
    intro k
    by_cases hk : ∃ e ∈ E, e.1 = k
    · obtain ⟨e, he, rfl⟩ := hk
      obtain ⟨l, n, ha⟩ := hex e he
      exact ⟨(l, n), fun _ _ _ => ha⟩
    · exact ⟨(0, []), fun e he h => absurd ⟨e, he, h⟩ hk⟩
  choose cell hcell using hch
  have haddr : ∀ e ∈ E, Addresses w.heap root e.1 (cell e.1).1 (cell e.1).2 := fun e he => hcell e.1 e he rfl
  rw [assign_cells haddr hnr]
  apply runCells_success _ _ wf.heap.conts
  · intro c hc
    obtain ⟨e, he, rfl⟩ := List.mem_map.1 hc
    exact (hgood e he).1
  · intro c hc
    obtain ⟨e, he, rfl⟩ := List.mem_map.1 hc
    have ha := haddr e he
    obtain ⟨p, hsp, hw⟩ := ha
    refine ⟨_, List.getElem?_eq_getElem hw.lt, htr _ _ ⟨p, hw⟩ (List.getElem?_eq_getElem hw.lt), ?_⟩
    have := (hgood e he).2
    rw [hsp, getLastD_append_single] at this
    intro hst
    simp only at hst
    rw [hst] at this
    revert this
    decide
  · intro l n
    by_cases ht : ∃ k v, given us k = some v ∧ Addresses w.heap root k l n
    · obtain ⟨k, v, hk, ha⟩ := ht
      obtain ⟨pre, vs, hvs, hne, hall, hpre⟩ := vals_touched wf hroot hs hp haddr hnc hk ha
      obtain ⟨l', n', ha', hcomp⟩ := hpaths k v hk
      obtain ⟨rfl, rfl⟩ := ha.functional ha'
      obtain ⟨new, hnew⟩ := Compatible.const hcomp hall
      refine ⟨new, ?_⟩
      rw [hvs, Assigned.append]
      rcases hpre with rfl | ⟨x, rfl, hx⟩
      · exact ⟨_, .nil, hnew⟩
      · refine ⟨_, .cons (by rw [hx]; exact compatible_self x) .nil, ?_⟩
        rw [hx, newValue_self, ← hx]; exact hnew
    · rcases vals_untouched wf hroot hs hp haddr (l := l) (n := n) (fun k v hk ha => ht ⟨k, v, hk, ha⟩) with h | ⟨x, h, hx⟩
      · rw [h]; exact ⟨_, .nil⟩
      · rw [h, hx]; exact ⟨_, .cons (compatible_self x) .nil⟩

/-- **C14, success.** The update succeeds when every reachable module belongs to the current trace, the paths
lead to modules of the graph, and containers are updated by compatible values. -/
theorem C14_succeeds {w : World α} (wf : WFWorld w) {root : Loc} (hroot : root < w.heap.length)
    {fuel : Nat} (hf : w.heap.length < fuel) {us : List (State (PyVal α))} (hc : ∀ t ∈ us, t.Canonical)
    (hg : GoodUpdates us) (hleaf : LeafPaths w.heap root us) (hnc : NoConflict w.heap root us)
    (htr : ∀ (l : Loc) (o : ModObj α), Reaches w.heap root l → w.heap[l]? = some o → w.traceValid o.trace = true)
    (hpaths : ∀ k v, given us k = some v → ∃ l n, Addresses w.heap root k l n ∧ Compatible (attrAt w.heap l n) v) :
    ∃ w', updateState fuel root us w = (w', none) := by
  obtain ⟨s, hs⟩ := getState_exists wf.heap hroot hf
  exact C14_succeeds_limit wf hroot hs hc hg hleaf hnc htr hpaths

/-- A non-trivial update: the second State overrides the first, an alias path of the shared block is used,
a new attribute is created. -/
def exUpdates : List (State (PyVal Nat)) :=
  [.new [(py! "w", exParam 2), (py! "b/new", exStat 8)], .new [(py! "w", .data cArray 3), (py! "b/w", exParam 9)]]

example : ∃ w', updateState 3 0 exUpdates exWorld = (w', none) ∧
    access w'.heap (.ref 0) [py! "w"] = some (.val (exParam 3)) ∧
    access w'.heap (.ref 0) [py! "a", py! "w"] = some (.val (exParam 9)) ∧
    access w'.heap (.ref 0) [py! "b", py! "new"] = some (.val (exStat 8)) := ⟨_, rfl, by decide, by decide, by decide⟩

omit [DecidableEq α] in
theorem given_cases {us : List (State (PyVal α))} {P : Str → PyVal α → Prop}
    (h : ∀ t ∈ us, ∀ kv ∈ t.items, P kv.1 kv.2) : ∀ k v, given us k = some v → P k v := by
  intro k v hk
  obtain ⟨t, ht, hm⟩ := given_mem hk
  exact h t ht _ hm

theorem exWalk_b : Walk exHeap 0 [py! "b"] 1 := .step (b := 1) (by decide) (.here (by decide))

/-- The hypotheses of C14 hold for the example. -/
example : (∀ t ∈ exUpdates, t.Canonical) ∧ GoodUpdates exUpdates ∧ LeafPaths exHeap 0 exUpdates ∧
    NoConflict exHeap 0 exUpdates := by
  have hpaths : ∀ k v, given exUpdates k = some v →
      (k = py! "w" ∧ v = .data cArray 3) ∨ (k = py! "b/new" ∧ v = exStat 8) ∨ (k = py! "b/w" ∧ v = exParam 9) := by
    intro k v hk
    have h1 : k ∈ [py! "w", py! "b/new", py! "b/w"] := by
      obtain ⟨t, ht, hm⟩ := given_mem hk
      have : ∀ t ∈ exUpdates, ∀ kv ∈ t.items, kv.1 ∈ [py! "w", py! "b/new", py! "b/w"] := by decide
      exact this t ht _ hm
    simp only [List.mem_cons, List.not_mem_nil, or_false] at h1
    rcases h1 with rfl | rfl | rfl
    · left; refine ⟨rfl, ?_⟩
      have : given exUpdates (py! "w") = some (.data cArray 3) := by decide
      rw [this] at hk; cases hk; rfl
    · right; left; refine ⟨rfl, ?_⟩
      have : given exUpdates (py! "b/new") = some (exStat 8) := by decide
      rw [this] at hk; cases hk; rfl
    · right; right; refine ⟨rfl, ?_⟩
      have : given exUpdates (py! "b/w") = some (exParam 9) := by decide
      rw [this] at hk; cases hk; rfl
  have hw : Addresses exHeap 0 (py! "w") 0 (py! "w") := ⟨[], by decide, .here (by decide)⟩
  have hbn : Addresses exHeap 0 (py! "b/new") 1 (py! "new") := ⟨[py! "b"], by decide, exWalk_b⟩
  have hbw : Addresses exHeap 0 (py! "b/w") 1 (py! "w") := ⟨[py! "b"], by decide, exWalk_b⟩
  refine ⟨?_, ?_, ?_, ?_⟩
  · intro t ht
    simp only [exUpdates, List.mem_cons, List.not_mem_nil, or_false] at ht
    rcases ht with rfl | rfl <;> exact State.new_strict _
  · intro t ht k v hkv
    have h1 : ∀ t ∈ exUpdates, ∀ kv ∈ t.items, isReserved ((splitSlash kv.1).getLastD []) = false := by decide
    refine ⟨?_, h1 t ht _ hkv⟩
    have h2 : ∀ t ∈ exUpdates, ∀ kv ∈ t.items, kv.2 ∈ [exParam 2, exStat 8, .data cArray 3, exParam 9] := by decide
    have := h2 t ht _ hkv
    simp only [List.mem_cons, List.not_mem_nil, or_false] at this
    rcases this with rfl | rfl | rfl | rfl
    · exact .inr (exParam_wf 2)
    · exact .inr (exStat_wf 8)
    · exact .inl (by simp [PyVal.Plain])
    · exact .inr (exParam_wf 9)
  · intro k v hk l n ha b
    rcases hpaths k v hk with ⟨rfl, _⟩ | ⟨rfl, _⟩ | ⟨rfl, _⟩
    · obtain ⟨rfl, rfl⟩ := ha.functional hw; simp [attrAt, exHeap, dget]
    · obtain ⟨rfl, rfl⟩ := ha.functional hbn; simp [attrAt, exHeap, dget]
    · obtain ⟨rfl, rfl⟩ := ha.functional hbw; simp [attrAt, exHeap, dget]
  · intro k v k' v' hk hk' l n ha ha'
    have cells : ∀ k v, given exUpdates k = some v → Addresses exHeap 0 k l n →
        (((l : Nat), n), v) ∈ [((0, py! "w"), .data cArray 3), ((1, py! "new"), exStat 8), ((1, py! "w"), exParam 9)] := by
      intro k v hk ha
      rcases hpaths k v hk with ⟨rfl, rfl⟩ | ⟨rfl, rfl⟩ | ⟨rfl, rfl⟩
      · obtain ⟨rfl, rfl⟩ := ha.functional hw; simp
      · obtain ⟨rfl, rfl⟩ := ha.functional hbn; simp
      · obtain ⟨rfl, rfl⟩ := ha.functional hbw; simp
    have h1 := cells k v hk ha
    have h2 := cells k' v' hk' ha'
    have key : ∀ x ∈ [((0, py! "w"), (.data cArray 3 : PyVal Nat)), ((1, py! "new"), exStat 8), ((1, py! "w"), exParam 9)],
        ∀ y ∈ [((0, py! "w"), (.data cArray 3 : PyVal Nat)), ((1, py! "new"), exStat 8), ((1, py! "w"), exParam 9)],
        x.1 = y.1 → x.2 = y.2 := by decide
    exact key _ h1 _ h2 rfl

/-- An update that fails leaves the module partially updated: update_state is not atomic. -/
theorem C14_not_atomic : ∃ (w' : World Nat) (e : Err),
    updateState 3 0 [.new [(py! "w", exParam 2), (py! "x/y", exParam 3)]] exWorld = (w', some e) ∧
    access w'.heap (.ref 0) [py! "w"] = some (.val (exParam 2)) ∧
    access exWorld.heap (.ref 0) [py! "w"] = some (.val (exParam 1)) := ⟨_, _, rfl, by decide, by decide⟩

/-- Why `NoConflict` is needed: two alias paths with different values; the one assigned last wins. -/
theorem C14_alias_conflict : ∃ (w' : World Nat),
    updateState 3 0 [.new [(py! "a/w", exParam 2), (py! "b/w", exParam 3)]] exWorld = (w', none) ∧
    access w'.heap (.ref 0) [py! "a", py! "w"] = some (.val (exParam 3)) := ⟨_, rfl, by decide⟩

/-- Why `LeafPaths` is needed: a path that names a submodule replaces the submodule by the value. -/
theorem C14_overwrites_submodule : ∃ (w' : World Nat),
    updateState 3 0 [.new [(py! "b", exParam 2)]] exWorld = (w', none) ∧
    access w'.heap (.ref 0) [py! "b"] = some (.val (exParam 2)) ∧
    access w'.heap (.ref 0) [py! "b", py! "w"] = none := ⟨_, rfl, by decide, by decide⟩

/-! ### C15 -/

theorem dset_self {K V : Type _} [DecidableEq K] {d : Dict K V} {k : K} {v : V} (h : dget d k = some v) :
    dset d k v = d := by
  induction d with
  | nil => cases h
  | cons x d ih =>
    obtain ⟨k', v'⟩ := x
    simp only [dget] at h
    by_cases hk : k' = k
    · subst hk; simp at h; subst h; simp [dset]
    · simp only [hk, if_false] at h; simp [dset, hk, ih h]

/-- Assigning what is already there leaves the world as it is. -/
theorem setAttr_noop {w : World α} (wf : WFWorld w) {l : Loc} {n : Str} {x v : PyVal α} {o : ModObj α}
    (ho : w.heap[l]? = some o) (ht : w.traceValid o.trace = true) (hn : isReserved n = false)
    (ha : attrAt w.heap l n = some (.val x)) (hv : WFVal v) (hc : Compatible (some (.val x)) v)
    (hx : newValue (some (.val x)) v = x) : setAttr w l n (.val v) = .ok w := by
  apply setAttr_ok_iff.2
  refine ⟨o, .val x, ho, ht, ?_, ?_, ?_⟩
  · rintro rfl; revert hn; decide
  · rw [ha, storedAttr_ok (by rw [← ha]; exact wfOld wf l n) hv hc, hx]
  · have hd : dget o.attrs n = some (.val x) := by simpa [attrAt, ho] using ha
    rw [dset_self hd]
    cases w with
    | mk heap a b c =>
      simp only [World.setAttrs, World.mk.injEq, and_true]
      obtain ⟨hl, rfl⟩ := List.getElem?_eq_some_iff.1 ho
      exact (List.set_getElem_self hl).symm

theorem assignAll_noop {w : World α} {root : Loc} {E : List (Str × PyVal α)}
    (h : ∀ e ∈ E, setValueAtPath w (.ref root) (splitSlash e.1) e.2 = .ok w) : assignAll root E w = (w, none) := by
  induction E with
  | nil => rfl
  | cons e E ih =>
    obtain ⟨k, v⟩ := e
    have := h (k, v) List.mem_cons_self
    simp only at this
    rw [assignAll, this]
    exact ih (fun e he => h e (List.mem_cons_of_mem _ he))

/-- **C15, own state.** Updating a module with entries of its own state - the whole state, or any pieces of
it - succeeds and leaves the world exactly as it was. -/
theorem C15_own_state {w : World α} (wf : WFWorld w) {root : Loc} (hroot : root < w.heap.length) {fuel : Nat}
    {s : State (PyVal α)} (hs : getState fuel w.heap root = some s) {us : List (State (PyVal α))}
    (hc : ∀ t ∈ us, t.Canonical) (hus : ∀ t ∈ us, ∀ k v, t.get k = some v → s.get k = some v)
    (htr : ∀ (l : Loc) (o : ModObj α), Reaches w.heap root l → w.heap[l]? = some o → w.traceValid o.trace = true) :
    updateState fuel root us w = (w, none) := by
  obtain ⟨A, B, hp⟩ := updatePlan (getState_canonical hs) hc
  obtain ⟨hp1, hp2, hp3⟩ := state_paths wf.heap hroot hs
  rw [updateState, hs]
  apply assignAll_noop
  rintro ⟨k, v⟩ he
  have hv : s.get k = some v := by
    have := (hp.mem k v).1 he
    cases hgv : given us k with
    | some v' =>
      rw [hgv] at this
      simp only [Option.orElse_some, Option.some.injEq] at this
      subst this
      obtain ⟨t, ht, htv⟩ := List.exists_of_findSome?_eq_some hgv
      exact hus t (List.mem_reverse.1 ht) k _ htv
    | none => rw [hgv] at this; exact this
  obtain ⟨l, n, ⟨p, hsp, hw⟩, ha, hnode⟩ := hp1 k v hv
  simp only
  rw [hsp, setValueAtPath_eq hw]
  exact setAttr_noop wf (List.getElem?_eq_getElem hw.lt) (htr _ _ ⟨p, hw⟩ (List.getElem?_eq_getElem hw.lt))
    (wf.heap.reserved _ _ _ ha) ha (wfVal_of_node wf.heap ha hnode) (compatible_self v) (newValue_self v)

example : ∃ s, getState 3 exHeap 0 = some s ∧ s.items.length = 3 ∧ updateState 3 0 [s] exWorld = (exWorld, none) :=
  ⟨_, rfl, by decide, by decide⟩

/-- **C15, repeating.** After a successful `m.update_state(us)`, a second `m.update_state(us)` succeeds and
leaves the world exactly as it was. -/
theorem C15_repeat {w w' : World α} (wf : WFWorld w) {root : Loc} (hroot : root < w.heap.length)
    {fuel fuel' : Nat} {us : List (State (PyVal α))} (hc : ∀ t ∈ us, t.Canonical) (hg : GoodUpdates us)
    (hleaf : LeafPaths w.heap root us) (hnc : NoConflict w.heap root us)
    (e : updateState fuel root us w = (w', none)) (hf : w.heap.length < fuel') :
    updateState fuel' root us w' = (w', none) := by
  obtain ⟨hso, hwalk, _, htouched⟩ := C14_addressed_updated wf hroot hc hg hleaf hnc e
  obtain ⟨s, hs⟩ := updateState_some e
  obtain ⟨E, A, B, cell, ef⟩ := update_effect wf hroot hs hc hg hleaf e
  have wf' : WFWorld w' := (confined_updateState (A := fun _ => True) wf (fun _ _ _ _ _ => trivial) trivial hroot hg e).1.wf
  have hroot' : root < w'.heap.length := by rw [hso.len]; exact hroot
  obtain ⟨s', hs'⟩ := getState_exists wf'.heap hroot' (by rw [hso.len]; exact hf)
  obtain ⟨A', B', hp'⟩ := updatePlan (getState_canonical hs') hc
  obtain ⟨hp1, hp2, hp3⟩ := state_paths wf'.heap hroot' hs'
  obtain ⟨hq1, hq2, hq3⟩ := state_paths wf.heap hroot hs
  have haddr : ∀ k l n, Addresses w'.heap root k l n ↔ Addresses w.heap root k l n := by
    intro k l n
    exact ⟨fun ⟨p, h1, h2⟩ => ⟨p, h1, (hwalk _ _ _).1 h2⟩, fun ⟨p, h1, h2⟩ => ⟨p, h1, (hwalk _ _ _).2 h2⟩⟩
  have hvalidE : ∀ e ∈ E, ∀ l n, Addresses w.heap root e.1 l n → ∃ o', w'.heap[l]? = some o' ∧ w'.traceValid o'.trace = true := by
    intro e he l n ha
    obtain ⟨o, ho, ht⟩ := ef.valid e he
    obtain ⟨h1, _⟩ := ha.functional (ef.addr e he)
    subst h1
    have hl : (cell e.1).1 < w'.heap.length := by rw [hso.len]; exact (List.getElem?_eq_some_iff.1 ho).1
    refine ⟨_, List.getElem?_eq_getElem hl, ?_⟩
    obtain ⟨_, _, _, htt⟩ := hso.obj _ _ _ ho (List.getElem?_eq_getElem hl)
    rw [htt]
    simpa [World.traceValid, World.curTrace, hso.jax, hso.stack] using ht
  rw [updateState, hs']
  apply assignAll_noop
  rintro ⟨k, v⟩ he
  have hm := (hp'.mem k v).1 he
  simp only
  cases hgv : given us k with
  | some v' =>
    rw [hgv] at hm
    simp only [Option.orElse_some, Option.some.injEq] at hm
    subst hm
    have hkE : (k, v') ∈ E := (ef.plan.mem k v').2 (by rw [hgv]; rfl)
    have ha := ef.addr _ hkE
    simp only at ha
    have hat := htouched k v' _ _ hgv ha
    obtain ⟨o', ho', ht'⟩ := hvalidE _ hkE _ _ ha
    obtain ⟨t, ht, hmem⟩ := given_mem hgv
    obtain ⟨hwv, hres⟩ := hg t ht k v' hmem
    obtain ⟨p, hsp, hw⟩ := ha
    rw [hsp, getLastD_append_single] at hres
    rw [hsp, setValueAtPath_eq ((hwalk _ _ _).2 hw)]
    -- compatibility is known from the first update
    have hcomp : Compatible (attrAt w.heap (cell k).1 (cell k).2) v' := by
      have hass := ef.assigned (cell k).1 (cell k).2
      obtain ⟨pre, vs, hvs, hne, hall, hpre⟩ := vals_touched wf hroot hs ef.plan ef.addr hnc hgv ⟨p, hsp, hw⟩
      rw [hvs, Assigned.append] at hass
      obtain ⟨mid, h1, h2⟩ := hass
      have hmid : mid = attrAt w.heap (cell k).1 (cell k).2 := by
        rcases hpre with rfl | ⟨x, rfl, hx⟩
        · generalize attrAt w.heap (cell k).1 (cell k).2 = y at h1 ⊢
          cases h1; rfl
        · rw [h1.single, hx, newValue_self]
      subst hmid
      cases vs with
      | nil => exact absurd rfl hne
      | cons y vs =>
        have := hall y List.mem_cons_self
        subst this
        generalize attrAt w.heap (cell k).1 (cell k).2 = y' at h2 ⊢
        cases h2 with
        | cons hc _ => exact hc
    exact setAttr_noop wf' ho' ht' hres hat hwv hcomp.again (newValue_twice _ _)
  | none =>
    rw [hgv] at hm
    simp only [Option.orElse_none] at hm
    obtain ⟨l, n, ha, hat, hnode⟩ := hp1 k v hm
    have ha0 := (haddr _ _ _).1 ha
    have hvalid : ∃ o', w'.heap[l]? = some o' ∧ w'.traceValid o'.trace = true := by
      by_cases ht : ∃ k' v', given us k' = some v' ∧ Addresses w.heap root k' l n
      · obtain ⟨k', v', hk', ha'⟩ := ht
        exact hvalidE (k', v') ((ef.plan.mem k' v').2 (by rw [hk']; rfl)) l n ha'
      · have := C14_frame wf hroot hc hg hleaf e (l := l) (n := n) (fun k' v' hk' ha' => ht ⟨k', v', hk', ha'⟩)
        rw [hat] at this
        obtain ⟨k', hk', ha'⟩ := hq3 l n v ha0.reaches this.symm hnode
        have : given us k' = none := by
          cases hgk : given us k' with
          | none => rfl
          | some v' => exact absurd ⟨k', v', hgk, ha'⟩ ht
        exact hvalidE (k', v) ((ef.plan.mem k' v).2 (by rw [this]; exact hk')) l n ha'
    obtain ⟨o', ho', ht'⟩ := hvalid
    obtain ⟨p, hsp, hw⟩ := ha
    rw [hsp, setValueAtPath_eq hw]
    exact setAttr_noop wf' ho' ht' (wf'.heap.reserved _ _ _ hat) hat (wfVal_of_node wf'.heap hat hnode)
      (compatible_self v) (newValue_self v)

example : ∃ w', updateState 3 0 exUpdates exWorld = (w', none) ∧ w' ≠ exWorld ∧
    updateState 3 0 exUpdates w' = (w', none) := ⟨_, rfl, by decide, by decide⟩

/-- Without `NoConflict` repeating an update can change the module again: two States that write a new
attribute through two alias paths are applied in a different order once the attribute exists. -/
theorem C15_conflict_not_idempotent : ∃ (us : List (State (PyVal Nat))) (w' w'' : World Nat),
    updateState 3 0 us exWorld = (w', none) ∧ updateState 3 0 us w' = (w'', none) ∧ w'' ≠ w' :=
  ⟨[.new [(py! "b/new", exParam 1)], .new [(py! "a/new", exParam 2)]], _, _, rfl, rfl, by decide⟩

/-! ### C16 -/

theorem assignAll_kind (root : Loc) : ∀ (E : List (Str × PyVal α)) (w w' : World α) (r : Option Err),
    WFWorld w → root < w.heap.length → (∀ e ∈ E, WFVal e.2 ∧ isReserved ((splitSlash e.1).getLastD []) = false) →
    assignAll root E w = (w', r) → ∀ l n c x m, attrAt w.heap l n = some (.val (.cont c x m)) →
    ∃ y, attrAt w'.heap l n = some (.val (.cont c y m)) := by
  intro E
  induction E with
  | nil =>
    intro w w' r _ _ _ e l n c x m h
    simp only [assignAll, Prod.mk.injEq] at e
    rw [← e.1]; exact ⟨x, h⟩
  | cons a E ih =>
    intro w w' r wf hroot hg e l n c x m h
    obtain ⟨k, v⟩ := a
    rw [assignAll] at e
    split at e
    · simp only [Prod.mk.injEq] at e
      rw [← e.1]; exact ⟨x, h⟩
    · next w1 hs =>
      obtain ⟨p, n', l', hp, hw, hset⟩ := setValueAtPath_ok hroot wf.heap hs
      have hwv := (hg _ List.mem_cons_self).1
      have hc := (confined_setAttr_val (A := fun _ => True) wf (fun _ _ _ _ _ => trivial) trivial (by
          have := (hg _ List.mem_cons_self).2
          simp only [hp, getLastD_append_single] at this
          refine ⟨?_, this⟩
          have := splitSlash_parts_noslash k n'
          exact this (by rw [hp]; simp)) hwv hset)
      have h1 : ∃ y, attrAt w1.heap l n = some (.val (.cont c y m)) := by
        obtain ⟨o, a, ho, ht, hn, ha, rfl⟩ := setAttr_ok_iff.1 hset
        rw [attrAt_setAttrs ho]
        split
        · next hcell =>
          obtain ⟨rfl, rfl⟩ := hcell
          by_cases hcomp : Compatible (attrAt w.heap l n) v
          · rw [storedAttr_ok (wfOld wf l n) hwv hcomp, h] at ha
            simp only [newValue, Except.ok.injEq] at ha
            exact ⟨_, by rw [← ha]⟩
          · rw [storedAttr_error (wfOld wf l n) hwv hcomp] at ha; cases ha
        · exact ⟨x, h⟩
      obtain ⟨y, h1⟩ := h1
      exact ih w1 w' r hc.1.wf (by rw [hc.2]; exact hroot) (fun e he => hg e (List.mem_cons_of_mem _ he)) e l n c y m h1

/-- **C16, preservation.** After `update_state`, whether it succeeded or raised, every attribute that held a
container holds a container of the same class with the same metadata. -/
theorem C16_kind_preserved {w w' : World α} (wf : WFWorld w) {root : Loc} (hroot : root < w.heap.length)
    {fuel : Nat} {us : List (State (PyVal α))} (hg : GoodUpdates us) {r : Option Err}
    (e : updateState fuel root us w = (w', r)) {l : Loc} {n : Str} {c : Cls} {x : PyVal α} {m : Md α}
    (h : attrAt w.heap l n = some (.val (.cont c x m))) : ∃ y, attrAt w'.heap l n = some (.val (.cont c y m)) := by
  unfold updateState at e
  split at e
  · simp only [Prod.mk.injEq] at e
    rw [← e.1]; exact ⟨x, h⟩
  · next s hs =>
    refine assignAll_kind root _ w w' r wf hroot ?_ e l n c x m h
    rintro ⟨k, v⟩ hkv
    rcases mem_foldl_dupdate _ _ _ _ (by simp [DNodup]) hkv with h | ⟨t, ht, h⟩
    · cases h
    · rcases List.mem_cons.1 ht with rfl | ht
      · exact getState_good wf.heap hroot hs k v h
      · exact hg t ht k v h

/-- **C16, rejection.** An update that gives a container attribute a container of another class or with other
metadata does not succeed. -/
theorem C16_mismatch_rejected {w w' : World α} (wf : WFWorld w) {root : Loc} (hroot : root < w.heap.length)
    {fuel : Nat} {us : List (State (PyVal α))} (hc : ∀ t ∈ us, t.Canonical) (hg : GoodUpdates us)
    (hleaf : LeafPaths w.heap root us) {k : Str} {l : Loc} {n : Str} {c d : Cls} {x y : PyVal α} {m m' : Md α}
    (hk : given us k = some (.cont d y m')) (ha : Addresses w.heap root k l n)
    (h : attrAt w.heap l n = some (.val (.cont c x m))) (hne : c ≠ d ∨ ¬ MdSame m m') :
    updateState fuel root us w ≠ (w', none) := by
  intro e
  obtain ⟨s, hs⟩ := updateState_some e
  obtain ⟨E, A, B, cell, ef⟩ := update_effect wf hroot hs hc hg hleaf e
  have hkE : (k, .cont d y m') ∈ E := (ef.plan.mem k _).2 (by rw [hk]; rfl)
  have hcell : cell k = (l, n) := by
    have := (ef.addr _ hkE).functional ha
    exact Prod.ext this.1 this.2
  have hmem : .cont d y m' ∈ cellVals (E.map fun e => (cell e.1, e.2)) l n := by
    simp only [cellVals, List.mem_map, List.mem_filter, decide_eq_true_eq]
    exact ⟨_, ⟨⟨_, hkE, rfl⟩, hcell⟩, rfl⟩
  have hass := ef.assigned l n
  rw [h] at hass
  obtain ⟨pre, post, hpp⟩ := List.append_of_mem hmem
  rw [hpp, Assigned.append] at hass
  obtain ⟨mid, h1, h2⟩ := hass
  obtain ⟨z, rfl⟩ := h1.kind
  cases h2 with
  | cons hcomp _ =>
    obtain ⟨h1, h2⟩ := hcomp _ _ _ _ _ _ rfl rfl
    rcases hne with h | h
    · exact h h1
    · exact h h2

theorem assignAll_error_first {w : World α} {root : Loc} {e : Str × PyVal α} {er : Err} : ∀ {E : List (Str × PyVal α)},
    e ∈ E → (∀ x ∈ E, x ≠ e → setValueAtPath w (.ref root) (splitSlash x.1) x.2 = .ok w) →
    setValueAtPath w (.ref root) (splitSlash e.1) e.2 = .error er → assignAll root E w = (w, some er) := by
  intro E
  induction E with
  | nil => intro h; cases h
  | cons x E ih =>
    intro hmem hok herr
    obtain ⟨k, v⟩ := x
    rw [assignAll]
    by_cases hx : (k, v) = e
    · subst hx
      simp only at herr
      rw [herr]
    · have h1 := hok _ List.mem_cons_self hx
      simp only at h1
      rw [h1]
      refine ih ?_ (fun y hy => hok y (List.mem_cons_of_mem _ hy)) herr
      rcases List.mem_cons.1 hmem with h | h
      · exact absurd h.symm hx
      · exact h

/-- **C16, the error.** Updating one container attribute by a container of another class or with other
metadata raises ValueError and changes nothing. -/
theorem C16_mismatch_error {w : World α} (wf : WFWorld w) {root : Loc} (hroot : root < w.heap.length)
    {fuel : Nat} (hf : w.heap.length < fuel) {k : Str} {l : Loc} {n : Str} {c d : Cls} {x y : PyVal α} {m m' : Md α}
    (hv : WFVal (.cont d y m'))
    (htr : ∀ (l : Loc) (o : ModObj α), Reaches w.heap root l → w.heap[l]? = some o → w.traceValid o.trace = true)
    (ha : Addresses w.heap root k l n) (h : attrAt w.heap l n = some (.val (.cont c x m)))
    (hne : c ≠ d ∨ ¬ MdSame m m') :
    updateState fuel root [.new [(k, .cont d y m')]] w = (w, some .valueError) := by
  obtain ⟨s, hs⟩ := getState_exists wf.heap hroot hf
  have hc : ∀ t ∈ [State.new [(k, PyVal.cont d y m')]], t.Canonical := by
    intro t ht; simp only [List.mem_singleton] at ht; subst ht; exact State.new_strict _
  obtain ⟨A, B, hp⟩ := updatePlan (getState_canonical hs) hc
  obtain ⟨hp1, hp2, hp3⟩ := state_paths wf.heap hroot hs
  have hgk : given [State.new [(k, PyVal.cont d y m')]] k = some (.cont d y m') := by
    simp [given, State.get, State.new, sortItems, insertItem, dupdate, dofList, dset, dget]
  have hgn : ∀ k' v', given [State.new [(k, PyVal.cont d y m')]] k' = some v' → k' = k ∧ v' = .cont d y m' := by
    intro k' v' h
    obtain ⟨t, ht, hm⟩ := given_mem h
    simp only [List.mem_singleton] at ht
    subst ht
    have : (State.new [(k, PyVal.cont d y m')]).items = [(k, .cont d y m')] := by
      simp [State.items, State.new, sortItems, insertItem, dupdate, dofList, dset]
    rw [this] at hm
    simpa using hm
  rw [updateState, hs]
  apply assignAll_error_first (e := (k, .cont d y m')) ((hp.mem _ _).2 (by rw [hgk]; rfl))
  · rintro ⟨k', v'⟩ he hne'
    have hm := (hp.mem k' v').1 he
    cases hgv : given [State.new [(k, PyVal.cont d y m')]] k' with
    | some v'' =>
      rw [hgv] at hm
      simp only [Option.orElse_some, Option.some.injEq] at hm
      subst hm
      obtain ⟨rfl, rfl⟩ := hgn _ _ hgv
      exact absurd rfl hne'
    | none =>
      rw [hgv] at hm
      simp only [Option.orElse_none] at hm
      obtain ⟨l', n', ⟨p, hsp, hw⟩, ha', hnode⟩ := hp1 k' v' hm
      simp only
      rw [hsp, setValueAtPath_eq hw]
      exact setAttr_noop wf (List.getElem?_eq_getElem hw.lt) (htr _ _ ⟨p, hw⟩ (List.getElem?_eq_getElem hw.lt))
        (wf.heap.reserved _ _ _ ha') ha' (wfVal_of_node wf.heap ha' hnode) (compatible_self v') (newValue_self v')
  · obtain ⟨p, hsp, hw⟩ := ha
    simp only
    rw [hsp, setValueAtPath_eq hw, setAttr, List.getElem?_eq_getElem hw.lt]
    simp only
    rw [htr _ _ ⟨p, hw⟩ (List.getElem?_eq_getElem hw.lt)]
    simp only [Bool.true_eq_false, if_false]
    rw [if_neg]
    · have hd : dget (w.heap[l]'hw.lt).attrs n = some (.val (.cont c x m)) := by
        simpa [attrAt, List.getElem?_eq_getElem hw.lt] using h
      rw [hd, storedAttr_error (by rw [← h]; exact wfOld wf l n) hv]
      intro hcomp
      obtain ⟨h1, h2⟩ := hcomp _ _ _ _ _ _ rfl rfl
      rcases hne with h' | h'
      · exact h' h1
      · exact h' h2
    · rintro rfl
      have := wf.heap.reserved _ _ _ h
      revert this; decide

example : updateState 3 0 [.new [(py! "b/w", exStat 9)]] exWorld = (exWorld, some .valueError) := by decide

/-! ### C21 -/

/-- **C21, refusal.** Assigning to any attribute of a Module from another trace level raises
TraceContextError (and, raising, leaves the world as it is). -/
theorem C21_assign_refused {w : World α} {l : Loc} {o : ModObj α} (ho : w.heap[l]? = some o)
    (ht : o.trace ≠ w.curTrace) (n : Str) (x : Attr α) : setAttr w l n x = .error .traceContextError := by
  have : w.traceValid o.trace = false := by
    rw [← Bool.not_eq_true]
    intro h
    simp only [World.traceValid, Bool.and_eq_true, decide_eq_true_eq] at h
    apply ht
    cases h1 : o.trace with
    | mk a b => cases h2 : w.curTrace with
      | mk c d => rw [h1, h2] at h; simp only at h; rw [h.1, h.2]
  simp [setAttr, ho, this]

omit [DecidableEq α] in
theorem traceValid_eq {w : World α} {t : Trace} : w.traceValid t = true ↔ t = w.curTrace := by
  simp only [World.traceValid, Bool.and_eq_true, decide_eq_true_eq]
  constructor
  · rintro ⟨h1, h2⟩
    cases t with
    | mk a b => cases h : w.curTrace with
      | mk c d => rw [h] at h1 h2; simp only at h1 h2; rw [h1, h2]
  · rintro rfl; exact ⟨rfl, rfl⟩

/-- **C21, for every way to assign.** If an assignment, a `sow` or an assignment to a mutable leaf succeeds, the
Module's trace is the current one. -/
theorem C21_success_needs_trace {w w' : World α} {l : Loc} {n : Str} {o : ModObj α} (ho : w.heap[l]? = some o) :
    (∀ x, setAttr w l n x = .ok w' → o.trace = w.curTrace) ∧
    (∀ v, leafSet w (l, n) v = .ok w' → o.trace = w.curTrace) ∧
    (∀ vt v, sow l vt n v w = .ok w' → o.trace = w.curTrace) := by
  have key : ∀ x, setAttr w l n x = .ok w' → o.trace = w.curTrace := by
    intro x h
    obtain ⟨o', a, ho', ht, _⟩ := setAttr_ok_iff.1 h
    rw [ho] at ho'; cases ho'
    exact traceValid_eq.1 ht
  refine ⟨key, fun v h => key _ h, ?_⟩
  intro vt v h
  unfold sow at h
  rw [ho] at h
  simp only at h
  split at h
  · cases h
  · split at h
    · split at h
      · cases h
      · split at h
        · cases h
        · split at h
          · exact key _ h
          · cases h
    · cases h
    · split at h
      · cases h
      · split at h
        · cases h
        · exact key _ h

theorem assignAll_trace (root : Loc) : ∀ (E : List (Str × PyVal α)) (w w' : World α) (r : Option Err),
    assignAll root E w = (w', r) → w'.curTrace = w.curTrace ∧ ∀ (l : Loc) (o : ModObj α), w.heap[l]? = some o →
    o.trace ≠ w.curTrace → w'.heap[l]? = some o := by
  have hset : ∀ (parts : List Str) (w w1 : World α) (a : Attr α) (v : PyVal α), setValueAtPath w a parts v = .ok w1 →
      ∃ l n, setAttr w l n (.val v) = .ok w1 := by
    intro parts
    induction parts with
    | nil => intro w w1 a v h; cases a <;> simp [setValueAtPath] at h
    | cons p parts ih =>
      intro w w1 a v h
      cases a with
      | val x => simp [setValueAtPath] at h
      | ref l =>
        cases parts with
        | nil => exact ⟨l, p, by simpa [setValueAtPath] using h⟩
        | cons q parts =>
          rw [setValueAtPath] at h
          split at h
          · cases h
          · exact ih _ _ _ _ h
  intro E
  induction E with
  | nil => intro w w' r e; simp only [assignAll, Prod.mk.injEq] at e; rw [← e.1]; exact ⟨rfl, fun l o h _ => h⟩
  | cons x E ih =>
    intro w w' r e
    obtain ⟨k, v⟩ := x
    rw [assignAll] at e
    split at e
    · simp only [Prod.mk.injEq] at e; rw [← e.1]; exact ⟨rfl, fun l o h _ => h⟩
    · next w1 hs =>
      obtain ⟨l1, n1, h1⟩ := hset _ _ _ _ _ hs
      obtain ⟨o1, a1, ho1, ht1, hn1, ha1, rfl⟩ := setAttr_ok_iff.1 h1
      obtain ⟨h2, h3⟩ := ih _ _ _ e
      have hcur : (w.setAttrs l1 o1 (dset o1.attrs n1 a1)).curTrace = w.curTrace := rfl
      refine ⟨h2.trans hcur, ?_⟩
      intro l o ho ht
      apply h3 l o _ (by rw [hcur]; exact ht)
      simp only [World.setAttrs]
      rw [List.getElem?_set, if_neg]
      · exact ho
      · rintro rfl
        rw [ho] at ho1; cases ho1
        exact ht (traceValid_eq.1 ht1)

/-- **C21, update_state.** Whatever the update and its outcome, no Module of another trace level is changed. -/
theorem C21_update_protects {w w' : World α} {root : Loc} {fuel : Nat} {us : List (State (PyVal α))}
    {r : Option Err} (e : updateState fuel root us w = (w', r)) {l : Loc} {o : ModObj α}
    (ho : w.heap[l]? = some o) (ht : o.trace ≠ w.curTrace) : w'.heap[l]? = some o := by
  unfold updateState at e
  split at e
  · simp only [Prod.mk.injEq] at e
    rw [← e.1]; exact ho
  · exact (assignAll_trace _ _ _ _ _ e).2 l o ho ht

/-- **C21, update_state raises.** If the modules of the graph belong to another trace level and have any state
at all, `update_state` raises TraceContextError and changes nothing. -/
theorem C21_update_refused {w : World α} (wf : WFWorld w) {root : Loc} (hroot : root < w.heap.length)
    {fuel : Nat} {s : State (PyVal α)} (hs : getState fuel w.heap root = some s) (hne : s.items ≠ [])
    {us : List (State (PyVal α))}
    (ht : ∀ (l : Loc) (o : ModObj α), Reaches w.heap root l → w.heap[l]? = some o → o.trace ≠ w.curTrace) :
    updateState fuel root us w = (w, some .traceContextError) := by
  obtain ⟨hp1, hp2, hp3⟩ := state_paths wf.heap hroot hs
  have hcan := getState_canonical hs
  obtain ⟨t, hpre⟩ := dkeys_foldl_prefix us s.items
  have e0 : (s :: us).foldl (fun d t => dupdate d t.items) ([] : Dict Str (PyVal α)) =
      us.foldl (fun d t => dupdate d t.items) s.items := by
    rw [List.foldl_cons]
    congr 1
    exact dofList_of_nodup hcan.nodup
  rw [updateState, hs]
  simp only [updateModule]
  rw [e0]
  cases hi : s.items with
  | nil => exact absurd hi hne
  | cons x rest =>
    obtain ⟨k, v⟩ := x
    rw [hi] at hpre
    generalize us.foldl (fun d t => dupdate d t.items) ((k, v) :: rest) = E at *
    cases E with
    | nil => simp [dkeys] at hpre
    | cons y E =>
      obtain ⟨k', v'⟩ := y
      simp only [dkeys, List.map_cons, List.cons_append, List.cons.injEq] at hpre
      obtain ⟨rfl, _⟩ := hpre
      have hget : s.get k' = some v := mem_dget hcan.nodup (by
        have : (k', v) ∈ s.items := by rw [hi]; exact List.mem_cons_self
        exact this)
      obtain ⟨l, n, ⟨p, hsp, hw⟩, _⟩ := hp1 k' v hget
      rw [assignAll, hsp, setValueAtPath_eq hw,
        C21_assign_refused (List.getElem?_eq_getElem hw.lt) (ht _ _ ⟨p, hw⟩ (List.getElem?_eq_getElem hw.lt))]

/-- If a sequence of assignments to nodes, and whatever follows, succeeds, then the Modules of these nodes are of the current trace level. -/
theorem assignAll_needs_trace (root : Loc) : ∀ (E F : List (Str × PyVal α)) (w w' : World α),
    (∀ e ∈ E, ∃ l n v, Addresses w.heap root e.1 l n ∧ attrAt w.heap l n = some (.val v)) → assignAll root (E ++ F) w = (w', none) →
    ∀ e ∈ E, ∀ l n o, Addresses w.heap root e.1 l n → w.heap[l]? = some o → o.trace = w.curTrace := by
  intro E
  induction E with
  | nil => intro F w w' _ _ e he; cases he
  | cons x E ih =>
    intro F w w' hE h e he l n o hl ho
    obtain ⟨k, v⟩ := x
    obtain ⟨l0, n0, v0, ⟨p, hp, hw⟩, h0⟩ := hE _ List.mem_cons_self
    rw [List.cons_append, assignAll, hp, setValueAtPath_eq hw] at h
    cases hset : setAttr w l0 n0 (.val v) with
    | error e => rw [hset] at h; cases h
    | ok w1 =>
      rw [hset] at h
      have htr := (C21_success_needs_trace (w := w) (w' := w1) (l := l0) (n := n0) (List.getElem?_eq_getElem hw.lt)).1 _ hset
      obtain ⟨o1, a, ho1, _, _, ha, rfl⟩ := setAttr_ok_iff.1 hset
      obtain ⟨y, rfl⟩ := storedAttr_val ha
      have hso := SameObjects.setAttrs ho1 (dset o1.attrs n0 (.val y))
      rcases List.mem_cons.1 he with rfl | he
      · obtain ⟨rfl, rfl⟩ := hl.functional ⟨p, hp, hw⟩
        rw [List.getElem?_eq_getElem hw.lt] at ho
        cases ho
        exact htr
      · have hfwd : ∀ l' n' b, attrAt w.heap l' n' = some (.ref b) →
            attrAt (w.setAttrs l0 o1 (dset o1.attrs n0 (.val y))).heap l' n' = some (.ref b) := by
          intro l' n' b hb
          rw [attrAt_setAttrs ho1, if_neg]
          · exact hb
          · rintro ⟨rfl, rfl⟩; rw [h0] at hb; cases hb
        have hadd : ∀ {k' l' n'}, Addresses w.heap root k' l' n' → Addresses (w.setAttrs l0 o1 (dset o1.attrs n0 (.val y))).heap root k' l' n' :=
          fun ⟨q, hq, hw'⟩ => ⟨q, hq, hw'.congr hso.len hfwd⟩
        have hlt : l < w.heap.length := (List.getElem?_eq_some_iff.1 ho).1
        have hlt' : l < (w.setAttrs l0 o1 (dset o1.attrs n0 (.val y))).heap.length := by rw [hso.len]; exact hlt
        have key := ih F _ w' (fun e he => by
          obtain ⟨l', n', v', h1, h2⟩ := hE e (List.mem_cons_of_mem _ he)
          refine ⟨l', n', ?_⟩
          rw [attrAt_setAttrs ho1]
          split
          · exact ⟨y, hadd h1, rfl⟩
          · exact ⟨v', hadd h1, h2⟩) h e he l n _ (hadd hl) (List.getElem?_eq_getElem hlt')
        rw [(hso.obj l o _ ho (List.getElem?_eq_getElem hlt')).2.2.2] at key
        rw [key]
        rfl

/-- **C21, update_state needs the trace.** If `update_state` succeeds, with whatever update, all Modules of the graph that have a node are
of the current trace level. -/
theorem C21_update_needs_trace {w w' : World α} (wf : WFWorld w) {root : Loc} (hroot : root < w.heap.length) {fuel : Nat}
    {us : List (State (PyVal α))} (h : updateState fuel root us w = (w', none)) {l : Loc} (hl : Reaches w.heap root l) {n : Str} {v : PyVal α}
    (ha : attrAt w.heap l n = some (.val v)) (hv : v.isNode = true) {o : ModObj α} (ho : w.heap[l]? = some o) : o.trace = w.curTrace := by
  cases hs : getState fuel w.heap root with
  | none => rw [updateState, hs] at h; cases h
  | some s =>
    obtain ⟨hp1, hp2, hp3⟩ := state_paths wf.heap hroot hs
    have hcan := getState_canonical hs
    obtain ⟨t, hpre⟩ := dkeys_foldl_prefix us s.items
    have e0 : (s :: us).foldl (fun d t => dupdate d t.items) ([] : Dict Str (PyVal α)) =
        us.foldl (fun d t => dupdate d t.items) s.items := by
      rw [List.foldl_cons]
      congr 1
      exact dofList_of_nodup hcan.nodup
    rw [updateState, hs] at h
    simp only [updateModule] at h
    rw [e0] at h
    generalize us.foldl (fun d t => dupdate d t.items) s.items = E at h hpre
    obtain ⟨k, hk, hadd⟩ := hp3 l n v hl ha hv
    have hkeys : dkeys (E.take s.items.length) = dkeys s.items := by
      have := congrArg (List.take s.items.length) hpre
      rw [List.take_left' (by simp [dkeys])] at this
      rw [← this]
      simp [dkeys]
    rw [← List.take_append_drop s.items.length E] at h
    have hmem : k ∈ dkeys (E.take s.items.length) := by
      rw [hkeys]
      exact List.mem_map.2 ⟨(k, v), dget_mem hk, rfl⟩
    obtain ⟨e, he, rfl⟩ := List.mem_map.1 hmem
    refine assignAll_needs_trace root _ _ w w' ?_ h e he l n o hadd ho
    intro e he
    have : e.1 ∈ dkeys s.items := by rw [← hkeys]; exact List.mem_map.2 ⟨e, he, rfl⟩
    obtain ⟨x, hx, hx1⟩ := List.mem_map.1 this
    obtain ⟨l', n', h1, h2, _⟩ := hp1 x.1 x.2 (mem_dget hcan.nodup hx)
    exact ⟨l', n', x.2, hx1 ▸ h1, h2⟩

/-- **C21, the guard over a whole history.** A Module created in world `w` can be assigned to, after any
history of API calls and any nesting of traces, only when the current jax and nnx traces are the ones in force
when it was created. -/
theorem C21_creation_trace {K : List Loc} {w w' w'' : World α} (wf : WFWorld w) (hK : ∀ k ∈ K, k < w.heap.length)
    (c : Cls) {K' : List Loc} (r : Steps ((newModule c w).2 :: K) (newModule c w).1 K' w') {n : Str} {x : Attr α}
    (h : setAttr w' (newModule c w).2 n x = .ok w'') :
    w'.jaxTrace = w.jaxTrace ∧ w'.nnxStack.getLastD 0 = w.nnxStack.getLastD 0 := by
  have hcf := Step.confined (Step.create (K := K) (w := w) c) wf hK
  obtain ⟨cf, _, hlt, _⟩ := hcf
  have ho : (newModule c w).1.heap[(newModule c w).2]? = some ⟨c, [], w.nextId + 1, false, w.curTrace⟩ := by
    simp [newModule]
  obtain ⟨o', ho', _, _, ht⟩ := C71_identity_stable r cf.wf hlt ho
  have := (C21_success_needs_trace ho').1 x h
  rw [ht] at this
  simp only [World.curTrace, Trace.mk.injEq] at this
  exact ⟨this.1.symm, this.2.symm⟩

/-- The example world seen from inside a jax trace: assignments are refused. -/
example : setAttr { exWorld with jaxTrace := 1 } 0 (py! "w") (.val (exParam 2)) = .error .traceContextError ∧
    updateState 3 0 exUpdates { exWorld with nnxStack := [4] } =
      ({ exWorld with nnxStack := [4] }, some .traceContextError) := by decide

/-- A limitation: `del m.name` and `pop_state` do not check the trace. (Root `Block`: only module, no cycle.) -/
theorem C21_pop_not_guarded : ∃ (h h' : Heap Nat) (ss : List (State (PyVal Nat))) (w : World Nat),
    w.heap = h ∧ (∀ o ∈ h, o.trace ≠ w.curTrace) ∧
    popState 2 0 [.ofType cParam] h = (h', .ok ss) ∧ h' ≠ h := by
  refine ⟨[⟨exCls (py! "B"), [(py! "w", .val (exParam 1))], 1, false, ⟨0, 0⟩⟩], _, _,
    ⟨[⟨exCls (py! "B"), [(py! "w", .val (exParam 1))], 1, false, ⟨0, 0⟩⟩], 1, 5, []⟩, rfl, by decide, rfl, by decide⟩

end Nnx
