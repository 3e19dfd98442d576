import Verif.Spec.Interrupt
import Verif.Props.ModuleUpdate
import Verif.Proofs.Like
import Verif.Proofs.Collect
/-
Property C113: an interrupted update_state can be repeated.
-/
namespace Nnx
variable {α : Type} [DecidableEq α]

theorem assignAll_prefix (root : Loc) : ∀ (A B : List (Str × PyVal α)) (w w' : World α),
    assignAll root (A ++ B) w = (w', none) → ∃ x, assignAll root A w = (x, none) := by
  intro A
  induction A with
  | nil => intro B w w' _; exact ⟨w, rfl⟩
  | cons a A ih =>
    intro B w w' e
    obtain ⟨k, v⟩ := a
    simp only [List.cons_append, assignAll] at e ⊢
    cases hs : setValueAtPath w (.ref root) (splitSlash k) v with
    | error er => rw [hs] at e; simp at e
    | ok w1 => rw [hs] at e; exact ih B w1 w' e

omit [DecidableEq α] in
/-- Only the first of some equal values matters. -/
theorem Assigned.const_or {v : PyVal α} {vs : List (PyVal α)} {old new : Option (Attr α)} (hall : ∀ y ∈ vs, y = v)
    (h : Assigned old vs new) : new = old ∨ new = some (.val (newValue old v)) := by
  by_cases hv : vs = []
  · subst hv; cases h; exact .inl rfl
  · exact .inr (Assigned.const hv hall h)

/-- A value that a successful update gives is compatible with what it replaces. -/
theorem given_compatible {w w' : World α} (wf : WFWorld w) {root : Loc} (hroot : root < w.heap.length)
    {fuel : Nat} {us : List (State (PyVal α))} (hc : ∀ t ∈ us, t.Canonical) (hg : GoodUpdates us)
    (hleaf : LeafPaths w.heap root us) (hnc : NoConflict w.heap root us)
    (e : updateState fuel root us w = (w', none)) {k : Str} {v : PyVal α} (hk : given us k = some v) :
    ∃ l n, Addresses w.heap root k l n ∧ Compatible (attrAt w.heap l n) v := by
  obtain ⟨s, hs⟩ := updateState_some e
  obtain ⟨E, A, B, cell, ef⟩ := update_effect wf hroot hs hc hg hleaf e
  have ha := ef.addr (k, v) ((ef.plan.mem k v).2 (by rw [hk]; rfl))
  refine ⟨_, _, ha, ?_⟩
  have hass := ef.assigned (cell k).1 (cell k).2
  obtain ⟨pre, vs, hvs, hne, hall, hpre⟩ := vals_touched wf hroot hs ef.plan ef.addr hnc hk ha
  simp only at hvs
  rw [hvs, Assigned.append] at hass
  obtain ⟨mid, h1, h2⟩ := hass
  have hmid : mid = attrAt w.heap (cell k).1 (cell k).2 := by
    rcases hpre with rfl | ⟨x, rfl, hx⟩
    · generalize attrAt w.heap (cell k).1 (cell k).2 = y at h1 ⊢
      cases h1; rfl
    · simp only at hx
      rw [h1.single, hx, newValue_self]
  subst hmid
  cases vs with
  | nil => exact absurd rfl hne
  | cons y vs =>
    have := hall y List.mem_cons_self
    subst this
    simp only
    generalize attrAt w.heap (cell k).1 (cell k).2 = y' at h2 ⊢
    cases h2 with
    | cons hc _ => exact hc

/-- The world is well formed, has the same Modules, and every attribute is as before or as after the update. -/
structure Midway (w w' x : World α) : Prop where
  wf : WFWorld x
  same : SameObjects w x
  attr : ∀ l n, attrAt x.heap l n = attrAt w.heap l n ∨ attrAt x.heap l n = attrAt w'.heap l n

/-- One interrupted attempt at an update that would succeed. -/
theorem interrupted_midway {w w' : World α} (wf : WFWorld w) {root : Loc} (hroot : root < w.heap.length)
    {fuel : Nat} {us : List (State (PyVal α))} (hc : ∀ t ∈ us, t.Canonical) (hg : GoodUpdates us)
    (hleaf : LeafPaths w.heap root us) (hnc : NoConflict w.heap root us)
    (e : updateState fuel root us w = (w', none)) (n fuel' : Nat) :
    Midway w w' (updateInterrupted n fuel' root us w) := by
  obtain ⟨s, hs⟩ := updateState_some e
  obtain ⟨E, A, B, cell, ef⟩ := update_effect wf hroot hs hc hg hleaf e
  unfold updateInterrupted
  cases hs' : getState fuel' w.heap root with
  | none => exact ⟨wf, .refl w, fun _ _ => .inl rfl⟩
  | some s' =>
    obtain rfl := getState_det wf.heap hroot hs hs'
    simp only
    obtain ⟨A0, B0, hp⟩ := updatePlan (getState_canonical hs) hc
    have hrun : assignAll root ((s :: us).foldl (fun d t => dupdate d t.items) []) w = (w', none) := by
      rw [updateState, hs] at e; exact e
    generalize (s :: us).foldl (fun d t => dupdate d t.items) ([] : Dict Str (PyVal α)) = E0 at *
    have hsub : ∀ a ∈ E0, a ∈ E := fun a ha => (ef.plan.mem a.1 a.2).2 ((hp.mem a.1 a.2).1 ha)
    obtain ⟨hgood, hnr⟩ := plan_entries wf hroot hs hg hleaf hp
    have haddr : ∀ a ∈ E0, Addresses w.heap root a.1 (cell a.1).1 (cell a.1).2 := fun a ha => ef.addr a (hsub a ha)
    obtain ⟨x, hx⟩ := assignAll_prefix root (E0.take n) (E0.drop n) w w' (by rw [List.take_append_drop]; exact hrun)
    have hxe : (assignAll root (E0.take n) w).1 = x := by rw [hx]
    rw [hxe]
    have wfx : WFWorld x := (confined_assignAll (A := fun _ => True) root (E0.take n) w x none wf (fun _ _ _ _ _ => trivial) trivial hroot
      (fun k v h => hgood (k, v) (List.mem_of_mem_take h)) hx).1.wf
    rw [assign_cells (fun a ha => haddr a (List.mem_of_mem_take ha)) (fun a ha => hnr a (List.mem_of_mem_take ha))] at hx
    obtain ⟨h1, h2, -⟩ := runCells_effect _ _ _ wf.heap.conts (by
      intro c hc
      obtain ⟨a, ha, rfl⟩ := List.mem_map.1 hc
      exact (hgood a (List.mem_of_mem_take ha)).1) hx
    refine ⟨wfx, h1, fun l m => ?_⟩
    have hass := h2 l m
    have hsplit : cellVals (E0.map fun e => (cell e.1, e.2)) l m =
        cellVals ((E0.take n).map fun e => (cell e.1, e.2)) l m ++ cellVals ((E0.drop n).map fun e => (cell e.1, e.2)) l m := by
      rw [← cellVals_append, ← List.map_append, List.take_append_drop]
    generalize cellVals ((E0.take n).map fun e => (cell e.1, e.2)) l m = P at *
    by_cases ht : ∃ k v, given us k = some v ∧ Addresses w.heap root k l m
    · obtain ⟨k, v, hk, ha⟩ := ht
      obtain ⟨_, _, _, htouched⟩ := C14_addressed_updated wf hroot hc hg hleaf hnc e
      rw [htouched k v l m hk ha]
      obtain ⟨pre, vs, hvs, -, hall, hpre⟩ := vals_touched wf hroot hs hp haddr hnc hk ha
      rw [hvs] at hsplit
      rcases hpre with rfl | ⟨y, rfl, hy⟩
      · exact hass.const_or (fun z hz => hall z (by
          rw [List.nil_append] at hsplit; rw [hsplit]; exact List.mem_append_left _ hz))
      · cases P with
        | nil => left; generalize attrAt w.heap l m = z at hass ⊢; generalize attrAt x.heap l m = z' at hass ⊢; cases hass; rfl
        | cons z P =>
          simp only [List.cons_append, List.nil_append, List.cons.injEq] at hsplit
          obtain ⟨rfl, hsplit⟩ := hsplit
          rw [← List.singleton_append, Assigned.append] at hass
          obtain ⟨mid, g1, g2⟩ := hass
          have hmid : mid = attrAt w.heap l m := by rw [g1.single, hy, newValue_self]
          rw [hmid] at g2
          exact g2.const_or (fun z hz => hall z (by rw [hsplit]; exact List.mem_append_left _ hz))
    · left
      rcases vals_untouched wf hroot hs hp haddr (l := l) (n := m) (fun k v hk ha => ht ⟨k, v, hk, ha⟩) with h | ⟨y, h, hy⟩
      · rw [h] at hsplit
        obtain ⟨rfl, -⟩ := List.append_eq_nil_iff.1 hsplit.symm
        generalize attrAt w.heap l m = z at hass ⊢; generalize attrAt x.heap l m = z' at hass ⊢; cases hass; rfl
      · rw [h] at hsplit
        cases P with
        | nil => generalize attrAt w.heap l m = z at hass ⊢; generalize attrAt x.heap l m = z' at hass ⊢; cases hass; rfl
        | cons z P =>
          simp only [List.cons_append, List.cons.injEq] at hsplit
          obtain ⟨rfl, hsplit⟩ := hsplit
          obtain ⟨rfl, -⟩ := List.append_eq_nil_iff.1 hsplit.symm
          rw [hass.single, hy, newValue_self]

/-- From a world midway, the update succeeds and leads to the same content. -/
theorem midway_update {w w' x : World α} (wf : WFWorld w) {root : Loc} (hroot : root < w.heap.length)
    {fuel : Nat} {us : List (State (PyVal α))} (hc : ∀ t ∈ us, t.Canonical) (hg : GoodUpdates us)
    (hleaf : LeafPaths w.heap root us) (hnc : NoConflict w.heap root us)
    (htr : ∀ (l : Loc) (o : ModObj α), Reaches w.heap root l → w.heap[l]? = some o → w.traceValid o.trace = true)
    (e : updateState fuel root us w = (w', none)) (hm : Midway w w' x) :
    LeafPaths x.heap root us ∧ NoConflict x.heap root us ∧
    (∀ fuel', w.heap.length < fuel' → ∃ x', updateState fuel' root us x = (x', none)) ∧
    (∀ fuel' x', updateState fuel' root us x = (x', none) → EqualContent w' x') := by
  obtain ⟨s, hs⟩ := updateState_some e
  obtain ⟨E, A, B, cell, ef⟩ := update_effect wf hroot hs hc hg hleaf e
  obtain ⟨hso, hwalk', _, htouched⟩ := C14_addressed_updated wf hroot hc hg hleaf hnc e
  have hrefs' := ef.refs wf hroot hs hg hleaf
  have hrefs : ∀ l n b, attrAt x.heap l n = some (.ref b) ↔ attrAt w.heap l n = some (.ref b) := by
    intro l n b
    rcases hm.attr l n with h | h <;> rw [h]
    exact hrefs' l n b
  have hwalk : ∀ a p b, Walk x.heap a p b ↔ Walk w.heap a p b := fun a p b =>
    ⟨fun h => h.congr hm.same.len.symm (fun l n b hb => (hrefs l n b).1 hb),
     fun h => h.congr hm.same.len (fun l n b hb => (hrefs l n b).2 hb)⟩
  have haddr : ∀ k l n, Addresses x.heap root k l n ↔ Addresses w.heap root k l n := by
    intro k l n
    exact ⟨fun ⟨p, h1, h2⟩ => ⟨p, h1, (hwalk _ _ _).1 h2⟩, fun ⟨p, h1, h2⟩ => ⟨p, h1, (hwalk _ _ _).2 h2⟩⟩
  have hleafx : LeafPaths x.heap root us := fun k v hk l n ha b hb =>
    hleaf k v hk l n ((haddr _ _ _).1 ha) b ((hrefs _ _ _).1 hb)
  have hncx : NoConflict x.heap root us := fun k v k' v' hk hk' l n ha ha' =>
    hnc k v k' v' hk hk' l n ((haddr _ _ _).1 ha) ((haddr _ _ _).1 ha')
  have hrootx : root < x.heap.length := by rw [hm.same.len]; exact hroot
  refine ⟨hleafx, hncx, ?_, ?_⟩
  · intro fuel' hf
    apply C14_succeeds hm.wf hrootx (by rw [hm.same.len]; exact hf) hc hg hleafx hncx
    · intro l o hr ho
      have hl : l < w.heap.length := by rw [← hm.same.len]; exact (List.getElem?_eq_some_iff.1 ho).1
      have hv := htr l _ (by obtain ⟨p, hp⟩ := hr; exact ⟨p, (hwalk _ _ _).1 hp⟩) (List.getElem?_eq_getElem hl)
      obtain ⟨_, _, _, htt⟩ := hm.same.obj _ _ _ (List.getElem?_eq_getElem hl) ho
      rw [htt]
      simpa [World.traceValid, World.curTrace, hm.same.jax, hm.same.stack] using hv
    · intro k v hk
      obtain ⟨l, n, ha, hcomp⟩ := given_compatible wf hroot hc hg hleaf hnc e hk
      refine ⟨l, n, (haddr _ _ _).2 ha, ?_⟩
      rcases hm.attr l n with h | h <;> rw [h]
      · exact hcomp
      · rw [htouched k v l n hk ha]; exact hcomp.again
  · intro fuel' x' ex
    obtain ⟨hsox, _, _, htouchedx⟩ := C14_addressed_updated hm.wf hrootx hc hg hleafx hncx ex
    refine ⟨hso.symm.trans (hm.same.trans hsox), fun l n => ?_⟩
    by_cases ht : ∃ k v, given us k = some v ∧ Addresses w.heap root k l n
    · obtain ⟨k, v, hk, ha⟩ := ht
      rw [htouchedx k v l n hk ((haddr _ _ _).2 ha), htouched k v l n hk ha]
      rcases hm.attr l n with h | h <;> rw [h]
      rw [htouched k v l n hk ha, newValue_twice]
    · have h1 := C14_frame wf hroot hc hg hleaf e (l := l) (n := n) (fun k v hk ha => ht ⟨k, v, hk, ha⟩)
      have h2 := C14_frame hm.wf hrootx hc hg hleafx ex (l := l) (n := n) (fun k v hk ha => ht ⟨k, v, hk, (haddr _ _ _).1 ha⟩)
      rw [h2]
      rcases hm.attr l n with h | h <;> rw [h]
      exact h1.symm

theorem Attempts.midway {w w' : World α} (wf : WFWorld w) {root : Loc} (hroot : root < w.heap.length)
    {fuel : Nat} {us : List (State (PyVal α))} (hc : ∀ t ∈ us, t.Canonical) (hg : GoodUpdates us)
    (hleaf : LeafPaths w.heap root us) (hnc : NoConflict w.heap root us)
    (htr : ∀ (l : Loc) (o : ModObj α), Reaches w.heap root l → w.heap[l]? = some o → w.traceValid o.trace = true)
    (e : updateState fuel root us w = (w', none)) {x : World α} (ha : Attempts root us w x) : Midway w w' x := by
  induction ha with
  | start => exact ⟨wf, .refl w, fun _ _ => .inl rfl⟩
  | @interrupted x n fuel' _ hm =>
    obtain ⟨h1, h2, h3, h4⟩ := midway_update wf hroot hc hg hleaf hnc htr e hm
    obtain ⟨x', hx'⟩ := h3 _ (Nat.lt_succ_self _)
    have hm2 := interrupted_midway hm.wf (by rw [hm.same.len]; exact hroot) hc hg h1 h2 hx' n fuel'
    refine ⟨hm2.wf, hm.same.trans hm2.same, fun l m => ?_⟩
    rcases hm2.attr l m with h | h
    · rw [h]; exact hm.attr l m
    · right; rw [h]; exact (h4 _ _ hx').2 l m

/-! ### C113 -/

/-- **C113, between.** Whenever attempts at `m.update_state(us)` are interrupted, every attribute of every Module
is as it was before the first attempt or as it would be after the whole update; no Module is created, lost or
changed otherwise, and every container keeps its class and its metadata. -/
theorem C113_between {w w' : World α} (wf : WFWorld w) {root : Loc} (hroot : root < w.heap.length)
    {fuel : Nat} {us : List (State (PyVal α))} (hc : ∀ t ∈ us, t.Canonical) (hg : GoodUpdates us)
    (hleaf : LeafPaths w.heap root us) (hnc : NoConflict w.heap root us)
    (htr : ∀ (l : Loc) (o : ModObj α), Reaches w.heap root l → w.heap[l]? = some o → w.traceValid o.trace = true)
    (e : updateState fuel root us w = (w', none)) {x : World α} (ha : Attempts root us w x) :
    WFWorld x ∧ SameObjects w x ∧
    (∀ l n, attrAt x.heap l n = attrAt w.heap l n ∨ attrAt x.heap l n = attrAt w'.heap l n) ∧
    (∀ l n c y m, attrAt w.heap l n = some (.val (.cont c y m)) → ∃ z, attrAt x.heap l n = some (.val (.cont c z m))) := by
  have hm := ha.midway wf hroot hc hg hleaf hnc htr e
  refine ⟨hm.wf, hm.same, hm.attr, ?_⟩
  intro l n c y m h
  rcases hm.attr l n with h' | h'
  · exact ⟨y, by rw [h', h]⟩
  · obtain ⟨s, hs⟩ := updateState_some e
    obtain ⟨E, A, B, cell, ef⟩ := update_effect wf hroot hs hc hg hleaf e
    have hass := ef.assigned l n
    rw [h] at hass
    rw [h']
    exact hass.kind

/-- **C113, repeating.** After any number of interrupted attempts, `m.update_state(us)` succeeds and leads to the
content that one uninterrupted call would have led to. -/
theorem C113_repeat {w w' : World α} (wf : WFWorld w) {root : Loc} (hroot : root < w.heap.length)
    {fuel : Nat} {us : List (State (PyVal α))} (hc : ∀ t ∈ us, t.Canonical) (hg : GoodUpdates us)
    (hleaf : LeafPaths w.heap root us) (hnc : NoConflict w.heap root us)
    (htr : ∀ (l : Loc) (o : ModObj α), Reaches w.heap root l → w.heap[l]? = some o → w.traceValid o.trace = true)
    (e : updateState fuel root us w = (w', none)) {x : World α} (ha : Attempts root us w x)
    {fuel' : Nat} (hf : w.heap.length < fuel') :
    ∃ x', updateState fuel' root us x = (x', none) ∧ EqualContent w' x' := by
  obtain ⟨-, -, h3, h4⟩ := midway_update wf hroot hc hg hleaf hnc htr e (ha.midway wf hroot hc hg hleaf hnc htr e)
  obtain ⟨x', hx'⟩ := h3 fuel' hf
  exact ⟨x', hx', h4 _ _ hx'⟩

/-- Two attempts at the update of the example of C14, stopped after four and after two assignments: a mixture of
old and new values, which the third attempt completes. -/
example : ∃ x x' w' : World Nat, Attempts 0 exUpdates exWorld x ∧
    updateState 3 0 exUpdates exWorld = (w', none) ∧ x ≠ exWorld ∧ x ≠ w' ∧
    attrAt x.heap 1 (py! "w") ≠ attrAt w'.heap 1 (py! "w") ∧ attrAt x.heap 0 (py! "w") = attrAt w'.heap 0 (py! "w") ∧
    updateState 3 0 exUpdates x = (x', none) ∧ x' = w' :=
  ⟨updateInterrupted 2 3 0 exUpdates (updateInterrupted 4 3 0 exUpdates exWorld), _, _, .interrupted 2 3 (.interrupted 4 3 .start),
    rfl, by decide +kernel, by decide +kernel, by decide +kernel, by decide +kernel, rfl, by decide +kernel⟩

/-- The Modules of the example belong to the current trace, the last of the hypotheses (the others are shown beside
C14). -/
example : ∀ (l : Loc) (o : ModObj Nat), Reaches exWorld.heap 0 l → exWorld.heap[l]? = some o → exWorld.traceValid o.trace = true := by
  intro l o _ ho
  have : ∀ o ∈ exWorld.heap, exWorld.traceValid o.trace = true := by decide
  exact this o (List.mem_of_getElem? ho)

/-- Why `NoConflict` is needed: two States that write a new attribute through two alias paths. Uninterrupted, the
second State wins; when the first attempt is stopped between the two assignments, the repeated call lets the first
State win. -/
theorem C113_conflict : ∃ (us : List (State (PyVal Nat))) (w' x' : World Nat),
    updateState 3 0 us exWorld = (w', none) ∧ updateState 3 0 us (updateInterrupted 4 3 0 us exWorld) = (x', none) ∧
    access w'.heap (.ref 0) [py! "a", py! "new"] = some (.val (exParam 2)) ∧
    access x'.heap (.ref 0) [py! "a", py! "new"] = some (.val (exParam 1)) :=
  ⟨[.new [(py! "b/new", exParam 1)], .new [(py! "a/new", exParam 2)]], _, _, rfl, rfl, by decide +kernel, by decide +kernel⟩

end Nnx
