import Verif.Proofs.ScanNamed
/-
The end of nnx.scan with a partition name.
-/
namespace Nnx
variable {α κ A B C : Type} [DecidableEq α]
variable {w w' : World α} {l : Loc} {o : ScanOptions α} {name : PyVal α} {s0 : State (PyVal α)}
variable {d : ModuleDef α} {ss0 ss' : List (State (PyVal α))} {b c0 s' : State (PyVal α)} {R : Arrays α}

omit [DecidableEq α] in
/-- Assigning a value of the same kind. -/
theorem newValue_kind {x v : PyVal α} (h : SameKind x v) : newValue (some (.val x)) v = v ∧ Compatible (some (.val x)) v := by
  cases x with
  | cont c u m =>
    obtain ⟨z, rfl⟩ := h.1 c u m rfl
    refine ⟨rfl, ?_⟩
    intro c' x' m' d' y' n' e1 e2
    cases e1; cases e2
    exact ⟨rfl, mdSame_refl' _⟩
  | _ => exact ⟨rfl, nofun⟩

/-- The state after the scan: the entries of the direct loop and the final update, with the metadata from before. -/
def finalGet (s0 fin sl : State (PyVal α)) (k : Str) : Option (PyVal α) := ((fin.get k).map (renamed (s0.get k))).or (sl.get k)

/-- **The end of the scan**, with a partition name. -/
theorem named_end (S : Setup w l o.plain s0 d ss0 b c0) (S' : Setup w' l o.plain s' d ss' b c0) (U : Unnamed o name l s0 w w')
    (US : UnnamedState o name s0 s')
    {vl : World α} {sl csl : State (PyVal α)} (a : At w' l o.plain s' vl sl csl)
    {outs : List (State (PyVal α) × B)} {ys : List (StepOut α B)} (h : List.Forall₂ (IsStepOut w' l o.plain) outs ys) (hne : outs ≠ [])
    (hco : ∀ t ∈ outs, InColl o.plain s' t.1) {fin : State (PyVal α)} (hfin : IsStacked R o.plain s' (outs.map (·.1)) fin) {u : World α}
    (hgr : Grows w u) {ysNew : List (StepOut α B)} (hnb : ∀ y ∈ ysNew, y.bcastNew = ⟨[]⟩) (hnc : ∀ y ∈ ysNew, y.carryNew = ⟨[]⟩) (c' : C)
    {fuel : Nat} (hf : getState fuel w.heap l = some s0) :
    ∃ ws sf, scanEnd R fuel o l (csl, c') (ys.map (renameOut o s0)) (ysNew.map (renameOut o s0)) u = (ws, .ok (c', outs.map (·.2))) ∧
      WFWorld ws ∧ SameObjects u ws ∧ getState (ws.heap.length + 1) ws.heap l = some sf ∧ (∀ k, sf.get k = finalGet s0 fin sl k) ∧
      (∀ q x, Walk ws.heap l q x ↔ Walk w.heap l q x) ∧
      ∀ x n, (∀ k, (sl.get k).isSome → ¬ Addresses w.heap l k x n) → attrAt ws.heap x n = attrAt u.heap x n := by
  -- the stacked states
  have hstack : ∀ fa ∈ o.variableAxes.zipIdx,
      (stackStates R fa.1.2 ((ys.map (renameOut o s0)).filterMap fun y => y.axes[fa.2]?)).isSome := by
    rintro ⟨⟨f, ax⟩, g⟩ hm
    obtain ⟨st, hst, _⟩ := stack_named S S' US h hne hco hfin (List.mem_zipIdx_iff_getElem?.1 hm)
    rw [hst]; rfl
  obtain ⟨sts, hsts⟩ := allSome_exists (fun fa : (Filter α × Int) × Nat =>
    stackStates R fa.1.2 ((ys.map (renameOut o s0)).filterMap fun y => y.axes[fa.2]?)) _ hstack
  obtain ⟨hlen, hspec⟩ := allSome_map_spec _ _ hsts
  rw [List.length_zipIdx] at hlen
  have hz : ∀ (g : Nat) (hg : g < o.variableAxes.length), o.variableAxes.zipIdx[g]? = some (o.variableAxes[g], g) := by
    intro g hg
    rw [List.getElem?_zipIdx, List.getElem?_eq_getElem hg]; simp
  have hg1 : ∀ t ∈ sts, t.Canonical ∧ ∀ k v, t.get k = some v → ∃ g x x' y i, g < o.variableAxes.length ∧ s0.get k = some x ∧
      FirstMatch o.filters k x g ∧ AxisRemoved i name x x' ∧ s'.get k = some x' ∧ fin.get k = some y ∧ v = renamed (some x) y ∧
      SameKind x' y ∧ WFVal y ∧ y.isNode = true := by
    intro t ht
    obtain ⟨g, hg, rfl⟩ := List.getElem_of_mem ht
    have hg' : g < o.variableAxes.length := hlen ▸ hg
    obtain ⟨st, h1, h2⟩ := hspec g _ (hz g hg')
    obtain ⟨st', h3, h4, h5, _⟩ := stack_named (R := R) S S' US h hne hco hfin (f := o.variableAxes[g].1) (i := o.variableAxes[g].2)
      (List.getElem?_eq_getElem hg')
    rw [h3] at h1
    cases h1
    rw [List.getElem?_eq_getElem hg] at h2
    cases h2
    refine ⟨h4, ?_⟩
    intro k v hk
    obtain ⟨x, x', y, h6, h7, h8, h9, h10⟩ := h5 k v hk
    exact ⟨g, x, x', y, _, hg', h6, h7, h8, h9, h10⟩
  have hg2 : ∀ k x g, g < o.variableAxes.length → s0.get k = some x → FirstMatch o.filters k x g → ∃ t ∈ sts, (t.get k).isSome := by
    intro k x g hg hx hfm
    obtain ⟨st, h1, h2⟩ := hspec g _ (hz g hg)
    obtain ⟨st', h3, h4, _, h5⟩ := stack_named (R := R) S S' US h hne hco hfin (f := o.variableAxes[g].1) (i := o.variableAxes[g].2)
      (List.getElem?_eq_getElem hg)
    rw [h3] at h1
    cases h1
    exact ⟨_, List.mem_of_getElem? h2, h5 k x hx hfm⟩
  have hnb' : stackStates R 0 ((ysNew.map (renameOut o s0)).map (·.bcastNew)) = some ⟨[]⟩ := stackStates_empty (by
    intro t ht
    obtain ⟨y1, hy1, rfl⟩ := List.mem_map.1 ht
    obtain ⟨y, hy, rfl⟩ := List.mem_map.1 hy1
    exact hnb y hy)
  have hnc' : stackStates R 0 ((ysNew.map (renameOut o s0)).map (·.carryNew)) = some ⟨[]⟩ := stackStates_empty (by
    intro t ht
    obtain ⟨y1, hy1, rfl⟩ := List.mem_map.1 ht
    obtain ⟨y, hy, rfl⟩ := List.mem_map.1 hy1
    exact hnc y hy)
  generalize hus : sts ++ [csl, ⟨[]⟩, ⟨[]⟩] = us
  -- states and paths
  obtain ⟨p1, p2, p3⟩ := state_paths S.wf.heap S.hl S.state
  obtain ⟨p1', p2', p3'⟩ := state_paths S'.wf.heap S'.hl S'.state
  have hll := Nat.lt_of_lt_of_le S'.hl a.ev.keeps.len
  obtain ⟨q1, q2, q3⟩ := state_paths a.ev.wf.heap hll a.state
  have hlu := Nat.lt_of_lt_of_le S.hl hgr.len
  have hwu : ∀ q x, Walk u.heap l q x ↔ Walk w.heap l q x :=
    (NodeWrites.transfer (w' := w) S.wf.heap S.hl (fun _ _ _ => .inl rfl) hgr.len hgr.old).1
  have hwv : ∀ q x, Walk vl.heap l q x ↔ Walk w.heap l q x := fun q x =>
    (a.ev.walk S'.wf S'.hl q x).trans (U.walk S.wf S.hl S.state l q x)
  have adrU : ∀ k x n, Addresses u.heap l k x n ↔ Addresses w.heap l k x n := fun k x n =>
    exists_congr fun p => and_congr_right fun _ => hwu p x
  have adrV : ∀ k x n, Addresses vl.heap l k x n ↔ Addresses w.heap l k x n := fun k x n =>
    exists_congr fun p => and_congr_right fun _ => hwv p x
  have adr' : ∀ k x n, Addresses w'.heap l k x n ↔ Addresses w.heap l k x n := fun k x n =>
    exists_congr fun p => and_congr_right fun _ => U.walk S.wf S.hl S.state l p x
  have atU : ∀ x n, Reaches w.heap l x → attrAt u.heap x n = attrAt w.heap x n := by
    rintro x n ⟨q, hq⟩
    simp only [attrAt, hgr.old x hq.lt]
  have s0None : ∀ k, s'.get k = none → s0.get k = none := by
    intro k hk
    cases h0 : s0.get k with
    | none => rfl
    | some x =>
      obtain ⟨g, hfm, hg⟩ := S.first h0
      by_cases hg' : g < o.variableAxes.length
      · obtain ⟨x', _, _, h1⟩ := US.axes k x g _ _ h0 (List.getElem?_eq_getElem hg') hfm
        rw [hk] at h1; cases h1
      · rw [US.rest k x g h0 hfm (Nat.le_of_not_lt hg')] at hk; cases hk
  have slSome : ∀ k x, s0.get k = some x → (sl.get k).isSome := by
    intro k x h0
    cases h1 : s'.get k with
    | none => rw [s0None k h1] at h0; cases h0
    | some x' =>
      obtain ⟨z, hz, _⟩ := a.ev.state S'.wf S'.hl S'.state a.state h1
      rw [hz]; rfl
  -- an entry of the update
  have cls : ∀ k v, given us k = some v → (sl.get k).isSome ∧ finalGet s0 fin sl k = some v ∧ WFVal v ∧ v.isNode = true ∧
      ∀ x, s0.get k = some x → SameKind x v := by
    intro k v hk
    obtain ⟨t, ht, htk⟩ := List.exists_of_findSome?_eq_some hk
    rw [List.mem_reverse, ← hus] at ht
    simp only [List.mem_append, List.mem_cons, List.not_mem_nil, or_false] at ht
    rcases ht with ht | rfl | rfl | rfl
    · obtain ⟨g, x, x', y, i, hg, h1, h2, h3, h4, h5, rfl, h6, h7, h8⟩ := (hg1 t ht).2 k v htk
      refine ⟨slSome k x h1, ?_, ?_, ?_, ?_⟩
      · simp only [finalGet, h5, Option.map_some, h1, Option.some_or]
      · refine WFVal.newValue ?_ h7
        intro c1 z m1 hz
        cases hz
        exact wfVal_container ((Evolves.refl S.wf l).values S.hl S.state h1).1
      · have := (renamed_kind h3 h6)
        cases x with
        | cont c z m => exact ((Evolves.refl S.wf l).values S.hl S.state h1).2
        | _ => exact h8
      · intro x1 hx1
        rw [h1] at hx1; cases hx1
        exact renamed_kind h3 h6
    · obtain ⟨h1, h2⟩ := (a.carry.2 k v).1 htk
      refine ⟨by rw [h1]; rfl, ?_, (a.ev.values S'.hl a.state h1).1, (a.ev.values S'.hl a.state h1).2, ?_⟩
      · cases hfk : fin.get k with
        | none => simp only [finalGet, hfk, Option.map_none, Option.none_or, h1]
        | some z =>
          exfalso
          obtain ⟨x, g, hx, hfm, hg⟩ := hfin.only k z hfk
          have := (a.coll.stays k x v g hx h1 hfm).unique h2
          omega
      · intro x hx
        obtain ⟨g, hfm, _⟩ := S.first hx
        have hgn : g = o.variableAxes.length + 1 := by
          by_cases hg' : g < o.variableAxes.length
          · obtain ⟨x', _, h4, h3⟩ := US.axes k x g _ _ hx (List.getElem?_eq_getElem hg') hfm
            exact (a.coll.stays k x' v g h3 h1 h4).unique h2
          · have h3 := US.rest k x g hx hfm (Nat.le_of_not_lt hg')
            exact (a.coll.stays k x v g h3 h1 hfm).unique h2
        have h3 := US.rest k x g hx hfm (by omega)
        obtain ⟨z, h4, h5⟩ := a.ev.state S'.wf S'.hl S'.state a.state h3
        rw [h1] at h4; cases h4
        exact h5
    · cases htk
    · cases htk
  -- what is not in the update
  have hnone : ∀ k, given us k = none → (∀ t ∈ sts, t.get k = none) ∧ csl.get k = none := by
    intro k hk
    rw [given, List.findSome?_eq_none_iff, ← hus] at hk
    exact ⟨fun t ht => hk t (by simp [ht]), hk csl (by simp)⟩
  have rest : ∀ k, (sl.get k).isSome → given us k = none → ∃ x, s0.get k = some x ∧ finalGet s0 fin sl k = some x := by
    intro k hk hgiv
    obtain ⟨n1, n2⟩ := hnone k hgiv
    obtain ⟨y, hy⟩ := Option.isSome_iff_exists.1 hk
    cases h0' : s'.get k with
    | none =>
      have := (a.carry.2 k y).2 ⟨hy, a.coll.fresh k y h0' hy⟩
      rw [n2] at this; cases this
    | some x' =>
      obtain ⟨g, hfm, hg⟩ := S'.first h0'
      obtain ⟨x, h0, hfm0⟩ := US.group S h0' hfm
      refine ⟨x, h0, ?_⟩
      rcases Nat.lt_or_eq_of_le hg with hlt | heq
      · rcases Nat.lt_or_eq_of_le (Nat.le_of_lt_succ hlt) with hlt | heq
        · obtain ⟨t, ht, htk⟩ := hg2 k x g hlt h0 hfm0
          rw [n1 t ht] at htk; cases htk
        · rw [heq] at hfm hfm0
          have hx := US.rest k x _ h0 hfm0 (Nat.le_refl _)
          rw [h0', Option.some.injEq] at hx
          subst hx
          have := hfin.broadcast k x' h0' hfm
          simp only [finalGet, this, h0, Option.map_some, Option.some_or, renamed, newValue_self]
      · rw [heq] at hfm
        have := (a.carry.2 k y).2 ⟨hy, a.coll.stays k x' y _ h0' hy hfm⟩
        rw [n2] at this; cases this
  -- what attributes were
  have atW : ∀ k x a' n, s0.get k = some x → Addresses w.heap l k a' n → attrAt w.heap a' n = some (.val x) ∧ x.isNode = true := by
    intro k x a' n hk ha
    obtain ⟨a1, n1, h1, h2, h3⟩ := p1 k x hk
    obtain ⟨rfl, rfl⟩ := h1.functional ha
    exact ⟨h2, h3⟩
  have atNone : ∀ k a' n, (sl.get k).isSome → s0.get k = none → Addresses w.heap l k a' n → attrAt w.heap a' n = none := by
    intro k a' n hk h0 ha
    obtain ⟨y, hy⟩ := Option.isSome_iff_exists.1 hk
    obtain ⟨a1, n1, h1, h2, h3⟩ := q1 k y hy
    obtain ⟨rfl, rfl⟩ := h1.functional ((adrV k a' n).2 ha)
    have hr' := ((adr' k a1 n1).2 ha).reaches
    have key : ∀ z, attrAt w'.heap a1 n1 = some (.val z) → z.isNode = true → False := by
      intro z hz hzn
      obtain ⟨k1, h4, h5⟩ := p3' a1 n1 z hr' hz hzn
      obtain ⟨y1, h6, _⟩ := a.ev.state S'.wf S'.hl S'.state a.state h4
      have := q2 k k1 a1 n1 hk (by rw [h6]; rfl) h1 ((adrV k1 a1 n1).2 ((adr' k1 a1 n1).1 h5))
      subst this
      have : s'.get k = none := US.none k h0
      rw [h4] at this; cases this
    have h' : attrAt w'.heap a1 n1 = none := by
      rcases a.ev.nodes a1 n1 hr' with h | ⟨v, _, _, h5⟩
      · rw [h2] at h
        exact (key y h.symm h3).elim
      · cases hx : attrAt w'.heap a1 n1 with
        | none => rfl
        | some z =>
          obtain ⟨z', rfl, hz', _⟩ := h5 z hx
          exact (key z' hx hz').elim
    rcases U.attr' S.wf S.hl S.state a1 n1 with h | ⟨_, _, _, _, _, _, _, _, _, _, _, _, h7, _⟩
    · rw [← h]; exact h'
    · rw [h'] at h7; cases h7
  -- writing back
  have hc : ∀ t ∈ us, t.Canonical := by
    intro t ht
    rw [← hus] at ht
    simp only [List.mem_append, List.mem_cons, List.not_mem_nil, or_false] at ht
    rcases ht with ht | rfl | rfl | rfl
    · exact (hg1 t ht).1
    · exact a.carry.1
    · exact List.Pairwise.nil
    · exact List.Pairwise.nil
  have hgood : GoodUpdates us := by
    intro t ht k v hm
    have hk : t.get k = some v := mem_dget (hc t ht).nodup hm
    have hsl : (sl.get k).isSome ∧ WFVal v := by
      rw [← hus] at ht
      simp only [List.mem_append, List.mem_cons, List.not_mem_nil, or_false] at ht
      rcases ht with ht | rfl | rfl | rfl
      · obtain ⟨g, x, x', y, i, hg, h1, h2, h3, h4, h5, rfl, h6, h7, h8⟩ := (hg1 t ht).2 k v hk
        refine ⟨slSome k x h1, WFVal.newValue ?_ h7⟩
        intro c1 z m1 hz
        cases hz
        exact wfVal_container ((Evolves.refl S.wf l).values S.hl S.state h1).1
      · have := ((a.carry.2 k v).1 hk).1
        exact ⟨by rw [this]; rfl, (a.ev.values S'.hl a.state this).1⟩
      · cases hk
      · cases hk
    obtain ⟨y, hy⟩ := Option.isSome_iff_exists.1 hsl.1
    exact ⟨hsl.2, (getState_good a.ev.wf.heap hll a.state k y (dget_mem hy)).2⟩
  have hnew : ∀ k v x n, given us k = some v → Addresses w.heap l k x n →
      Compatible (attrAt u.heap x n) v ∧ newValue (attrAt u.heap x n) v = v ∧ ∀ b, attrAt u.heap x n ≠ some (.ref b) := by
    intro k v x n hk ha
    obtain ⟨h1, _, _, _, h2⟩ := cls k v hk
    rw [atU x n ha.reaches]
    cases h0 : s0.get k with
    | none =>
      rw [atNone k x n h1 h0 ha]
      exact ⟨nofun, rfl, nofun⟩
    | some z =>
      rw [(atW k z x n h0 ha).1]
      obtain ⟨h3, h4⟩ := newValue_kind (h2 z h0)
      exact ⟨h4, h3, nofun⟩
  have hleaf : LeafPaths u.heap l us := fun k v hk x n ha => (hnew k v x n hk ((adrU k x n).1 ha)).2.2
  have huniq : ∀ k k' x n, (sl.get k).isSome → (sl.get k').isSome → Addresses w.heap l k x n → Addresses w.heap l k' x n → k = k' :=
    fun k k' x n h1 h2 h3 h4 => q2 k k' x n h1 h2 ((adrV _ _ _).2 h3) ((adrV _ _ _).2 h4)
  have hncf : NoConflict u.heap l us := by
    intro k v k' v' hk hk' x n ha ha'
    have := huniq k k' x n (cls k v hk).1 (cls k' v' hk').1 ((adrU _ _ _).1 ha) ((adrU _ _ _).1 ha')
    subst this
    rw [hk] at hk'; cases hk'; rfl
  obtain ⟨ws, hws⟩ := C14_succeeds_limit hgr.wf hlu (hgr.enough S.wf S.hl hf).choose_spec hc hgood hleaf hncf (by
      rintro x ob ⟨q, hq⟩ ho
      have hq' := (hwu q x).1 hq
      rw [hgr.old x hq'.lt] at ho
      have := S.valid x ob ⟨q, hq'⟩ ho
      rw [traceValid_eq] at this ⊢
      rw [this]
      simp only [World.curTrace, hgr.jax, hgr.stack]) (by
    intro k v hk
    obtain ⟨y, hy⟩ := Option.isSome_iff_exists.1 (cls k v hk).1
    obtain ⟨x, n, ha, _⟩ := q1 k y hy
    have ha := (adrV _ _ _).1 ha
    exact ⟨x, n, (adrU _ _ _).2 ha, (hnew k v x n hk ha).1⟩)
  obtain ⟨so, hwalk, _, hset⟩ := C14_addressed_updated hgr.wf hlu hc hgood hleaf hncf hws
  have wfs : WFWorld ws := (confined_updateState (A := fun _ => True) hgr.wf (fun _ _ _ _ _ => trivial) trivial hlu hgood hws).1.wf
  have hfr : ∀ x n, (∀ k v, given us k = some v → ¬ Addresses w.heap l k x n) → attrAt ws.heap x n = attrAt u.heap x n := fun x n hno =>
    C14_frame hgr.wf hlu hc hgood hleaf hws fun k v hk ha => hno k v hk ((adrU _ _ _).1 ha)
  have hset' : ∀ k v x n, given us k = some v → Addresses w.heap l k x n → attrAt ws.heap x n = some (.val v) := by
    intro k v x n hk ha
    rw [hset k v x n hk ((adrU _ _ _).2 ha), (hnew k v x n hk ha).2.1]
  -- all entries
  have hM : ∀ k, (sl.get k).isSome → ∃ v, finalGet s0 fin sl k = some v ∧ v.isNode = true ∧
      ∀ x n, Addresses w.heap l k x n → attrAt ws.heap x n = some (.val v) := by
    intro k hk
    cases hgv : given us k with
    | some v =>
      obtain ⟨_, h1, _, h2, _⟩ := cls k v hgv
      exact ⟨v, h1, h2, fun x n ha => hset' k v x n hgv ha⟩
    | none =>
      obtain ⟨x0, h0, h1⟩ := rest k hk hgv
      refine ⟨x0, h1, ((Evolves.refl S.wf l).values S.hl S.state h0).2, ?_⟩
      intro x n ha
      rw [hfr x n, atU x n ha.reaches, (atW k x0 x n h0 ha).1]
      intro k' v' hk' ha'
      have := huniq k k' x n hk (cls k' v' hk').1 ha ha'
      subst this
      rw [hgv] at hk'; cases hk'
  have hout : ∀ x n, (∀ k, (sl.get k).isSome → ¬ Addresses w.heap l k x n) → attrAt ws.heap x n = attrAt u.heap x n :=
    fun x n hno => hfr x n fun k v hk => hno k (cls k v hk).1
  have hls : l < ws.heap.length := by rw [so.len]; exact hlu
  obtain ⟨sf, hsf⟩ := getState_exists wfs.heap hls (Nat.lt_succ_self _)
  -- attributes that are not nodes
  have nonnode : ∀ x n y, Reaches w.heap l x → y.isNode = false → (attrAt ws.heap x n = some y ↔ attrAt vl.heap x n = some y) := by
    intro x n y hr hy
    have hnv : ∀ k, (sl.get k).isSome → Addresses w.heap l k x n → ¬ attrAt vl.heap x n = some y ∧ ¬ attrAt ws.heap x n = some y := by
      intro k hk ha
      obtain ⟨v, _, h2, h3⟩ := hM k hk
      obtain ⟨z, hz⟩ := Option.isSome_iff_exists.1 hk
      obtain ⟨x1, n1, h4, h5, h6⟩ := q1 k z hz
      obtain ⟨rfl, rfl⟩ := h4.functional ((adrV _ _ _).2 ha)
      constructor
      · intro e
        rw [h5] at e; cases e
        rw [Attr.isNode, h6] at hy; cases hy
      · intro e
        rw [h3 _ _ ha] at e; cases e
        rw [Attr.isNode, h2] at hy; cases hy
    by_cases hex : ∃ k, (sl.get k).isSome = true ∧ Addresses w.heap l k x n
    · obtain ⟨k, hk, ha⟩ := hex
      obtain ⟨e1, e2⟩ := hnv k hk ha
      exact ⟨fun e => absurd e e2, fun e => absurd e e1⟩
    · rw [hout x n fun k hk ha => hex ⟨k, hk, ha⟩, atU x n hr]
      have hr' : Reaches w'.heap l x := by obtain ⟨q, hq⟩ := hr; exact ⟨q, (U.walk S.wf S.hl S.state l q x).2 hq⟩
      have hrv : Reaches vl.heap l x := by obtain ⟨q, hq⟩ := hr; exact ⟨q, (hwv q x).2 hq⟩
      have e1 : attrAt vl.heap x n = attrAt w'.heap x n := by
        rcases a.ev.nodes x n hr' with h | ⟨v, h1, h2, _⟩
        · exact h
        · obtain ⟨k, h3, h4⟩ := q3 x n v hrv h1 h2
          exact absurd ⟨k, by rw [h3]; rfl, (adrV _ _ _).1 h4⟩ hex
      have e2 : attrAt w'.heap x n = attrAt w.heap x n := by
        rcases U.attr' S.wf S.hl S.state x n with h | ⟨k, z, _, _, _, _, h1, _, _, h2, _⟩
        · exact h
        · exact absurd ⟨k, slSome k z h1, h2⟩ hex
      rw [e1, e2]
  have hcore : CoreEq vl.heap ws.heap l := by
    rintro x ⟨q, hq⟩
    have hqw := (hwv q x).1 hq
    have hq' := (U.walk S.wf S.hl S.state l q x).2 hqw
    have hltw := hqw.lt
    have hltv := hq.lt
    have hlts : x < ws.heap.length := by rw [so.len]; exact Nat.lt_of_lt_of_le hltw hgr.len
    have hov : vl.heap[x]? = some vl.heap[x] := List.getElem?_eq_getElem hltv
    have how : w.heap[x]? = some w.heap[x] := List.getElem?_eq_getElem hltw
    have hos : ws.heap[x]? = some ws.heap[x] := List.getElem?_eq_getElem hlts
    have hi := a.ev.keeps.info x hq'.lt
    have hi' := objInfo_of_same U.objects x hltw
    rw [hi'] at hi
    obtain ⟨e1, e2, e3, e4⟩ := so.obj x _ _ ((hgr.old x hltw).trans how) hos
    simp only [objInfo, hov, how, Option.map_some, Option.some.injEq, Prod.mk.injEq] at hi
    obtain ⟨f1, f2, f3, f4⟩ := hi
    refine ⟨_, _, hov, hos, e2.trans f2.symm, e1.trans f1.symm, e3.trans f3.symm, ?_⟩
    refine core_sort (wfs.heap.nodup _ _ hos) (a.ev.wf.heap.nodup _ _ hov) ?_
    intro n y hy
    have := nonnode x n y ⟨q, hqw⟩ hy
    simpa only [attrAt, hos, hov] using this
  have hwalkW : ∀ q x, Walk ws.heap l q x ↔ Walk w.heap l q x := fun q x => (hwalk l q x).trans (hwu q x)
  refine ⟨ws, sf, ?_, wfs, so, hsf, ?_, hwalkW, hout⟩
  · have houts : (ys.map (renameOut o s0)).map (·.out) = outs.map (·.2) := by
      clear hne hco hfin hstack hsts hspec hg1 hg2
      induction h with
      | nil => rfl
      | cons h _ ih => simp only [List.map_cons]; rw [ih, ← h.out.out_eq]; rfl
    simp only [scanEnd, stackAxes, hsts, hnb', hnc']
    rw [hus, hws]
    simp only [houts]
  · obtain ⟨vs, Sv, dv, _, hgv⟩ := getState_spec a.ev.wf.heap hll a.state
    obtain ⟨vs', Sv', ds, _, hgs⟩ := getState_spec wfs.heap hls hsf
    have d2 := dv.core a.ev.wf.heap hcore (.here hll)
    obtain ⟨rfl, rfl⟩ := d2.functional ds
    have haddr : ∀ z ∈ vs', ∀ n v, attrAt ws.heap z.1 n = some v → Addresses w.heap l (joinSlash (z.2 ++ [n])) z.1 n := by
      intro z hz n v hv
      have hwk := dv.walk a.ev.wf.heap isOrder_sort (.here hll) z hz
      refine ⟨z.2, ?_, (hwv _ _).1 hwk⟩
      rw [split_join (by simp)]
      intro t ht
      rcases List.mem_append.1 ht with h' | h'
      · exact hwk.noSlash a.ev.wf.heap t h'
      · simp at h'; subst h'; exact wfs.heap.slash _ _ _ hv
    have slkey : ∀ z ∈ vs', ∀ n v, attrAt ws.heap z.1 n = some (.val v) → v.isNode = true → (sl.get (joinSlash (z.2 ++ [n]))).isSome := by
      intro z hz n v hv hnode
      have ha := haddr z hz n _ hv
      have hrv : Reaches vl.heap l z.1 := ⟨_, dv.walk a.ev.wf.heap isOrder_sort (.here hll) z hz⟩
      have : ∃ y, attrAt vl.heap z.1 n = some (.val y) ∧ y.isNode = true := by
        by_cases hex : ∃ k, (sl.get k).isSome = true ∧ Addresses w.heap l k z.1 n
        · obtain ⟨k, hk, ha'⟩ := hex
          obtain ⟨y, hy⟩ := Option.isSome_iff_exists.1 hk
          obtain ⟨x1, n1, h4, h5, h6⟩ := q1 k y hy
          obtain ⟨rfl, rfl⟩ := h4.functional ((adrV _ _ _).2 ha')
          exact ⟨y, h5, h6⟩
        · exfalso
          rw [hout z.1 n fun k hk ha => hex ⟨k, hk, ha⟩, atU z.1 n ha.reaches] at hv
          obtain ⟨k, h1, h2⟩ := p3 z.1 n v ha.reaches hv hnode
          exact hex ⟨k, slSome k v h1, h2⟩
      obtain ⟨y, h1, h2⟩ := this
      rw [(hgv _ y).2 ⟨z, hz, n, h1, h2, rfl⟩]; rfl
    intro k
    cases hk : sf.get k with
    | some v =>
      obtain ⟨z, hz, n, h1, h2, rfl⟩ := (hgs k v).1 hk
      obtain ⟨v', h3, _, h4⟩ := hM _ (slkey z hz n v h1 h2)
      have := h4 z.1 n (haddr z hz n _ h1)
      rw [h1] at this; cases this
      exact h3.symm
    | none =>
      cases hF : finalGet s0 fin sl k with
      | none => rfl
      | some v =>
        exfalso
        have hslk : (sl.get k).isSome := by
          cases hfk : fin.get k with
          | none => simp only [finalGet, hfk, Option.map_none, Option.none_or] at hF; rw [hF]; rfl
          | some y =>
            obtain ⟨x', g, h1, _⟩ := hfin.only k y hfk
            obtain ⟨z, hz, _⟩ := a.ev.state S'.wf S'.hl S'.state a.state h1
            rw [hz]; rfl
        obtain ⟨y, hy⟩ := Option.isSome_iff_exists.1 hslk
        obtain ⟨z, hz, n, h1, h2, rfl⟩ := (hgv k y).1 hy
        obtain ⟨v', h3, h5, h4⟩ := hM _ hslk
        have ha : Addresses w.heap l (joinSlash (z.2 ++ [n])) z.1 n := by
          have hwk := dv.walk a.ev.wf.heap isOrder_sort (.here hll) z hz
          refine ⟨z.2, ?_, (hwv _ _).1 hwk⟩
          rw [split_join (by simp)]
          intro t ht
          rcases List.mem_append.1 ht with h' | h'
          · exact hwk.noSlash a.ev.wf.heap t h'
          · simp at h'; subst h'; exact a.ev.wf.heap.slash _ _ _ h1
        rw [(hgs _ v').2 ⟨z, hz, n, h4 _ _ ha, h5, rfl⟩] at hk
        cases hk

end Nnx
