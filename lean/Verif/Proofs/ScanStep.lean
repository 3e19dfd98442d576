import Verif.Proofs.TreeOf
/-
One iteration of nnx.scan.
-/
namespace Nnx
variable {α κ A B C : Type} [DecidableEq α]

/-- The entries of `t` are in the collections they were in before the scan, new ones are in the carry collection. -/
structure InColl (o : ScanOptions α) (s0 t : State (PyVal α)) : Prop where
  stays : ∀ k x y g, s0.get k = some x → t.get k = some y → FirstMatch o.filters k x g → FirstMatch o.filters k y g
  fresh : ∀ k y, s0.get k = none → t.get k = some y → FirstMatch o.filters k y (o.variableAxes.length + 1)

/-- `c` has the entries of `t` in collection `g`. -/
def IsGroup (o : ScanOptions α) (t : State (PyVal α)) (g : Nat) (c : State (PyVal α)) : Prop :=
  c.Canonical ∧ ∀ k x, c.get k = some x ↔ t.get k = some x ∧ FirstMatch o.filters k x g

/-- What is fixed during a scan. -/
structure Setup (w : World α) (l : Loc) (o : ScanOptions α) (s0 : State (PyVal α)) (d : ModuleDef α) (ss0 : List (State (PyVal α)))
    (b c0 : State (PyVal α)) : Prop where
  wf : WFWorld w
  hl : l < w.heap.length
  valid : AllValid w l
  state : getState (w.heap.length + 1) w.heap l = some s0
  def_ : getModuleDef (w.heap.length + 1) w.heap l = some d
  part : s0.partition o.filters = .ok ss0
  bcast : ss0[o.variableAxes.length]? = some b
  carry : ss0[o.variableAxes.length + 1]? = some c0
  noName : dhas o.metadata kPartitionName = false

/-- Where the direct loop is between two iterations. -/
structure At (w : World α) (l : Loc) (o : ScanOptions α) (s0 : State (PyVal α)) (v : World α) (s cs : State (PyVal α)) : Prop where
  ev : Evolves w v l
  state : getState (v.heap.length + 1) v.heap l = some s
  coll : InColl o s0 s
  carry : IsGroup o s (o.variableAxes.length + 1) cs

/-- `axes` are the slices `i` of the axes states. -/
def IsAxes (R : Arrays α) (o : ScanOptions α) (ss0 : List (State (PyVal α))) (i : Nat) (axes : List (State (PyVal α))) : Prop :=
  axes.length = o.variableAxes.length ∧ ∀ (g : Nat) f a s, o.variableAxes[g]? = some (f, a) → ss0[g]? = some s →
    ∃ t, sliceState R a i s = some t ∧ axes[g]? = some t

/-- `u'` comes from `u` by creating modules. -/
structure Grows (u u' : World α) : Prop where
  wf : WFWorld u'
  len : u.heap.length ≤ u'.heap.length
  old : ∀ a : Loc, a < u.heap.length → u'.heap[a]? = u.heap[a]?
  jax : u'.jaxTrace = u.jaxTrace
  stack : u'.nnxStack = u.nnxStack

omit [DecidableEq α] in
theorem Grows.refl {u : World α} (wf : WFWorld u) : Grows u u := ⟨wf, Nat.le_refl _, fun _ _ => rfl, rfl, rfl⟩

omit [DecidableEq α] in
theorem Grows.trans {u v x : World α} (h : Grows u v) (h' : Grows v x) : Grows u x :=
  ⟨h'.wf, Nat.le_trans h.len h'.len, fun a ha => (h'.old a (Nat.lt_of_lt_of_le ha h.len)).trans (h.old a ha), h'.jax.trans h.jax,
    h'.stack.trans h.stack⟩

variable {w : World α} {l : Loc} {o : ScanOptions α} {s0 : State (PyVal α)} {d : ModuleDef α} {ss0 : List (State (PyVal α))}
  {b c0 : State (PyVal α)} {R : Arrays α}

omit [DecidableEq α] in
theorem filters_length (o : ScanOptions α) : o.filters.length = o.variableAxes.length + 2 := by
  simp [ScanOptions.filters]

omit [DecidableEq α] in
theorem Setup.obtainable (S : Setup w l o s0 d ss0 b c0) : Obtainable s0 := getState_obtainable S.state

omit [DecidableEq α] in
theorem Setup.group (S : Setup w l o s0 d ss0 b c0) {g : Nat} {t : State (PyVal α)} (h : ss0[g]? = some t) : IsGroup o s0 g t :=
  ⟨(Obtainable.partition S.obtainable S.part (List.mem_of_getElem? h)).canonical, fun k x => (C01_partition_first_match S.obtainable S.part).2 g t h k x⟩

omit [DecidableEq α] in
theorem Setup.first (S : Setup w l o s0 d ss0 b c0) {k : Str} {x : PyVal α} (h : s0.get k = some x) :
    ∃ g, FirstMatch o.filters k x g ∧ g ≤ o.variableAxes.length + 1 := by
  obtain ⟨i, ⟨t, ht, htk⟩, _⟩ := C01_partition_exactly_one S.obtainable S.part h
  have := ((C01_partition_first_match S.obtainable S.part).2 i t ht k x).1 htk
  refine ⟨i, this.2, ?_⟩
  have := this.2.lt
  rw [filters_length] at this
  omega

omit [DecidableEq α] in
theorem Setup.start (S : Setup w l o s0 d ss0 b c0) : At w l o s0 w s0 c0 where
  ev := .refl S.wf l
  state := S.state
  coll := ⟨fun k x y g h1 h2 h => by rw [h1] at h2; cases h2; exact h, fun k y h1 h2 => by rw [h1] at h2; cases h2⟩
  carry := S.group S.carry

omit [DecidableEq α] in
theorem Setup.matched (S : Setup w l o s0 d ss0 b c0) {t : State (PyVal α)} (hc : InColl o s0 t) {k : Str} {y : PyVal α}
    (h : t.get k = some y) : ∃ g, FirstMatch o.filters k y g := by
  cases hs : s0.get k with
  | none => exact ⟨_, hc.fresh k y hs h⟩
  | some x => obtain ⟨g, hg, _⟩ := S.first hs; exact ⟨g, hc.stays k x y g hs h hg⟩

omit [DecidableEq α] in
/-- Values of the module's state are nodes. -/
theorem Evolves.values {w v : World α} {l : Loc} (hl : l < w.heap.length) (e : Evolves w v l) {f : Nat} {s : State (PyVal α)}
    (hs : getState f v.heap l = some s) {k : Str} {x : PyVal α} (hk : s.get k = some x) : WFVal x ∧ x.isNode = true := by
  have hl' := Nat.lt_of_lt_of_le hl e.keeps.len
  obtain ⟨_, _, _, _, hnode⟩ := (state_paths e.wf.heap hl' hs).1 k x hk
  exact ⟨(getState_good e.wf.heap hl' hs k x (dget_mem hk)).1, hnode⟩

/-- Updating with values of the same kind. -/
theorem Evolves.update {w v : World α} {l : Loc} (wf : WFWorld w) (hl : l < w.heap.length) (hv : AllValid w l) (e : Evolves w v l)
    {s : State (PyVal α)} (hs : getState (v.heap.length + 1) v.heap l = some s) {inp : State (PyVal α)} (hc : inp.Canonical)
    (hlike : ∀ k y, inp.get k = some y → ∃ u, s.get k = some u ∧ WFVal y ∧ y.isNode = true ∧ SameKind u y) :
    ∃ v1 s1, updateState (v.heap.length + 1) l [inp] v = (v1, none) ∧ Evolves w v1 l ∧
      getState (v1.heap.length + 1) v1.heap l = some s1 ∧ (∀ k, s1.get k = (inp.get k).or (s.get k)) ∧
      v1.heap.length = v.heap.length ∧ Evolves v v1 l := by
  have hl' := Nat.lt_of_lt_of_le hl e.keeps.len
  have hv' := e.valid wf hl hv
  obtain ⟨v1, hu, wf1, so, hv1, _, hat, hwalk, hoth, hst⟩ := update_like_full e.wf hl' hv' hs hc (fun k y hk => by
    obtain ⟨u, h1, h2, h3, h4⟩ := hlike k y hk
    exact ⟨u, h1, h2, h3, h4.1⟩) (Nat.lt_succ_self _)
  obtain ⟨d', s1, _, _, hs1, hg⟩ := hst _ (v.heap.length + 1) (Nat.lt_succ_self _) (Nat.lt_succ_self _)
  have ev1 : Evolves v v1 l := by
    refine ⟨.of_same so, wf1, ?_, fun a _ h => hoth a h⟩
    intro a n hr
    rcases hat a n with h | ⟨k, u, y, h1, h2, h3, h4, h5, h6⟩
    · exact .inl h
    · refine .inr ⟨y, h6, h5.2.1, ?_⟩
      intro x hx
      rw [h3] at hx
      cases hx
      obtain ⟨u', h1', _, _, h4'⟩ := hlike k y h1
      rw [h2] at h1'; cases h1'
      exact ⟨u, rfl, h4, h4'⟩
  exact ⟨v1, s1, hu, e.trans wf hl ev1, by rw [so.len]; exact hs1, hg, so.len, ev1⟩

/-- Before the call in an iteration: the direct module and what the copy is merged from. -/
theorem step_in (S : Setup w l o s0 d ss0 b c0) {v : World α} {s cs : State (PyVal α)} (a : At w l o s0 v s cs) {i : Nat}
    {inp : State (PyVal α)} (hin : IsSlice R o s0 i inp) {axes : List (State (PyVal α))} (hax : IsAxes R o ss0 i axes) {v1 : World α}
    (hu : updateState (v.heap.length + 1) l [inp] v = (v1, none)) :
    ∃ s1, Evolves w v1 l ∧ Evolves v v1 l ∧ getState (v1.heap.length + 1) v1.heap l = some s1 ∧ Pieces s1 (axes ++ [b, cs]) ∧
      (∀ k, (s1.get k).isSome = (s.get k).isSome) := by
  have hkind : ∀ k y, inp.get k = some y → ∃ u, s.get k = some u ∧ WFVal y ∧ y.isNode = true ∧ SameKind u y := by
    intro k y hk
    obtain ⟨x, g, hx, hfm, hg⟩ := hin.only k y hk
    obtain ⟨u, hu, hsk⟩ := a.ev.state S.wf S.hl S.state a.state hx
    obtain ⟨hw, hnode⟩ := (Evolves.refl S.wf l).values S.hl S.state hx
    rcases Nat.lt_or_eq_of_le hg with hlt | heq
    · have hge : o.variableAxes[g]? = some o.variableAxes[g] := List.getElem?_eq_getElem hlt
      obtain ⟨y', hy', hk'⟩ := hin.axes' k x g o.variableAxes[g].1 o.variableAxes[g].2 hx hge hfm
      rw [hk] at hk'; cases hk'
      exact ⟨u, hu, mapLeaves_wf hy' hw, by rw [mapLeaves_node hy', hnode], hsk.symm.trans (mapLeaves_like hy').2.2⟩
    · rw [heq] at hfm
      have := hin.broadcast k x hx hfm
      rw [hk] at this; cases this
      exact ⟨u, hu, hw, hnode, hsk.symm⟩
  obtain ⟨v1', s1, hu', ev1, hs1, hget, _, hvv⟩ := a.ev.update S.wf S.hl S.valid a.state hin.sorted hkind
  rw [hu] at hu'
  cases hu'
  refine ⟨s1, ev1, hvv, hs1, ⟨?_, ?_, ?_⟩, ?_⟩
  · intro t ht
    simp only [List.mem_append, List.mem_cons, List.not_mem_nil, or_false] at ht
    rcases ht with ht | rfl | rfl
    · obtain ⟨g, hg, rfl⟩ := List.getElem_of_mem ht
      have hg' : g < o.variableAxes.length := hax.1 ▸ hg
      have hge : o.variableAxes[g]? = some (o.variableAxes[g].1, o.variableAxes[g].2) := List.getElem?_eq_getElem hg'
      have hlen : g < ss0.length := by
        rw [(C01_partition_first_match S.obtainable S.part).1, filters_length]; omega
      obtain ⟨t, ht1, ht2⟩ := hax.2 g _ _ _ hge (List.getElem?_eq_getElem hlen)
      rw [List.getElem?_eq_getElem hg] at ht2
      cases ht2
      exact (mapVals_spec (S.group (List.getElem?_eq_getElem hlen)).1 ht1).1
    · exact (S.group S.bcast).1
    · exact a.carry.1
  · intro t ht k y hk
    rw [hget]
    simp only [List.mem_append, List.mem_cons, List.not_mem_nil, or_false] at ht
    rcases ht with ht | rfl | rfl
    · obtain ⟨g, hg, rfl⟩ := List.getElem_of_mem ht
      have hg' : g < o.variableAxes.length := hax.1 ▸ hg
      have hge : o.variableAxes[g]? = some (o.variableAxes[g].1, o.variableAxes[g].2) := List.getElem?_eq_getElem hg'
      have hlen : g < ss0.length := by
        rw [(C01_partition_first_match S.obtainable S.part).1, filters_length]; omega
      obtain ⟨t, ht1, ht2⟩ := hax.2 g _ _ _ hge (List.getElem?_eq_getElem hlen)
      rw [List.getElem?_eq_getElem hg] at ht2
      cases ht2
      have hgr := S.group (List.getElem?_eq_getElem hlen)
      rw [(mapVals_spec hgr.1 ht1).2 k] at hk
      cases hsg : (ss0[g]).get k with
      | none => rw [hsg] at hk; cases hk
      | some x =>
        rw [hsg, Option.bind_some] at hk
        obtain ⟨hx, hfm⟩ := (hgr.2 k x).1 hsg
        obtain ⟨y', hy', hk'⟩ := hin.axes' k x g _ _ hx hge hfm
        rw [hk] at hy'; cases hy'
        rw [hk']; rfl
    · obtain ⟨hx, hfm⟩ := ((S.group S.bcast).2 k y).1 hk
      rw [hin.broadcast k y hx hfm]; rfl
    · obtain ⟨hx, hfm⟩ := (a.carry.2 k y).1 hk
      cases hik : inp.get k with
      | none => rw [hx]; rfl
      | some z =>
        obtain ⟨x0, g, hx0, hfm0, hg⟩ := hin.only k z hik
        have := (a.coll.stays k x0 y g hx0 hx hfm0).unique hfm
        omega
  · intro k y hk
    rw [hget] at hk
    cases hik : inp.get k with
    | some z =>
      rw [hik] at hk
      cases hk
      obtain ⟨x0, g, hx0, hfm0, hg⟩ := hin.only k y hik
      rcases Nat.lt_or_eq_of_le hg with hlt | heq
      · have hge : o.variableAxes[g]? = some (o.variableAxes[g].1, o.variableAxes[g].2) := List.getElem?_eq_getElem hlt
        have hlen : g < ss0.length := by
          rw [(C01_partition_first_match S.obtainable S.part).1, filters_length]; omega
        obtain ⟨t, ht1, ht2⟩ := hax.2 g _ _ _ hge (List.getElem?_eq_getElem hlen)
        refine ⟨t, by simp only [List.mem_append]; exact .inl (List.mem_of_getElem? ht2), ?_⟩
        have hgr := S.group (List.getElem?_eq_getElem hlen)
        rw [(mapVals_spec hgr.1 ht1).2 k, (hgr.2 k x0).2 ⟨hx0, hfm0⟩, Option.bind_some]
        obtain ⟨y', hy', hk'⟩ := hin.axes' k x0 g _ _ hx0 hge hfm0
        rw [hik] at hk'; cases hk'
        exact hy'
      · rw [heq] at hfm0
        have := hin.broadcast k x0 hx0 hfm0
        rw [hik] at this; cases this
        exact ⟨b, by simp, ((S.group S.bcast).2 k y).2 ⟨hx0, hfm0⟩⟩
    | none =>
      rw [hik, Option.none_or] at hk
      refine ⟨cs, by simp, (a.carry.2 k y).2 ⟨hk, ?_⟩⟩
      cases hs : s0.get k with
      | none => exact a.coll.fresh k y hs hk
      | some x =>
        obtain ⟨g, hfm, hg⟩ := S.first hs
        rcases Nat.lt_or_eq_of_le hg with hlt | heq
        · exfalso
          rcases Nat.lt_or_eq_of_le (Nat.le_of_lt_succ hlt) with hlt | heq
          · have hge : o.variableAxes[g]? = some (o.variableAxes[g].1, o.variableAxes[g].2) := List.getElem?_eq_getElem hlt
            obtain ⟨y', _, hk'⟩ := hin.axes' k x g _ _ hs hge hfm
            rw [hik] at hk'; cases hk'
          · rw [heq] at hfm
            rw [hin.broadcast k x hs hfm] at hik; cases hik
        · rw [heq] at hfm
          exact a.coll.stays k x y _ hs hk hfm
  · intro k
    rw [hget]
    cases hik : inp.get k with
    | none => rw [Option.none_or]
    | some y =>
      obtain ⟨u, h1, _⟩ := hkind k y hik
      rw [h1]; rfl

/-- Whatever recursion limit suffices for a module suffices after its variables have changed. -/
theorem Evolves.enough {w w' : World α} (wf : WFWorld w) {l : Loc} (e : Evolves w w' l) (hl : l < w.heap.length) {k : Nat}
    {s : State (PyVal α)} (hs : getState k w.heap l = some s) : ∃ s', getState k w'.heap l = some s' := by
  unfold getState at hs ⊢
  split at hs
  · cases hs
  next h1 =>
  obtain ⟨vs, D, _⟩ := iterStateRec_dfs _ k _ _ _ _ _ h1
  obtain ⟨ys, hy⟩ := (D.core wf.heap (e.core wf) (.here hl)).iterState
  rw [hy]
  exact ⟨_, rfl⟩

/-- And when other Modules have been created. -/
theorem Grows.enough {w u : World α} (wf : WFWorld w) {l : Loc} (g : Grows w u) (hl : l < w.heap.length) {k : Nat}
    {s : State (PyVal α)} (hs : getState k w.heap l = some s) : ∃ s', getState k u.heap l = some s' := by
  refine Evolves.enough (w' := u) wf ⟨⟨g.jax, g.stack, g.len, ?_⟩, g.wf, ?_, fun a ha _ => g.old a ha⟩ hl hs
  · intro a ha; simp only [objInfo, g.old a ha]
  · rintro a n ⟨q, hq⟩
    exact .inl (by simp only [attrAt, g.old a hq.lt])

omit [DecidableEq α] in
theorem Setup.enough (S : Setup w l o s0 d ss0 b c0) {fuel : Nat} (hf : w.heap.length < fuel) : getState fuel w.heap l = some s0 := by
  obtain ⟨s, hs⟩ := getState_exists S.wf.heap S.hl hf
  rw [hs, getState_det S.wf.heap S.hl hs S.state]

/-- The output of an iteration. -/
structure IsOut (o : ScanOptions α) (t : State (PyVal α)) (y : B) (out : StepOut α B) : Prop where
  axes : ∀ g, g < o.variableAxes.length → ∃ u, out.axes[g]? = some u ∧ IsGroup o t g u
  bcast : out.bcastNew = ⟨[]⟩
  out_eq : out.out = y

/-- **One iteration.** -/
theorem step_spec (S : Setup w l o s0 d ss0 b c0) {v : World α} {s cs : State (PyVal α)} (a : At w l o s0 v s cs) {i : Nat}
    {inp : State (PyVal α)} (hin : IsSlice R o s0 i inp) {x : StepIn α κ A} (hax : IsAxes R o ss0 i x.axes) {v1 v2 : World α}
    (hu : updateState (v.heap.length + 1) l [inp] v = (v1, none)) {p : Loc → World α → World α × Except Err (C × B)} (hp : Parametric p) {c' : C} {y : B}
    (hc : p l v1 = (v2, .ok (c', y))) (hn : NodesOnly v1 v2 l) {s2 : State (PyVal α)}
    (hs2 : getState (v2.heap.length + 1) v2.heap l = some s2) (hco : InColl o s0 s2) {u : World α} (wfu : WFWorld u)
    {f : Option (PureContext κ) → C → Option A → Loc → World α → World α × Except Err (C × B)} {c : C}
    (hf : f x.ctx c x.arg = p) (j : Nat) :
    ∃ cs2 out u3, At w l o s0 v2 s2 cs2 ∧ IsOut o s2 y out ∧ out.carryNew = cs2.sub cs ∧ Grows u u3 ∧
      (∀ k, (s.get k).isSome → (s2.get k).isSome) ∧
      ∀ fuel, getState fuel w.heap l = some s0 → scanFn fuel o j d b f (cs, c) x u = (u3, .ok ((cs2.sub (cs2.sub cs), c'), out)) := by
  obtain ⟨s1, ev1, evv, hs1, hpc, hkeys⟩ := step_in S a hin hax hu
  have hl1 := Nat.lt_of_lt_of_le S.hl ev1.keeps.len
  have hd1 := ev1.moduleDef S.wf S.hl S.def_ (Nat.lt_succ_self _)
  obtain ⟨u3, hr, cr, hj, hst⟩ := run_copy_in ev1.wf wfu hl1 (ev1.valid S.wf S.hl S.valid) hp hd1 hs1 hpc j none
  have ev2' := Evolves.call ev1.wf hl1 hp hc hn
  have ev2 := ev1.trans S.wf S.hl ev2'
  have hmatch : ∀ k z, s2.get k = some z → ∃ g, FirstMatch o.filters k z g := fun k z h => S.matched hco h
  obtain ⟨ts, hts⟩ := partition_of_matches S.obtainable (getState_obtainable hs2) S.part hmatch
  obtain ⟨hlen, hfm⟩ := C01_partition_first_match (getState_obtainable hs2) hts
  rw [filters_length] at hlen
  have hgr : ∀ (g : Nat) t, ts[g]? = some t → IsGroup o s2 g t := fun g t h =>
    ⟨(Obtainable.partition (getState_obtainable hs2) hts (List.mem_of_getElem? h)).canonical, fun k x => hfm g t h k x⟩
  have hb2 : ts[o.variableAxes.length]? = some ts[o.variableAxes.length] := List.getElem?_eq_getElem (by omega)
  have hc2 : ts[o.variableAxes.length + 1]? = some ts[o.variableAxes.length + 1] := List.getElem?_eq_getElem (by omega)
  generalize ts[o.variableAxes.length] = b2 at hb2
  generalize ts[o.variableAxes.length + 1] = cs2 at hc2
  have hbe : b.sub b2 = ⟨[]⟩ := by
    refine State.empty_of_gets ?_
    intro k
    rw [State.sub_get]
    split
    · rfl
    next hno =>
    cases hbk : b.get k with
    | none => rfl
    | some x0 =>
      exfalso
      obtain ⟨h1, h2⟩ := ((S.group S.bcast).2 k x0).1 hbk
      obtain ⟨z, hz, _⟩ := ev2.state S.wf S.hl S.state hs2 h1
      have := ((hgr _ _ hb2).2 k z).2 ⟨hz, hco.stays k x0 z _ h1 hz h2⟩
      rw [this] at hno
      exact hno rfl
  refine ⟨cs2, ⟨ts.take o.variableAxes.length, ⟨[]⟩, cs2.sub cs, y⟩, u3, ⟨ev2, hs2, hco, hgr _ _ hc2⟩, ⟨?_, rfl, rfl⟩, rfl,
    ⟨cr.wf, cr.len, cr.old, hj, hst⟩, ?_, ?_⟩
  · intro g hg
    have hgt : g < ts.length := by omega
    exact ⟨ts[g], by rw [List.getElem?_take_of_lt hg, List.getElem?_eq_getElem hgt], hgr g _ (List.getElem?_eq_getElem hgt)⟩
  · intro k hk
    rw [← hkeys] at hk
    obtain ⟨z, hz⟩ := Option.isSome_iff_exists.1 hk
    obtain ⟨z', hz', _⟩ := ev2'.state ev1.wf hl1 hs1 hs2 hz
    rw [hz']; rfl
  · intro fuel hfuel
    have hrun : (p l v1).1 = v2 := by rw [hc]
    obtain ⟨s', hs3⟩ := ev2.enough S.wf S.hl hfuel
    have := getState_det ev2.wf.heap (Nat.lt_of_lt_of_le S.hl ev2.keeps.len) hs3 hs2
    subst this
    have hs4 := cr.states fuel s' (by rw [hrun]; exact hs3)
    have hpm : ∃ d'', partitionModule fuel u3.heap u.heap.length o.filters = .ok (ts, d'') := by
      obtain ⟨d'', hdd⟩ := getModuleDef_of_getState hs4
      simp only [partitionModule, hs4, hdd]
      refine ⟨d'', ?_⟩
      have : o.filters ≠ [] := by
        intro h
        have := filters_length o
        rw [h] at this
        simp at this
      split
      · next h => exact absurd h this
      · rw [hts]
    obtain ⟨d'', hpm⟩ := hpm
    have hm1 : ∀ g, onAxes g o x.axes = .ok x.axes := by
      intro g; simp only [onAxes, S.noName, Bool.false_eq_true, if_false]
    have hm2 : ∀ g, onAxes g o (ts.take o.variableAxes.length) = .ok (ts.take o.variableAxes.length) := by
      intro g; simp only [onAxes, S.noName, Bool.false_eq_true, if_false]
    rw [hc] at hr
    simp only [scanFn, hm1, hf, hr, Except.map, hpm, splitGroups, hb2, hc2, hm2, hbe]

/-- An iteration that raises. -/
theorem step_raises (S : Setup w l o s0 d ss0 b c0) {v : World α} {s cs : State (PyVal α)} (a : At w l o s0 v s cs) {i : Nat}
    {inp : State (PyVal α)} (hin : IsSlice R o s0 i inp) {x : StepIn α κ A} (hax : IsAxes R o ss0 i x.axes) {v1 v2 : World α}
    (hu : updateState (v.heap.length + 1) l [inp] v = (v1, none)) {p : Loc → World α → World α × Except Err (C × B)} (hp : Parametric p) {e : Err}
    (hc : p l v1 = (v2, .error e)) {u : World α} (wfu : WFWorld u)
    {f : Option (PureContext κ) → C → Option A → Loc → World α → World α × Except Err (C × B)} {c : C}
    (hf : f x.ctx c x.arg = p) (j : Nat) :
    ∃ u3, Grows u u3 ∧ ∀ fuel, scanFn fuel o j d b f (cs, c) x u = (u3, .error e) := by
  obtain ⟨s1, ev1, evv, hs1, hpc, hkeys⟩ := step_in S a hin hax hu
  have hl1 := Nat.lt_of_lt_of_le S.hl ev1.keeps.len
  have hd1 := ev1.moduleDef S.wf S.hl S.def_ (Nat.lt_succ_self _)
  obtain ⟨u3, hr, cr, hj, hst⟩ := run_copy_in ev1.wf wfu hl1 (ev1.valid S.wf S.hl S.valid) hp hd1 hs1 hpc j none
  refine ⟨u3, ⟨cr.wf, cr.len, cr.old, hj, hst⟩, ?_⟩
  intro fuel
  have hm1 : ∀ g, onAxes g o x.axes = .ok x.axes := by
    intro g; simp only [onAxes, S.noName, Bool.false_eq_true, if_false]
  rw [hc] at hr
  simp only [scanFn, hm1, hf, hr, Except.map]

end Nnx
