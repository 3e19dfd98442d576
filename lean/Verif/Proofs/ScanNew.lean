import Verif.Proofs.ScanRun
import Verif.Spec.ScanNew
/-
nnx.scan with bodies that create variables.
-/
namespace Nnx
variable {α κ A B C : Type}

/-! ### Dropping variables -/

theorem without_get (v : World α) (del : Loc → Str → Bool) (a : Loc) :
    (v.without del).heap[a]? = (v.heap[a]?).map fun o => { o with attrs := o.attrs.filter fun kv => !del a kv.1 } := by
  simp only [World.without, List.getElem?_mapIdx]

theorem without_attr (v : World α) (del : Loc → Str → Bool) (a : Loc) (n : Str) :
    attrAt (v.without del).heap a n = if del a n then none else attrAt v.heap a n := by
  simp only [attrAt, without_get]
  cases v.heap[a]? with
  | none => simp
  | some o =>
    simp only [Option.map_some]
    rw [dget_filter_key (fun n => !del a n)]
    cases del a n <;> rfl

theorem without_same (v : World α) (del : Loc → Str → Bool) : SameObjects v (v.without del) := by
  refine ⟨by simp [World.without], ?_, rfl, rfl, rfl⟩
  intro l o o' h h'
  rw [without_get, h] at h'
  cases h'
  exact ⟨rfl, rfl, rfl, rfl⟩

theorem without_wf {v : World α} (wf : WFWorld v) (del : Loc → Str → Bool) : WFWorld (v.without del) := by
  have hat : ∀ a n x, attrAt (v.without del).heap a n = some x → attrAt v.heap a n = some x := by
    intro a n x h
    rw [without_attr] at h
    split at h
    · cases h
    · exact h
  have hob : ∀ a (o' : ModObj α), (v.without del).heap[a]? = some o' → ∃ o : ModObj α, v.heap[a]? = some o ∧ o'.uid = o.uid ∧
      o'.attrs = o.attrs.filter fun kv => !del a kv.1 := by
    intro a o' h
    rw [without_get] at h
    cases hv : v.heap[a]? with
    | none => rw [hv] at h; cases h
    | some o => rw [hv] at h; cases h; exact ⟨o, rfl, rfl, rfl⟩
  refine ⟨⟨?_, ?_, ?_, ?_, ?_, ?_⟩, ?_⟩
  · intro l o' h
    obtain ⟨o, h1, _, h2⟩ := hob l o' h
    rw [h2]
    exact (wf.heap.nodup l o h1).sublist ((List.filter_sublist).map _)
  · intro l n l' h
    rw [(without_same v del).len]
    exact wf.heap.refs _ _ _ (hat _ _ _ h)
  · intro l l' o o' h h' e
    obtain ⟨p, h1, h2, _⟩ := hob l o h
    obtain ⟨p', h1', h2', _⟩ := hob l' o' h'
    exact wf.heap.uids l l' p p' h1 h1' (by rw [← h2, ← h2', e])
  · intro l n c x m h; exact wf.heap.conts l n c x m (hat _ _ _ h)
  · intro l n a h; exact wf.heap.slash l n a (hat _ _ _ h)
  · intro l n a h; exact wf.heap.reserved l n a (hat _ _ _ h)
  · intro l o' h
    obtain ⟨o, h1, h2, _⟩ := hob l o' h
    rw [h2]; exact wf.ids l o h1

variable [DecidableEq α]

/-- The entries of `t` are in the collections they were in before the scan, new ones are in some collection. -/
structure InCollNew (o : ScanOptions α) (s0 t : State (PyVal α)) : Prop where
  stays : ∀ k x y g, s0.get k = some x → t.get k = some y → FirstMatch o.filters k x g → FirstMatch o.filters k y g
  fresh : ∀ k y, s0.get k = none → t.get k = some y → ∃ g, FirstMatch o.filters k y g

/-- Where the direct loop is between two iterations. -/
structure AtNew (w : World α) (l : Loc) (o : ScanOptions α) (s0 : State (PyVal α)) (v : World α) (s cs : State (PyVal α)) : Prop where
  ev : Evolves w v l
  state : getState (v.heap.length + 1) v.heap l = some s
  coll : InCollNew o s0 s
  carry : IsGroup o s (o.variableAxes.length + 1) cs

omit [DecidableEq α] in
theorem At.new {w : World α} {l : Loc} {o : ScanOptions α} {s0 : State (PyVal α)} {v : World α} {s cs : State (PyVal α)}
    (a : At w l o s0 v s cs) : AtNew w l o s0 v s cs :=
  ⟨a.ev, a.state, ⟨a.coll.stays, fun k y h h' => ⟨_, a.coll.fresh k y h h'⟩⟩, a.carry⟩

variable {w : World α} {l : Loc} {o : ScanOptions α} {s0 : State (PyVal α)} {d : ModuleDef α} {ss0 : List (State (PyVal α))}
  {b c0 : State (PyVal α)} {R : Arrays α}

omit [DecidableEq α] in
/-- Dropping new variables. -/
theorem AtNew.drop (S : Setup w l o s0 d ss0 b c0) {v : World α} {s cs : State (PyVal α)} (a : AtNew w l o s0 v s cs) {P : Nat → Prop}
    {v0 : World α} (hd : Dropped o s0 P l v v0) :
    ∃ s', Evolves w v0 l ∧ getState (v0.heap.length + 1) v0.heap l = some s' ∧
      ∀ k y, s'.get k = some y ↔ s.get k = some y ∧ ((s0.get k).isSome ∨ ∀ g, FirstMatch o.filters k y g → ¬ P g) := by
  obtain ⟨del, s1, hs1, rfl, hdel⟩ := hd
  rw [a.state] at hs1
  cases hs1
  have hlv := Nat.lt_of_lt_of_le S.hl a.ev.keeps.len
  obtain ⟨p1, p2, p3⟩ := state_paths a.ev.wf.heap hlv a.state
  obtain ⟨q1, q2, q3⟩ := state_paths S.wf.heap S.hl S.state
  have hso := without_same v del
  -- a dropped attribute was not there before the scan
  have hnew : ∀ x n, del x n = true → attrAt w.heap x n = none ∧ Reaches w.heap l x := by
    intro x n h
    obtain ⟨k, y, g, h1, h2, h3, h4, h5⟩ := (hdel x n).1 h
    have hr : Reaches w.heap l x := by
      obtain ⟨p, _, hp⟩ := h5
      exact (a.ev.reaches S.wf S.hl x).1 ⟨p, hp⟩
    refine ⟨?_, hr⟩
    obtain ⟨x', n', h6, h7, h8⟩ := p1 k y h1
    obtain ⟨rfl, rfl⟩ := h6.functional h5
    cases hw : attrAt w.heap x' n' with
    | none => rfl
    | some z =>
      exfalso
      have hz : ∃ u, z = .val u ∧ u.isNode = true := by
        rcases a.ev.nodes x' n' hr with h | ⟨v', _, _, h⟩
        · rw [h7, hw] at h; cases h; exact ⟨y, rfl, h8⟩
        · obtain ⟨u, hu, hn, _⟩ := h z hw; exact ⟨u, hu, hn⟩
      obtain ⟨u, rfl, hun⟩ := hz
      obtain ⟨k', h9, h10⟩ := q3 x' n' u hr hw hun
      obtain ⟨u', h11, _⟩ := a.ev.state S.wf S.hl S.state a.state h9
      have h12 : Addresses v.heap l k' x' n' := by
        obtain ⟨p, e, hp⟩ := h10
        exact ⟨p, e, (a.ev.walk S.wf S.hl p x').2 hp⟩
      have := p2 k k' x' n' (by rw [h1]; rfl) (by rw [h11]; rfl) h6 h12
      subst this
      rw [h2] at h9; cases h9
  have ev0 : Evolves w (v.without del) l := by
    refine ⟨a.ev.keeps.trans (.of_same hso), without_wf a.ev.wf del, ?_, ?_⟩
    · intro x n hr
      rw [without_attr]
      cases hdx : del x n with
      | true => left; simp only [if_true]; exact (hnew x n hdx).1.symm
      | false => simp only [Bool.false_eq_true, if_false]; exact a.ev.nodes x n hr
    · intro x hx hr
      rw [without_get, a.ev.others x hx hr]
      cases w.heap[x]? with
      | none => rfl
      | some ob =>
        simp only [Option.map_some, Option.some.injEq]
        have : (ob.attrs.filter fun kv => !del x kv.1) = ob.attrs := by
          rw [List.filter_eq_self]
          intro kv _
          cases hdx : del x kv.1 with
          | false => rfl
          | true => exact absurd (hnew x kv.1 hdx).2 hr
        rw [this]
  have hl0 := Nat.lt_of_lt_of_le S.hl ev0.keeps.len
  obtain ⟨s', hs'⟩ := getState_exists ev0.wf.heap hl0 (Nat.lt_succ_self _)
  refine ⟨s', ev0, hs', ?_⟩
  -- both are traversed in the same way
  obtain ⟨vs, T, dw, _, _⟩ := getState_spec S.wf.heap S.hl S.state
  obtain ⟨vs1, T1, d1, _, hg1⟩ := getState_spec a.ev.wf.heap hlv a.state
  obtain ⟨vs2, T2, d2, _, hg2⟩ := getState_spec ev0.wf.heap hl0 hs'
  obtain ⟨rfl, rfl⟩ := (dw.core S.wf.heap (a.ev.core S.wf) (.here S.hl)).functional d1
  obtain ⟨rfl, rfl⟩ := (dw.core S.wf.heap (ev0.core S.wf) (.here S.hl)).functional d2
  intro k y
  rw [hg2]
  constructor
  · rintro ⟨x, hx, n, h1, h2, rfl⟩
    rw [without_attr] at h1
    cases hdx : del x.1 n with
    | true => rw [hdx] at h1; cases h1
    | false =>
      rw [hdx] at h1
      have hk := (hg1 (joinSlash (x.2 ++ [n])) y).2 ⟨x, hx, n, h1, h2, rfl⟩
      refine ⟨hk, ?_⟩
      cases h0 : s0.get (joinSlash (x.2 ++ [n])) with
      | some z => exact .inl rfl
      | none =>
        right
        intro g hg hP
        obtain ⟨x', n', h6, h7, h8⟩ := p1 _ y hk
        have hax : Addresses v.heap l (joinSlash (x.2 ++ [n])) x.1 n := by
          have hw := d1.walk a.ev.wf.heap isOrder_sort (.here hlv) x hx
          refine ⟨x.2, ?_, hw⟩
          rw [split_join (by simp)]
          intro t ht
          rcases List.mem_append.1 ht with h' | h'
          · exact hw.noSlash a.ev.wf.heap t h'
          · simp at h'; subst h'; exact a.ev.wf.heap.slash _ _ _ h1
        rw [(hdel x.1 n).2 ⟨_, y, g, hk, h0, hg, hP, hax⟩] at hdx
        cases hdx
  · rintro ⟨hk, hP⟩
    obtain ⟨x, hx, n, h1, h2, rfl⟩ := (hg1 k y).1 hk
    refine ⟨x, hx, n, ?_, h2, rfl⟩
    rw [without_attr]
    cases hdx : del x.1 n with
    | false => exact h1
    | true =>
      exfalso
      obtain ⟨k', y', g, h3, h4, h5, h6, h7⟩ := (hdel x.1 n).1 hdx
      have hax : Addresses v.heap l (joinSlash (x.2 ++ [n])) x.1 n := by
        have hw := d1.walk a.ev.wf.heap isOrder_sort (.here hlv) x hx
        refine ⟨x.2, ?_, hw⟩
        rw [split_join (by simp)]
        intro t ht
        rcases List.mem_append.1 ht with h' | h'
        · exact hw.noSlash a.ev.wf.heap t h'
        · simp at h'; subst h'; exact a.ev.wf.heap.slash _ _ _ h1
      have := p2 k' _ x.1 n (by rw [h3]; rfl) (by rw [hk]; rfl) h7 hax
      subst this
      rw [hk] at h3
      cases h3
      rcases hP with hP | hP
      · rw [h4] at hP; cases hP
      · exact hP g h5 h6

omit [DecidableEq α] in
/-- Before an iteration. -/
theorem AtNew.clear (S : Setup w l o s0 d ss0 b c0) {v : World α} {s cs : State (PyVal α)} (a : AtNew w l o s0 v s cs)
    {v0 : World α} (hd : Dropped o s0 (· ≤ o.variableAxes.length) l v v0) : ∃ s', At w l o s0 v0 s' cs ∧
      (∀ k y, s'.get k = some y → s.get k = some y) ∧ (∀ k, (s0.get k).isSome → (s'.get k).isSome) ∧
      ∀ k y, s.get k = some y → FirstMatch o.filters k y (o.variableAxes.length + 1) → s'.get k = some y := by
  obtain ⟨s', ev, hs', hg⟩ := a.drop S hd
  refine ⟨s', ⟨ev, hs', ⟨?_, ?_⟩, a.carry.1, ?_⟩, fun k y h => ((hg k y).1 h).1, ?_, ?_⟩
  · intro k x y g h1 h2 h3; exact a.coll.stays k x y g h1 ((hg k y).1 h2).1 h3
  · intro k y h1 h2
    obtain ⟨h3, h4⟩ := (hg k y).1 h2
    obtain ⟨g, hfm⟩ := a.coll.fresh k y h1 h3
    rcases h4 with h4 | h4
    · rw [h1] at h4; cases h4
    · have h5 := h4 g hfm
      have h6 := hfm.lt
      rw [filters_length] at h6
      have : g = o.variableAxes.length + 1 := by omega
      subst this; exact hfm
  · intro k x
    rw [a.carry.2 k x, hg]
    constructor
    · rintro ⟨h1, h2⟩
      refine ⟨⟨h1, .inr ?_⟩, h2⟩
      intro g hg' hle
      have := hg'.unique h2
      omega
    · rintro ⟨⟨h1, _⟩, h2⟩; exact ⟨h1, h2⟩
  · intro k h
    obtain ⟨x, hx⟩ := Option.isSome_iff_exists.1 h
    obtain ⟨z, hz, _⟩ := a.ev.state S.wf S.hl S.state a.state hx
    rw [(hg k z).2 ⟨hz, .inl h⟩]; rfl
  · intro k y h1 h2
    refine (hg k y).2 ⟨h1, .inr ?_⟩
    intro g hg' hle
    have := hg'.unique h2
    omega

omit [DecidableEq α] in
theorem Setup.matchedNew (S : Setup w l o s0 d ss0 b c0) {t : State (PyVal α)} (hc : InCollNew o s0 t) {k : Str} {y : PyVal α}
    (h : t.get k = some y) : ∃ g, FirstMatch o.filters k y g := by
  cases hs : s0.get k with
  | none => exact hc.fresh k y hs h
  | some x => obtain ⟨g, hg, _⟩ := S.first hs; exact ⟨g, hc.stays k x y g hs h hg⟩

/-! ### One iteration -/

/-- **One iteration.** -/
theorem step_new (S : Setup w l o s0 d ss0 b c0) {v : World α} {s cs : State (PyVal α)} (a : At w l o s0 v s cs) {i : Nat}
    {inp : State (PyVal α)} (hin : IsSlice R o s0 i inp) {x : StepIn α κ A} (hax : IsAxes R o ss0 i x.axes) {v1 v2 : World α}
    (hu : updateState (v.heap.length + 1) l [inp] v = (v1, none)) {p : Loc → World α → World α × Except Err (C × B)} (hp : Parametric p) {c' : C} {y : B}
    (hc : p l v1 = (v2, .ok (c', y))) (hn : NodesOnly v1 v2 l) {s2 : State (PyVal α)}
    (hs2 : getState (v2.heap.length + 1) v2.heap l = some s2) (hco : InCollNew o s0 s2) {u : World α} (wfu : WFWorld u)
    {f : Option (PureContext κ) → C → Option A → Loc → World α → World α × Except Err (C × B)} {c : C}
    (hf : f x.ctx c x.arg = p) (j : Nat) :
    ∃ cs2 out u3, AtNew w l o s0 v2 s2 cs2 ∧ IsOut o s2 y out ∧ out.carryNew = cs2.sub cs ∧ Grows u u3 ∧
      (∀ k, (s.get k).isSome → (s2.get k).isSome) ∧
      ∀ fuel, getState fuel w.heap l = some s0 → scanFn fuel o j d b f (cs, c) x u = (u3, .ok ((cs2.sub (cs2.sub cs), c'), out)) := by
  obtain ⟨s1, ev1, evv, hs1, hpc, hkeys⟩ := step_in S a hin hax hu
  have hl1 := Nat.lt_of_lt_of_le S.hl ev1.keeps.len
  have hd1 := ev1.moduleDef S.wf S.hl S.def_ (Nat.lt_succ_self _)
  obtain ⟨u3, hr, cr, hj, hst⟩ := run_copy_in ev1.wf wfu hl1 (ev1.valid S.wf S.hl S.valid) hp hd1 hs1 hpc j none
  have ev2' := Evolves.call ev1.wf hl1 hp hc hn
  have ev2 := ev1.trans S.wf S.hl ev2'
  have hmatch : ∀ k z, s2.get k = some z → ∃ g, FirstMatch o.filters k z g := fun k z h => S.matchedNew hco h
  obtain ⟨ts, hts⟩ := partition_of_matches S.obtainable (getState_obtainable hs2) S.part hmatch
  obtain ⟨hlen, hfm⟩ := C01_partition_first_match (getState_obtainable hs2) hts
  rw [filters_length] at hlen
  have hgr : ∀ (g : Nat) t, ts[g]? = some t → IsGroup o s2 g t := fun g t h =>
    ⟨(Obtainable.partition (getState_obtainable hs2) hts (List.mem_of_getElem? h)).canonical, fun k x => hfm g t h k x⟩
  have hb2 : ts[o.variableAxes.length]? = some ts[o.variableAxes.length] := List.getElem?_eq_getElem (by omega)
  have hc2 : ts[o.variableAxes.length + 1]? = some ts[o.variableAxes.length + 1] := List.getElem?_eq_getElem (by omega)
  generalize ts[o.variableAxes.length] = b2 at hb2
  generalize ts[o.variableAxes.length + 1] = cs2 at hc2
  have hbe : b.sub b2 = ⟨[]⟩ := by
    refine State.empty_of_gets ?_
    intro k
    rw [State.sub_get]
    split
    · rfl
    next hno =>
    cases hbk : b.get k with
    | none => rfl
    | some x0 =>
      exfalso
      obtain ⟨h1, h2⟩ := ((S.group S.bcast).2 k x0).1 hbk
      obtain ⟨z, hz, _⟩ := ev2.state S.wf S.hl S.state hs2 h1
      have := ((hgr _ _ hb2).2 k z).2 ⟨hz, hco.stays k x0 z _ h1 hz h2⟩
      rw [this] at hno
      exact hno rfl
  refine ⟨cs2, ⟨ts.take o.variableAxes.length, ⟨[]⟩, cs2.sub cs, y⟩, u3, ⟨ev2, hs2, hco, hgr _ _ hc2⟩, ⟨?_, rfl, rfl⟩, rfl,
    ⟨cr.wf, cr.len, cr.old, hj, hst⟩, ?_, ?_⟩
  · intro g hg
    have hgt : g < ts.length := by omega
    exact ⟨ts[g], by rw [List.getElem?_take_of_lt hg, List.getElem?_eq_getElem hgt], hgr g _ (List.getElem?_eq_getElem hgt)⟩
  · intro k hk
    rw [← hkeys] at hk
    obtain ⟨z, hz⟩ := Option.isSome_iff_exists.1 hk
    obtain ⟨z', hz', _⟩ := ev2'.state ev1.wf hl1 hs1 hs2 hz
    rw [hz']; rfl
  · intro fuel hfuel
    have hrun : (p l v1).1 = v2 := by rw [hc]
    obtain ⟨s', hs3⟩ := ev2.enough S.wf S.hl hfuel
    have := getState_det ev2.wf.heap (Nat.lt_of_lt_of_le S.hl ev2.keeps.len) hs3 hs2
    subst this
    have hs4 := cr.states fuel s' (by rw [hrun]; exact hs3)
    have hpm : ∃ d'', partitionModule fuel u3.heap u.heap.length o.filters = .ok (ts, d'') := by
      obtain ⟨d'', hdd⟩ := getModuleDef_of_getState hs4
      simp only [partitionModule, hs4, hdd]
      refine ⟨d'', ?_⟩
      have : o.filters ≠ [] := by
        intro h
        have := filters_length o
        rw [h] at this
        simp at this
      split
      · next h => exact absurd h this
      · rw [hts]
    obtain ⟨d'', hpm⟩ := hpm
    have hm1 : ∀ g, onAxes g o x.axes = .ok x.axes := by
      intro g; simp only [onAxes, S.noName, Bool.false_eq_true, if_false]
    have hm2 : ∀ g, onAxes g o (ts.take o.variableAxes.length) = .ok (ts.take o.variableAxes.length) := by
      intro g; simp only [onAxes, S.noName, Bool.false_eq_true, if_false]
    rw [hc] at hr
    simp only [scanFn, hm1, hf, hr, Except.map, hpm, splitGroups, hb2, hc2, hm2, hbe]

/-! ### The loop -/

omit [DecidableEq α] in
/-- The path is one of the carry collection. -/
def CarryKey (o : ScanOptions α) (t : State (PyVal α)) (k : Str) : Prop :=
  ∃ y, t.get k = some y ∧ FirstMatch o.filters k y (o.variableAxes.length + 1)

omit [DecidableEq α] in
theorem IsGroup.key {t cs : State (PyVal α)} (h : IsGroup o t (o.variableAxes.length + 1) cs) (k : Str) :
    (cs.get k).isSome = true ↔ CarryKey o t k := by
  rw [Option.isSome_iff_exists]
  exact exists_congr fun y => h.2 k y

omit [DecidableEq α] in
/-- If there are no new entries in the carry collection, the carry has the same entries. -/
theorem no_new_carry {s s2 cs cs2 : State (PyVal α)} (h : IsGroup o s (o.variableAxes.length + 1) cs)
    (h2 : IsGroup o s2 (o.variableAxes.length + 1) cs2) (hk : ∀ k, CarryKey o s2 k ↔ CarryKey o s k) :
    cs2.sub cs = ⟨[]⟩ ∧ ∀ k, (cs.get k).isSome = (cs2.get k).isSome := by
  have key : ∀ k, (cs.get k).isSome = (cs2.get k).isSome := by
    intro k; rw [Bool.eq_iff_iff, h.key, h2.key, hk]
  refine ⟨State.empty_of_gets ?_, key⟩
  intro k
  rw [State.sub_get]
  split
  · rfl
  next h =>
  rw [key k] at h
  cases hc : cs2.get k with
  | none => rfl
  | some x => rw [hc] at h; exact absurd rfl h

/-- **The loop**, without new entries in the carry collection. -/
theorem loop_new (S : Setup w l o s0 d ss0 b c0) {body : Option (PureContext κ) × Option A → C → Loc → World α → World α × Except Err (C × B)}
    (hb : ∀ x c, Parametric (body x c)) (j : Nat) {v v' : World α} {c c' : C} {ins outs} (run : FreshLoop o s0 body l v c ins v' c' outs) :
    ∀ {s cs : State (PyVal α)} {xs : List (StepIn α κ A)} {u : World α}, AtNew w l o s0 v s cs → List.Forall₂ (Matched R o s0 ss0) ins xs →
    (∀ t ∈ outs, InCollNew o s0 t.1) → (∀ t ∈ outs, ∀ k, CarryKey o t.1 k ↔ CarryKey o s k) →
    CarryTrees o (s :: outs.map (·.1)) (outs.map (·.1)) → WFWorld u →
    ∃ s' cs' ys u', AtNew w l o s0 v' s' cs' ∧ List.Forall₂ (IsStepOut w l o) outs ys ∧ (∀ y ∈ ys, y.carryNew = ⟨[]⟩) ∧
      s' = ((outs.map (·.1)).getLastD s) ∧ Grows u u' ∧
      ∀ fuel, getState fuel w.heap l = some s0 → laxScan (scanFn fuel o j d b (scanBody body)) (cs, c) xs u = (u', .ok ((cs', c'), ys)) := by
  induction run with
  | done =>
    intro s cs xs u a hm _ _ _ wfu
    cases hm
    exact ⟨s, cs, [], u, a, .nil, nofun, rfl, .refl wfu, fun _ _ => rfl⟩
  | @next v v0 v1 v2 v' c c' c'' inp s2 x y ins outs h0 h1 h2 h3 h4 _ ih =>
    intro s cs xs u a hm hco hk htr wfu
    cases hm with
    | @cons _ x' _ xs hmx hms =>
    obtain ⟨i, hsl, hax, hx⟩ := hmx
    dsimp only at hsl hx
    subst hx
    obtain ⟨sd, ad, hsub, _, hcar⟩ := a.clear S h0
    obtain ⟨cs2, out, u3, a2, hout, hnew, hgr, hkeep, heq⟩ := step_new S ad hsl hax h1 (hb _ _) h2 h3 h4 (hco _ List.mem_cons_self) wfu
      (f := scanBody body) (c := c) rfl j
    have hk2 : ∀ k, CarryKey o s2 k ↔ CarryKey o s k := hk _ List.mem_cons_self
    obtain ⟨hnn, hck⟩ := no_new_carry a.carry a2.carry hk2
    obtain ⟨s', cs', ys, u', a', hys, hcn, hlast, hgr', heq'⟩ := ih a2 hms (fun t ht => hco t (List.mem_cons_of_mem _ ht))
      (fun t ht k => (hk t (List.mem_cons_of_mem _ ht) k).trans (hk2 k).symm)
      (by
        intro t ht t' ht'
        refine htr t ?_ t' ?_
        · simp only [List.map_cons, List.mem_cons] at ht ⊢; exact .inr ht
        · simp only [List.map_cons, List.mem_cons] at ht' ⊢; exact .inr ht') hgr.wf
    refine ⟨s', cs', out :: ys, u', a', .cons ⟨hout, v2, a2.ev, a2.state⟩ hys, ?_, ?_, hgr.trans hgr', ?_⟩
    · intro z hz
      rcases List.mem_cons.1 hz with rfl | hz
      · rw [hnew, hnn]
      · exact hcn z hz
    · rw [hlast]
      cases outs with
      | nil => rfl
      | cons => rfl
    · intro fuel hf
      have h5 := heq fuel hf
      have hst : sameTrees cs cs2 = true := by
        refine sameTrees_of a.carry.1 a2.carry.1 hck ?_
        intro k z z' hz hz'
        obtain ⟨e1, e2⟩ := (a.carry.2 k z).1 hz
        obtain ⟨e3, e4⟩ := (a2.carry.2 k z').1 hz'
        exact htr s List.mem_cons_self s2 (by simp) k z z' e1 e3 e4
      rw [hnn, sub_empty] at h5
      simp only [laxScan, h5, hst, if_true, heq' fuel hf]


omit [DecidableEq α] in
theorem UniformNew.inColl {after : List (State (PyVal α))} (h : UniformNew o s0 after) {t : State (PyVal α)} (ht : t ∈ after) :
    InCollNew o s0 t := ⟨h.stays t ht, h.fresh t ht⟩

theorem UniformNew.trees' {after : List (State (PyVal α))} (h : UniformNew o s0 after) : CarryTrees o (s0 :: after) after :=
  fun t ht t' ht' k x y h1 h2 h3 => sameTree_iff.1 (h.trees t ht t' ht' k x y h1 h2 h3)

omit [DecidableEq α] in
theorem UniformNew.perm {after after' : List (State (PyVal α))} (h : UniformNew o s0 after) (hm : ∀ t, t ∈ after' → t ∈ after) :
    UniformNew o s0 after' := by
  refine ⟨fun t ht t' ht' => h.paths t (hm t ht) t' (hm t' ht'), fun t ht => h.stays t (hm t ht), fun t ht => h.fresh t (hm t ht),
    fun t ht t' ht' => h.agree t (hm t ht) t' (hm t' ht'), fun t ht => h.arrays t (hm t ht), fun t ht t' ht' => h.trees t ?_ t' (hm t' ht')⟩
  rcases List.mem_cons.1 ht with rfl | ht
  · exact List.mem_cons_self
  · exact List.mem_cons_of_mem _ (hm t ht)

omit [DecidableEq α] in
/-- An entry is in the same collection after all iterations. -/
theorem UniformNew.same (S : Setup w l o s0 d ss0 b c0) {after : List (State (PyVal α))} (h : UniformNew o s0 after) {t t' : State (PyVal α)}
    (ht : t ∈ after) (ht' : t' ∈ after) {k : Str} {x : PyVal α} {g : Nat} (hx : t.get k = some x) (hfm : FirstMatch o.filters k x g) :
    ∃ y, t'.get k = some y ∧ FirstMatch o.filters k y g := by
  have := h.paths t ht t' ht' k
  rw [hx] at this
  obtain ⟨y, hy⟩ := Option.isSome_iff_exists.1 this.symm
  refine ⟨y, hy, ?_⟩
  cases h0 : s0.get k with
  | none => exact h.agree t ht t' ht' k x y g h0 hx hy hfm
  | some z =>
    obtain ⟨g', hg', _⟩ := S.first h0
    have := (h.stays t ht k z x g' h0 hx hg').unique hfm
    subst this
    exact h.stays t' ht' k z y g' h0 hy hg'

/-- The first iteration. -/
theorem first_new (S : Setup w l o s0 d ss0 b c0) {body : Option (PureContext κ) × Option A → C → Loc → World α → World α × Except Err (C × B)}
    (hb : ∀ x c, Parametric (body x c)) (j : Nat) {vl : World α} {c c' : C} {inp ins outs}
    (run : FreshLoop o s0 body l w c (inp :: ins) vl c' outs) {x : StepIn α κ A} {xs : List (StepIn α κ A)}
    (hm : List.Forall₂ (Matched R o s0 ss0) (inp :: ins) (x :: xs)) (hun : UniformNew o s0 (outs.map (·.1))) {u : World α} (wfu : WFWorld u) :
    ∃ v2 s2 cs2 y c1 out u3 outs', AtNew w l o s0 v2 s2 cs2 ∧ outs = (s2, y) :: outs' ∧ IsStepOut w l o (s2, y) out ∧
      out.carryNew = cs2.sub c0 ∧ Grows u u3 ∧ FreshLoop o s0 body l v2 c1 ins vl c' outs' ∧
      (∀ fuel, getState fuel w.heap l = some s0 →
        scanFn fuel o j d b (scanBody body) (c0, c) x u = (u3, .ok ((cs2.sub (cs2.sub c0), c1), out))) ∧
      (∀ k, CarryKey o s0 k → CarryKey o s2 k) ∧
      (out.carryNew.hasLeaves = false → ∀ k, CarryKey o s2 k ↔ CarryKey o s0 k) ∧
      sameTrees c0 (cs2.sub (cs2.sub c0)) = true := by
  cases run with
  | @next _ v0 v1 v2 _ _ c1 _ inp s2 xx y _ outs h0 h1 h2 h3 h4 run' =>
  cases hm with
  | cons hmx hms =>
  obtain ⟨i, hsl, hax, hx⟩ := hmx
  dsimp only at hsl hx
  subst hx
  have hco : InCollNew o s0 s2 := hun.inColl (by simp)
  obtain ⟨sd, ad, _, hkd, _⟩ := S.start.new.clear S h0
  obtain ⟨cs2, out, u3, a2, hout, hnew, hgr, hkeep', heq⟩ := step_new S ad hsl hax h1 (hb _ _) h2 h3 h4 hco wfu
    (f := scanBody body) (c := c) rfl j
  have hkeep : ∀ k, (s0.get k).isSome → (s2.get k).isSome := fun k h => hkeep' k (hkd k h)
  have hck : ∀ k, CarryKey o s0 k → CarryKey o s2 k := by
    rintro k ⟨z, e1, e2⟩
    obtain ⟨z', hz'⟩ := Option.isSome_iff_exists.1 (hkeep k (by rw [e1]; rfl))
    exact ⟨z', hz', hco.stays k z z' _ e1 hz' e2⟩
  refine ⟨v2, s2, cs2, y, c1, out, u3, outs, a2, rfl, ⟨hout, v2, a2.ev, a2.state⟩, hnew, hgr, run', heq, hck, ?_, ?_⟩
  · intro hl k
    refine ⟨?_, hck k⟩
    rintro ⟨z, e1, e2⟩
    cases h0' : s0.get k with
    | some z0 =>
      obtain ⟨g, hg, _⟩ := S.first h0'
      have := (hco.stays k z0 z g h0' e1 hg).unique e2
      subst this
      exact ⟨z0, h0', hg⟩
    | none =>
      exfalso
      obtain ⟨k', z', e3, e4, e5, e6⟩ := hun.arrays s2 (by simp) k z h0' e1 e2
      have h5 : cs2.get k' = some z' := (a2.carry.2 k' z').2 ⟨e4, e5⟩
      have h6 : c0.get k' = none := by
        cases hc : c0.get k' with
        | none => rfl
        | some z' => have := ((S.start.carry.2 k' z').1 hc).1; rw [e3] at this; cases this
      have h7 : (cs2.sub c0).get k' = some z' := by
        rw [State.sub_get, h6]; exact h5
      rw [hnew, State.hasLeaves, List.any_eq_false] at hl
      have := hl (k', z') (dget_mem h7)
      simp only [decide_eq_true_eq] at this
      exact this fun e => e6 (noArrays_iff.2 e)
  · have hcc : (cs2.sub (cs2.sub c0)).Canonical := State.sub_canonical a2.carry.1
    have hg : ∀ k, (cs2.sub (cs2.sub c0)).get k = if (c0.get k).isSome then cs2.get k else none := by
      intro k
      rw [State.sub_get, State.sub_get]
      by_cases h : (c0.get k).isSome = true
      · simp [h]
      · simp only [h, Bool.false_eq_true, if_false]
        cases cs2.get k <;> rfl
    refine sameTrees_of S.start.carry.1 hcc ?_ ?_
    · intro k
      rw [hg]
      cases hc : c0.get k with
      | none => rfl
      | some z =>
        obtain ⟨z', e1, e2⟩ := hck k ⟨z, (S.start.carry.2 k z).1 hc⟩
        simp only [Option.isSome_some, if_true]
        rw [(a2.carry.2 k z').2 ⟨e1, e2⟩]
        rfl
    · intro k z z' hz hz'
      rw [hg, hz] at hz'
      simp only [Option.isSome_some, if_true] at hz'
      obtain ⟨e1, e2⟩ := (S.start.carry.2 k z).1 hz
      obtain ⟨e3, e4⟩ := (a2.carry.2 k z').1 hz'
      exact hun.trees' s0 (by simp) s2 (by simp) k z z' e1 e3 e4

/-- How far the scan has come before its end, when it has run as the loop, in the world `u`. -/
structure CoreRunNew (w : World α) (l : Loc) (o : ScanOptions α) (s0 : State (PyVal α)) (vl : World α) (outs : List (State (PyVal α) × B)) (c' : C)
    (u : World α) (r : Nat → World α × Except Err ((State (PyVal α) × C) × List (StepOut α B) × List (StepOut α B)))
    (sl csl : State (PyVal α)) (ys ysNew : List (StepOut α B)) (u' : World α) : Prop where
  at_ : AtNew w l o s0 vl sl csl
  last : sl ∈ outs.map (·.1)
  outs : List.Forall₂ (IsStepOut w l o) outs ys
  bcast : ∀ y ∈ ysNew, y.bcastNew = ⟨[]⟩
  carry : ∀ y ∈ ysNew, y.carryNew = ⟨[]⟩
  grows : Grows u u'
  eq : ∀ fuel, getState fuel w.heap l = some s0 → r fuel = (u', .ok ((csl, c'), ys, ysNew))

omit [DecidableEq α] in
theorem getLastD_mem {X : Type} {x : X} {xs : List X} (h : xs ≠ []) (d : X) (hx : xs.getLastD d = x) : x ∈ xs := by
  cases xs with
  | nil => exact absurd rfl h
  | cons y ys =>
    rw [← hx]
    rw [List.getLastD_cons]
    cases ys with
    | nil => simp
    | cons z zs => rw [List.getLastD_eq_getLast?, List.getLast?_eq_getLast_of_ne_nil (by simp)]; exact List.mem_cons_of_mem _ (List.getLast_mem _)

/-- The scan up to its end, if there are no new entries of the carry collection; in either direction. -/
theorem core_either_new (S : Setup w l o s0 d ss0 b c0) {body : Option (PureContext κ) × Option A → C → Loc → World α → World α × Except Err (C × B)}
    (hb : ∀ x c, Parametric (body x c)) (j : Nat) {vl : World α} {c c' : C} {ins outs} (run : FreshLoop o s0 body l w c ins vl c' outs) (hne : ins ≠ [])
    {xs : List (StepIn α κ A)} (hm : List.Forall₂ (Matched R o s0 ss0) ins (if o.reverse then xs.reverse else xs))
    (hun : UniformNew o s0 (outs.map (·.1))) (hno : ∀ t ∈ outs, ∀ k, CarryKey o t.1 k → (s0.get k).isSome = true) {u : World α} (wfu : WFWorld u) :
    outs ≠ [] ∧ ∃ sl csl ys ysNew u', CoreRunNew w l o s0 vl (if o.reverse then outs.reverse else outs) c' u
      (fun fuel => scanCore fuel o j d b (scanBody body) (c0, c) xs u) sl csl ys ysNew u' := by
  generalize hp : (if o.reverse then xs.reverse else xs) = ps at hm
  cases hm with
  | nil => exact absurd rfl hne
  | @cons inp x ins ps hmx hms =>
  obtain ⟨v2, s2, cs2, y, c1, out, u3, outs', a2, ho, hout, hnew, hgr, run', heq, hck, hleaf, htr⟩ :=
    first_new S hb j run (.cons hmx hms) hun wfu
  have hco : ∀ t ∈ outs, InCollNew o s0 t.1 := fun t ht => hun.inColl (List.mem_map_of_mem ht)
  have hkeys : ∀ t ∈ outs, ∀ k, CarryKey o t.1 k ↔ CarryKey o s0 k := by
    intro t ht k
    constructor
    · rintro ⟨z, e1, e2⟩
      obtain ⟨z0, h0⟩ := Option.isSome_iff_exists.1 (hno t ht k ⟨z, e1, e2⟩)
      obtain ⟨g, hg, _⟩ := S.first h0
      have := ((hco t ht).stays k z0 z g h0 e1 hg).unique e2
      subst this
      exact ⟨z0, h0, hg⟩
    · intro h
      obtain ⟨z, e1, e2⟩ := hck k h
      exact hun.same S (t := s2) (by rw [ho]; simp) (List.mem_map_of_mem ht) e1 e2
  have hnl : out.carryNew.hasLeaves = false := by
    rw [hnew, (no_new_carry S.start.carry a2.carry (hkeys (s2, y) (by rw [ho]; simp))).1]; rfl
  obtain ⟨s', cs', ys, u', a', hys, hcn, hlast, hgr', heq'⟩ := loop_new (u := u) S hb j run S.start.new (.cons hmx hms) hco hkeys
    hun.trees' wfu
  refine ⟨by rw [ho]; simp, s', cs', if o.reverse then ys.reverse else ys, if o.reverse then ys.reverse else ys, u',
    a', ?_, ?_, ?_, ?_, hgr', ?_⟩
  · have := getLastD_mem (xs := outs.map (·.1)) (by rw [ho]; simp) _ hlast.symm
    split
    · simpa using this
    · exact this
  · split
    · exact List.forall₂_reverse_iff.2 hys
    · exact hys
  · intro z hz
    have hz' : z ∈ ys := by
      split at hz
      · simpa using hz
      · exact hz
    obtain ⟨t, _, ht⟩ := forall₂_mem_right hys hz'
    exact ht.out.bcast
  · intro z hz
    refine hcn z ?_
    split at hz
    · simpa using hz
    · exact hz
  · intro fuel hf
    have hhead : (if o.reverse then xs.getLast? else xs.head?) = some x := by
      split at hp
      · next h => simp only [h, if_true]; rw [← List.head?_reverse, hp]; rfl
      · next h => simp only [h, if_false, Bool.false_eq_true]; rw [hp]; rfl
    have hl := laxScanDir_eq (r := o.reverse) (by rw [hp]; exact heq' fuel hf)
    simp only [scanCore, hhead, heq fuel hf, hnl, Bool.false_eq_true, if_false, hl]

/-- The scan in forward direction up to its end. -/
theorem core_forward_new (S : Setup w l o s0 d ss0 b c0) {body : Option (PureContext κ) × Option A → C → Loc → World α → World α × Except Err (C × B)}
    (hb : ∀ x c, Parametric (body x c)) (j : Nat) {vl : World α} {c c' : C} {ins outs} (run : FreshLoop o s0 body l w c ins vl c' outs) (hne : ins ≠ [])
    {xs : List (StepIn α κ A)} (hm : List.Forall₂ (Matched R o s0 ss0) ins xs) (hrev : o.reverse = false)
    (hun : UniformNew o s0 (outs.map (·.1))) {u : World α} (wfu : WFWorld u) :
    outs ≠ [] ∧ ∃ sl csl ys ysNew u', CoreRunNew w l o s0 vl outs c' u
      (fun fuel => scanCore fuel o j d b (scanBody body) (c0, c) xs u) sl csl ys ysNew u' := by
  cases hm with
  | nil => exact absurd rfl hne
  | @cons inp x ins xs hmx hms =>
  obtain ⟨v2, s2, cs2, y, c1, out, u3, outs', a2, ho, hout, hnew, hgr, run', heq, hck, hleaf, htr⟩ :=
    first_new S hb j run (.cons hmx hms) hun wfu
  cases hhl : out.carryNew.hasLeaves with
  | false =>
    have := core_either_new S hb j run hne (xs := x :: xs) (by rw [hrev]; exact .cons hmx hms) hun (by
      rintro t ht k ⟨z, e1, e2⟩
      have := hun.same S (t' := s2) (List.mem_map_of_mem ht) (by rw [ho]; simp) e1 e2
      obtain ⟨z0, h0, _⟩ := (hleaf hhl k).1 this
      rw [h0]; rfl) wfu
    rwa [hrev] at this
  | true =>
    have hmem : ∀ t ∈ outs', t.1 ∈ outs.map (·.1) := fun t ht => by
      rw [ho]; simp only [List.map_cons, List.mem_cons]; exact .inr (List.mem_map_of_mem ht)
    have h2m : s2 ∈ outs.map (·.1) := by rw [ho]; simp
    obtain ⟨s', cs', ys, u', a', hys, hcn, hlast, hgr', heq'⟩ := loop_new (u := u3) S hb j run' a2 hms (fun t ht => hun.inColl (hmem t ht))
      (fun t ht k => ⟨fun ⟨z, e1, e2⟩ => hun.same S (hmem t ht) h2m e1 e2, fun ⟨z, e1, e2⟩ => hun.same S h2m (hmem t ht) e1 e2⟩)
      (by
        intro t ht t' ht'
        refine hun.trees' t ?_ t' ?_
        · rw [ho]; exact List.mem_cons_of_mem _ ht
        · rw [ho]; exact List.mem_cons_of_mem _ ht') hgr.wf
    refine ⟨by rw [ho]; simp, s', cs', out :: ys, ys, u', a', ?_, by rw [ho]; exact .cons hout hys, ?_, hcn,
      hgr.trans hgr', ?_⟩
    · rw [ho, hlast]
      by_cases h : outs'.map (·.1) = []
      · rw [h]; simp
      · exact List.mem_cons_of_mem _ (getLastD_mem h _ rfl)
    · intro z hz
      obtain ⟨t, _, ht⟩ := forall₂_mem_right hys hz
      exact ht.out.bcast
    · intro fuel hf
      have h1 := heq fuel hf
      have h2 := heq' fuel hf
      have hb0 : b.merge [out.bcastNew] = b := by rw [hout.out.bcast]; exact merge_empty (S.group S.bcast).1
      have hc0 : (cs2.sub (cs2.sub c0)).merge [out.carryNew] = cs2 := by rw [hnew]; exact merge_carry a2.carry.1
      simp only [scanCore, hrev, Bool.false_eq_true, if_false, List.head?_cons, h1, hhl, if_true, laxScanDir, List.take_succ_cons,
        List.take_zero, laxScan, htr, List.drop_succ_cons, List.drop_zero, hb0, hc0, h2, List.singleton_append]

end Nnx
