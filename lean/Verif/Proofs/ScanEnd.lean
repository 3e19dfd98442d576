import Verif.Proofs.Scan
/-
The end of nnx.scan: stacking and writing back.
-/
namespace Nnx
variable {α κ A B C : Type} [DecidableEq α]

omit [DecidableEq α] in
/-- Worlds that agree on all modules reachable from the root have the same graph. -/
theorem AgreeOn.sameGraph {w w' : World α} {n : Nat} {l : Loc} (hag : AgreeOn n w w') (wf : WFWorld w) (hl : l < w.heap.length)
    (hlt : ∀ a, Reaches w.heap l a → a < n) : SameGraph w.heap l w'.heap l := by
  have iso : GraphIso w.heap l w'.heap l id := by
    refine ⟨rfl, fun _ _ _ _ h => h, ?_, ?_⟩
    · intro a o hr ho
      have := (hag a (hlt a hr)).2
      rw [ho] at this
      cases ho4 : w'.heap[a]? with
      | none => rw [ho4] at this; cases this
      | some o' =>
        rw [ho4] at this
        simp only [Option.map_some, Option.some.injEq, Prod.mk.injEq] at this
        exact ⟨o', ho4, this.1, this.2.2.1⟩
    · intro a hr n
      rw [id, (hag a (hlt a hr)).1 n]
      cases attrAt w.heap a n with
      | none => rfl
      | some x => cases x <;> rfl
  exact iso.sameGraph wf.heap hl

variable {w : World α} {l : Loc} {o : ScanOptions α} {s0 : State (PyVal α)} {d : ModuleDef α} {ss0 : List (State (PyVal α))}
  {b c0 : State (PyVal α)} {R : Arrays α}

omit [DecidableEq α] in
/-- The axes states number `g` of all iterations. -/
theorem groups_of {g : Nat} (hg : g < o.variableAxes.length) {outs : List (State (PyVal α) × B)} {ys : List (StepOut α B)}
    (h : List.Forall₂ (IsStepOut w l o) outs ys) :
    List.Forall₂ (fun t u => IsGroup o t.1 g u) outs (ys.filterMap fun y => y.axes[g]?) := by
  induction h with
  | nil => exact .nil
  | cons h _ ih =>
    obtain ⟨u, hu, hgr⟩ := h.out.axes g hg
    rw [List.filterMap_cons, hu]
    exact .cons hgr ih

omit [DecidableEq α] in
theorem group_values {k : Str} {x : PyVal α} {g : Nat} (hx : s0.get k = some x)
    (hfm : FirstMatch o.filters k x g) {outs : List (State (PyVal α) × B)} {gs : List (State (PyVal α))}
    (h : List.Forall₂ (fun t u => IsGroup o t.1 g u) outs gs) (hco : ∀ t ∈ outs, InColl o s0 t.1) :
    gs.filterMap (fun t => t.get k) = (outs.map (·.1)).filterMap fun t => t.get k := by
  induction h with
  | nil => rfl
  | @cons t u outs gs hgr _ ih =>
    have hrest := ih fun t ht => hco t (List.mem_cons_of_mem _ ht)
    have : u.get k = t.1.get k := by
      cases ht : t.1.get k with
      | some z => exact (hgr.2 k z).2 ⟨ht, (hco t List.mem_cons_self).stays k x z g hx ht hfm⟩
      | none =>
        cases hu : u.get k with
        | none => rfl
        | some z => have := ((hgr.2 k z).1 hu).1; rw [ht] at this; cases this
    simp only [List.map_cons, List.filterMap_cons, this, hrest]

omit [DecidableEq α] in
/-- Which entries are in an axes group. -/
theorem group_keys (S : Setup w l o s0 d ss0 b c0) {g : Nat} (hg : g < o.variableAxes.length) {t : State (PyVal α)} (hco : InColl o s0 t)
    {v : World α} (ev : Evolves w v l) (hs : getState (v.heap.length + 1) v.heap l = some t) {u : State (PyVal α)} (hgr : IsGroup o t g u)
    (k : Str) : (u.get k).isSome = true ↔ ∃ x, s0.get k = some x ∧ FirstMatch o.filters k x g := by
  constructor
  · intro h
    obtain ⟨z, hz⟩ := Option.isSome_iff_exists.1 h
    obtain ⟨h1, h2⟩ := (hgr.2 k z).1 hz
    cases h0 : s0.get k with
    | none => have := (hco.fresh k z h0 h1).unique h2; omega
    | some x =>
      obtain ⟨g', hg', _⟩ := S.first h0
      have := (hco.stays k x z g' h0 h1 hg').unique h2
      subst this
      exact ⟨x, rfl, hg'⟩
  · rintro ⟨x, hx, hfm⟩
    obtain ⟨z, hz, _⟩ := ev.state S.wf S.hl S.state hs hx
    rw [(hgr.2 k z).2 ⟨hz, hco.stays k x z g hx hz hfm⟩]; rfl

/-- The stacked axes state number `g`. -/
theorem stack_group (S : Setup w l o s0 d ss0 b c0) {outs : List (State (PyVal α) × B)} {ys : List (StepOut α B)}
    (h : List.Forall₂ (IsStepOut w l o) outs ys) (hne : outs ≠ []) (hco : ∀ t ∈ outs, InColl o s0 t.1) {fin : State (PyVal α)}
    (hfin : IsStacked R o s0 (outs.map (·.1)) fin) {g : Nat} {f : Filter α} {a : Int} (hga : o.variableAxes[g]? = some (f, a)) :
    ∃ st, stackStates R a (ys.filterMap fun y => y.axes[g]?) = some st ∧ st.Canonical ∧
      (∀ k y, st.get k = some y → fin.get k = some y) ∧
      ∀ k x, s0.get k = some x → FirstMatch o.filters k x g → (st.get k).isSome := by
  have hg : g < o.variableAxes.length := (List.getElem?_eq_some_iff.1 hga).1
  have hgs := groups_of hg h
  generalize (ys.filterMap fun y => y.axes[g]?) = gs at hgs
  cases hgs with
  | nil => exact absurd rfl hne
  | @cons t u outs gs hgr hgs =>
  have hworld : ∀ t' ∈ t :: outs, ∃ v, Evolves w v l ∧ getState (v.heap.length + 1) v.heap l = some t'.1 := by
    intro t' ht'
    have : ∀ {outs : List (State (PyVal α) × B)} {ys : List (StepOut α B)}, List.Forall₂ (IsStepOut w l o) outs ys → ∀ t' ∈ outs,
        ∃ v, Evolves w v l ∧ getState (v.heap.length + 1) v.heap l = some t'.1 := by
      intro outs ys h
      induction h with
      | nil => nofun
      | cons h _ ih =>
        intro t' ht'
        rcases List.mem_cons.1 ht' with rfl | ht'
        · exact h.world
        · exact ih t' ht'
    exact this h t' ht'
  have hmem : ∀ {outs : List (State (PyVal α) × B)} {gs : List (State (PyVal α))}, List.Forall₂ (fun t u => IsGroup o t.1 g u) outs gs →
      ∀ u ∈ gs, ∃ t ∈ outs, IsGroup o t.1 g u := by
    intro outs gs h
    induction h with
    | nil => nofun
    | cons h _ ih =>
      intro u hu
      rcases List.mem_cons.1 hu with rfl | hu
      · exact ⟨_, List.mem_cons_self, h⟩
      · obtain ⟨t, ht, h'⟩ := ih u hu
        exact ⟨t, List.mem_cons_of_mem _ ht, h'⟩
  have hkeys : ∀ u' ∈ u :: gs, ∀ k, (u'.get k).isSome = true ↔ ∃ x, s0.get k = some x ∧ FirstMatch o.filters k x g := by
    intro u' hu' k
    obtain ⟨t', ht', hgr'⟩ := hmem (.cons hgr hgs) u' hu'
    obtain ⟨v, ev, hv⟩ := hworld t' ht'
    exact group_keys S hg (hco t' ht') ev hv hgr' k
  have hvals : ∀ k x, s0.get k = some x → FirstMatch o.filters k x g →
      stackVals R a ((u :: gs).filterMap fun t => t.get k) = fin.get k ∧ (fin.get k).isSome := by
    intro k x hx hfm
    obtain ⟨v, h1, h2⟩ := hfin.axes' k x g f a hx hga hfm
    rw [group_values hx hfm (.cons hgr hgs) hco, h1, h2]
    exact ⟨rfl, rfl⟩
  obtain ⟨st, hst, hc, hget⟩ := stackStates_spec (R := R) (axis := a) (s := u) (ss := gs) (by
      intro u' hu'
      obtain ⟨t', _, hgr'⟩ := hmem (.cons hgr hgs) u' hu'
      exact hgr'.1) (by
      intro u' hu' k
      rw [Bool.eq_iff_iff, hkeys u' (List.mem_cons_of_mem _ hu') k, hkeys u List.mem_cons_self k]) (by
      intro k hk
      obtain ⟨x, hx, hfm⟩ := (hkeys u List.mem_cons_self k).1 hk
      obtain ⟨h1, h2⟩ := hvals k x hx hfm
      rw [h1]; exact h2)
  refine ⟨st, hst, hc, ?_, ?_⟩
  · intro k y hy
    rw [hget] at hy
    split at hy
    · next hk =>
      obtain ⟨x, hx, hfm⟩ := (hkeys u List.mem_cons_self k).1 hk
      rw [← (hvals k x hx hfm).1, hy]
    · cases hy
  · intro k x hx hfm
    rw [hget, if_pos ((hkeys u List.mem_cons_self k).2 ⟨x, hx, hfm⟩)]
    obtain ⟨h1, h2⟩ := hvals k x hx hfm
    rw [h1]; exact h2

/-- The state after the loop and the final update. -/
def FinalState (l : Loc) (vl : World α) (fin : State (PyVal α)) (wd : World α) : Prop :=
  WFWorld wd ∧ l < wd.heap.length ∧ ∃ sl sf, getState (vl.heap.length + 1) vl.heap l = some sl ∧
    getState (wd.heap.length + 1) wd.heap l = some sf ∧ ∀ k, sf.get k = (fin.get k).or (sl.get k)

/-- **The end of the scan.** -/
theorem scan_end (S : Setup w l o s0 d ss0 b c0) {vl : World α} {sl csl : State (PyVal α)} (a : At w l o s0 vl sl csl)
    {outs : List (State (PyVal α) × B)} {ys : List (StepOut α B)} (h : List.Forall₂ (IsStepOut w l o) outs ys) (hne : outs ≠ [])
    (hco : ∀ t ∈ outs, InColl o s0 t.1) {fin : State (PyVal α)} (hfin : IsStacked R o s0 (outs.map (·.1)) fin) {u : World α}
    (hgr : Grows w u) {ysNew : List (StepOut α B)} (hnb : ∀ y ∈ ysNew, y.bcastNew = ⟨[]⟩) (hnc : ∀ y ∈ ysNew, y.carryNew = ⟨[]⟩) (c' : C) :
    ∃ wd, updateState (vl.heap.length + 1) l [fin] vl = (wd, none) ∧ FinalState l vl fin wd ∧ ∀ fuel, getState fuel w.heap l = some s0 → ∃ ws,
      scanEnd R fuel o l (csl, c') ys ysNew u = (ws, .ok (c', outs.map (·.2))) ∧ AgreeOn w.heap.length wd ws ∧
      SameGraph wd.heap l ws.heap l ∧ ws.jaxTrace = w.jaxTrace ∧ ws.nnxStack = w.nnxStack := by
  -- the direct update
  have hw0 : ∃ t ∈ outs, ∃ v, Evolves w v l ∧ getState (v.heap.length + 1) v.heap l = some t.1 ∧ (outs.map (·.1)).head? = some t.1 := by
    cases h with
    | nil => exact absurd rfl hne
    | cons h _ => obtain ⟨v, h1, h2⟩ := h.world; exact ⟨_, List.mem_cons_self, v, h1, h2, rfl⟩
  have hkind : ∀ k y, fin.get k = some y → ∃ z, sl.get k = some z ∧ WFVal y ∧ y.isNode = true ∧ SameKind z y := by
    intro k y hk
    obtain ⟨x, g, hx, hfm, hg⟩ := hfin.only k y hk
    obtain ⟨z, hz, hsk⟩ := a.ev.state S.wf S.hl S.state a.state hx
    rcases Nat.lt_or_eq_of_le hg with hlt | heq
    · have hge : o.variableAxes[g]? = some (o.variableAxes[g].1, o.variableAxes[g].2) := List.getElem?_eq_getElem hlt
      obtain ⟨y', hy', hk'⟩ := hfin.axes' k x g _ _ hx hge hfm
      rw [hk] at hk'; cases hk'
      obtain ⟨t, _, v, ev, hv, hhead⟩ := hw0
      obtain ⟨z1, hz1, hsk1⟩ := ev.state S.wf S.hl S.state hv hx
      obtain ⟨hwf1, hnode1⟩ := ev.values S.hl hv hz1
      cases hm : outs.map (·.1) with
      | nil => rw [hm] at hhead; cases hhead
      | cons t0 rest =>
        rw [hm] at hhead hy'
        cases hhead
        rw [List.filterMap_cons, hz1] at hy'
        obtain ⟨q1, q2, q3⟩ := stackVals_like hy' hwf1 hnode1
        exact ⟨z, hz, q1, q2, (hsk.symm.trans hsk1).trans q3⟩
    · rw [heq] at hfm
      have := hfin.broadcast k x hx hfm
      rw [hk] at this; cases this
      obtain ⟨h1, h2⟩ := (Evolves.refl S.wf l).values S.hl S.state hx
      exact ⟨z, hz, h1, h2, hsk.symm⟩
  obtain ⟨wd, sf, hud, evd, hsf, hget, _, _⟩ := a.ev.update S.wf S.hl S.valid a.state hfin.sorted hkind
  refine ⟨wd, hud, ⟨evd.wf, Nat.lt_of_lt_of_le S.hl evd.keeps.len, sl, sf, a.state, hsf, hget⟩, ?_⟩
  intro fuel hfuel
  -- the stacked states
  have hstack : ∀ fa ∈ o.variableAxes.zipIdx, (stackStates R fa.1.2 (ys.filterMap fun y => y.axes[fa.2]?)).isSome := by
    rintro ⟨⟨f, ax⟩, g⟩ hm
    obtain ⟨st, hst, _⟩ := stack_group S h hne hco hfin (List.mem_zipIdx_iff_getElem?.1 hm)
    rw [hst]; rfl
  obtain ⟨sts, hsts⟩ := allSome_exists (fun fa : (Filter α × Int) × Nat => stackStates R fa.1.2 (ys.filterMap fun y => y.axes[fa.2]?)) _ hstack
  obtain ⟨hlen, hspec⟩ := allSome_map_spec _ _ hsts
  rw [List.length_zipIdx] at hlen
  have hg1 : ∀ t ∈ sts, t.Canonical ∧ ∀ k y, t.get k = some y → fin.get k = some y := by
    intro t ht
    obtain ⟨g, hg, rfl⟩ := List.getElem_of_mem ht
    have hg' : g < o.variableAxes.length := hlen ▸ hg
    have hz : o.variableAxes.zipIdx[g]? = some (o.variableAxes[g], g) := by
      rw [List.getElem?_zipIdx, List.getElem?_eq_getElem hg']; simp
    obtain ⟨st, h1, h2⟩ := hspec g _ hz
    obtain ⟨st', h3, h4, h5, _⟩ := stack_group (R := R) S h hne hco hfin (f := o.variableAxes[g].1) (a := o.variableAxes[g].2)
      (List.getElem?_eq_getElem hg')
    rw [h3] at h1
    cases h1
    rw [List.getElem?_eq_getElem hg] at h2
    cases h2
    exact ⟨h4, h5⟩
  have hg2 : ∀ k x g, g < o.variableAxes.length → s0.get k = some x → FirstMatch o.filters k x g → ∃ t ∈ sts, (t.get k).isSome := by
    intro k x g hg hx hfm
    have hz : o.variableAxes.zipIdx[g]? = some (o.variableAxes[g], g) := by
      rw [List.getElem?_zipIdx, List.getElem?_eq_getElem hg]; simp
    obtain ⟨st, h1, h2⟩ := hspec g _ hz
    obtain ⟨st', h3, h4, _, h5⟩ := stack_group (R := R) S h hne hco hfin (f := o.variableAxes[g].1) (a := o.variableAxes[g].2)
      (List.getElem?_eq_getElem hg)
    rw [h3] at h1
    cases h1
    exact ⟨_, List.mem_of_getElem? h2, h5 k x hx hfm⟩
  have hnb' : stackStates R 0 (ysNew.map (·.bcastNew)) = some ⟨[]⟩ := stackStates_empty (by
    intro t ht; obtain ⟨y, hy, rfl⟩ := List.mem_map.1 ht; exact hnb y hy)
  have hnc' : stackStates R 0 (ysNew.map (·.carryNew)) = some ⟨[]⟩ := stackStates_empty (by
    intro t ht; obtain ⟨y, hy, rfl⟩ := List.mem_map.1 ht; exact hnc y hy)
  -- writing back
  obtain ⟨hwalk, hnw⟩ := evd.nodes.writes.transfer S.wf.heap S.hl hgr.len hgr.old
  have hlu := Nat.lt_of_lt_of_le S.hl hgr.len
  have hld := Nat.lt_of_lt_of_le S.hl evd.keeps.len
  have hnone : ∀ k, given (sts ++ [csl, ⟨[]⟩, ⟨[]⟩]) k = none → (∀ t ∈ sts, t.get k = none) ∧ csl.get k = none := by
    intro k hk
    rw [given, List.findSome?_eq_none_iff] at hk
    exact ⟨fun t ht => hk t (by simp [ht]), hk csl (by simp)⟩
  obtain ⟨ws, hu, so, hin, hout⟩ := update_from_all hgr.wf evd.wf hlu hld
    (fun q c => (evd.walk S.wf S.hl q c).trans (hwalk q c).symm) (by
      rintro x ob ⟨q, hq⟩ ho
      have hq' := (hwalk q x).1 hq
      rw [hgr.old x hq'.lt] at ho
      have := S.valid x ob ⟨q, hq'⟩ ho
      rw [traceValid_eq] at this ⊢
      rw [this]
      simp only [World.curTrace, hgr.jax, hgr.stack]) hnw hsf (us := sts ++ [csl, ⟨[]⟩, ⟨[]⟩]) (by
      intro t ht
      simp only [List.mem_append, List.mem_cons, List.not_mem_nil, or_false] at ht
      rcases ht with ht | rfl | rfl | rfl
      · exact (hg1 t ht).1
      · exact a.carry.1
      · exact List.Pairwise.nil
      · exact List.Pairwise.nil) (by
      intro t ht k y hk
      rw [hget]
      simp only [List.mem_append, List.mem_cons, List.not_mem_nil, or_false] at ht
      rcases ht with ht | rfl | rfl | rfl
      · rw [(hg1 t ht).2 k y hk]; rfl
      · obtain ⟨h1, h2⟩ := (a.carry.2 k y).1 hk
        cases hfk : fin.get k with
        | none => rw [h1]; rfl
        | some z =>
          exfalso
          obtain ⟨x, g, hx, hfm, hg⟩ := hfin.only k z hfk
          have := (a.coll.stays k x y g hx h1 hfm).unique h2
          omega
      · cases hk
      · cases hk) (by
      intro k y x n hk hgiv hadr
      obtain ⟨hn1, hn2⟩ := hnone k hgiv
      rw [hget] at hk
      cases hfk : fin.get k with
      | some z =>
        rw [hfk] at hk
        cases hk
        obtain ⟨x0, g, hx, hfm, hg⟩ := hfin.only k y hfk
        rcases Nat.lt_or_eq_of_le hg with hlt | heq
        · obtain ⟨t, ht, htk⟩ := hg2 k x0 g hlt hx hfm
          rw [hn1 t ht] at htk; cases htk
        · rw [heq] at hfm
          have := hfin.broadcast k x0 hx hfm
          rw [hfk] at this; cases this
          obtain ⟨x', n', ha', hat, _⟩ := (state_paths S.wf.heap S.hl S.state).1 k y hx
          obtain ⟨p, e, hp⟩ := hadr
          have hp' := (hwalk p x).1 hp
          obtain ⟨rfl, rfl⟩ := ha'.functional ⟨p, e, hp'⟩
          rw [← hat]
          simp only [attrAt, hgr.old _ hp'.lt]
      | none =>
        exfalso
        rw [hfk, Option.none_or] at hk
        cases h0 : s0.get k with
        | none =>
          have := (a.carry.2 k y).2 ⟨hk, a.coll.fresh k y h0 hk⟩
          rw [hn2] at this; cases this
        | some x0 =>
          obtain ⟨g, hfm, hg⟩ := S.first h0
          rcases Nat.lt_or_eq_of_le hg with hlt | heq
          · rcases Nat.lt_or_eq_of_le (Nat.le_of_lt_succ hlt) with hlt | heq
            · obtain ⟨t, ht, htk⟩ := hg2 k x0 g hlt h0 hfm
              rw [hn1 t ht] at htk; cases htk
            · rw [heq] at hfm
              rw [hfin.broadcast k x0 h0 hfm] at hfk; cases hfk
          · rw [heq] at hfm
            have := (a.carry.2 k y).2 ⟨hk, a.coll.stays k x0 y _ h0 hk hfm⟩
            rw [hn2] at this; cases this) (hgr.enough S.wf S.hl hfuel).choose_spec
  have hag : AgreeOn w.heap.length wd ws := by
    intro x hx
    constructor
    · intro n
      by_cases hr : Reaches w.heap l x
      · obtain ⟨q, hq⟩ := hr
        exact hin x n ⟨q, (hwalk q x).2 hq⟩
      · rw [hout x n (fun ⟨q, hq⟩ => hr ⟨q, (hwalk q x).1 hq⟩)]
        simp only [attrAt, hgr.old x hx, evd.others x hx hr]
    · have hi := evd.keeps.info x hx
      have ho : u.heap[x]? = some w.heap[x] := by rw [hgr.old x hx, List.getElem?_eq_getElem hx]
      have ha4 : x < ws.heap.length := by rw [so.len]; exact Nat.lt_of_lt_of_le hx hgr.len
      have ho4 : ws.heap[x]? = some ws.heap[x] := List.getElem?_eq_getElem ha4
      obtain ⟨e1, e2, e3, e4⟩ := so.obj x _ _ ho ho4
      refine Eq.trans ?_ hi.symm
      simp only [objInfo, ho4, List.getElem?_eq_getElem hx, Option.map_some, e1, e2, e3, e4]
  have houts : ys.map (·.out) = outs.map (·.2) := by
    clear hne hco hfin hw0 hkind hstack hsts hspec hg1 hg2
    induction h with
    | nil => rfl
    | cons h _ ih => simp only [List.map_cons, h.out.out_eq, ih]
  refine ⟨ws, ?_, hag, hag.sameGraph evd.wf hld ?_, so.jax.trans hgr.jax, so.stack.trans hgr.stack⟩
  · simp only [scanEnd, stackAxes, hsts, hnb', hnc', hu, houts]
  · rintro x ⟨q, hq⟩
    exact ((evd.walk S.wf S.hl q x).1 hq).lt

end Nnx
