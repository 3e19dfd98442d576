import Verif.Proofs.ScanNew
/-
The end of nnx.scan, with bodies that create variables.
-/
namespace Nnx
variable {α κ A B C : Type} [DecidableEq α]
variable {w : World α} {l : Loc} {o : ScanOptions α} {s0 : State (PyVal α)} {d : ModuleDef α} {ss0 : List (State (PyVal α))}
  {b c0 : State (PyVal α)} {R : Arrays α}

theorem IsStackedNew.axes' {after : List (State (PyVal α))} {fin : State (PyVal α)} (h : IsStackedNew R o s0 after fin) :
    ∀ k t x (g : Nat) f a, t ∈ after → t.get k = some x → o.variableAxes[g]? = some (f, a) → FirstMatch o.filters k x g →
    ∃ v, stackVals R a (after.filterMap fun t => t.get k) = some v ∧ fin.get k = some v := by
  intro k t x g f a h1 h2 h3 h4
  obtain ⟨y, h5, h6⟩ := h.axes k t x g f a h1 h2 h3 h4
  exact ⟨y, stackedVal_iff.1 h5, h6⟩

omit [DecidableEq α] in
/-- All trees are of the kind of the result. -/
theorem TreeOf.kind {g : List α → α → Prop} {us : List (PyVal α)} {v : PyVal α} (h : TreeOf g us v) : ∀ u ∈ us, SameKind u v := by
  intro u hu
  cases h with
  | none n => rw [List.eq_of_mem_replicate hu]; exact ⟨nofun, nofun⟩
  | array h => obtain ⟨a, _, rfl⟩ := List.mem_map.1 hu; exact ⟨nofun, nofun⟩
  | cont h =>
    obtain ⟨u', _, rfl⟩ := List.mem_map.1 hu
    refine ⟨?_, ?_⟩
    · intro c x m e; cases e; exact ⟨_, rfl⟩
    · intro c x m e; cases e; exact ⟨_, rfl⟩
  | tupNil n => rw [List.eq_of_mem_replicate hu]; exact ⟨nofun, nofun⟩
  | tupCons h1 h2 => obtain ⟨a, _, rfl⟩ := List.mem_map.1 hu; exact ⟨nofun, nofun⟩
  | dictNil n => rw [List.eq_of_mem_replicate hu]; exact ⟨nofun, nofun⟩
  | dictCons h1 h2 => obtain ⟨a, _, rfl⟩ := List.mem_map.1 hu; exact ⟨nofun, nofun⟩

omit [DecidableEq α] in
/-- Which entries are in a group. -/
theorem group_key {g : Nat} {t u : State (PyVal α)} (hgr : IsGroup o t g u) (k : Str) :
    (u.get k).isSome = true ↔ ∃ x, t.get k = some x ∧ FirstMatch o.filters k x g := by
  rw [Option.isSome_iff_exists]
  exact exists_congr fun y => hgr.2 k y

omit [DecidableEq α] in
theorem group_values_new (S : Setup w l o s0 d ss0 b c0) {after : List (State (PyVal α))} (hun : UniformNew o s0 after) {t0 : State (PyVal α)}
    (ht0 : t0 ∈ after) {k : Str} {x : PyVal α} {g : Nat} (hx : t0.get k = some x) (hfm : FirstMatch o.filters k x g)
    {outs : List (State (PyVal α) × B)} {gs : List (State (PyVal α))} (h : List.Forall₂ (fun t u => IsGroup o t.1 g u) outs gs) :
    (∀ t ∈ outs, t.1 ∈ after) → gs.filterMap (fun t => t.get k) = (outs.map (·.1)).filterMap fun t => t.get k := by
  induction h with
  | nil => intro _; rfl
  | @cons t u outs gs hgr _ ih =>
    intro hm
    have hrest := ih fun t ht => hm t (List.mem_cons_of_mem _ ht)
    obtain ⟨y, h1, h2⟩ := hun.same S ht0 (hm t List.mem_cons_self) hx hfm
    have : u.get k = t.1.get k := by rw [h1]; exact (hgr.2 k y).2 ⟨h1, h2⟩
    simp only [List.map_cons, List.filterMap_cons, this, hrest]

/-- The stacked axes state number `g`. -/
theorem stack_group_new (S : Setup w l o s0 d ss0 b c0) {outs : List (State (PyVal α) × B)} {ys : List (StepOut α B)}
    (h : List.Forall₂ (IsStepOut w l o) outs ys) (hne : outs ≠ []) (hun : UniformNew o s0 (outs.map (·.1))) {fin : State (PyVal α)}
    (hfin : IsStackedNew R o s0 (outs.map (·.1)) fin) {g : Nat} {f : Filter α} {a : Int} (hga : o.variableAxes[g]? = some (f, a)) :
    ∃ st, stackStates R a (ys.filterMap fun y => y.axes[g]?) = some st ∧ st.Canonical ∧
      (∀ k y, st.get k = some y → fin.get k = some y) ∧
      ∀ k t x, t ∈ outs.map (·.1) → t.get k = some x → FirstMatch o.filters k x g → (st.get k).isSome := by
  have hg : g < o.variableAxes.length := (List.getElem?_eq_some_iff.1 hga).1
  have hgs := groups_of hg h
  generalize (ys.filterMap fun y => y.axes[g]?) = gs at hgs
  cases hgs with
  | nil => exact absurd rfl hne
  | @cons t u outs gs hgr hgs =>
  have hmem : ∀ {outs : List (State (PyVal α) × B)} {gs : List (State (PyVal α))}, List.Forall₂ (fun t u => IsGroup o t.1 g u) outs gs →
      ∀ u ∈ gs, ∃ t ∈ outs, IsGroup o t.1 g u := by
    intro outs gs h
    induction h with
    | nil => nofun
    | cons h _ ih =>
      intro u hu
      rcases List.mem_cons.1 hu with rfl | hu
      · exact ⟨_, List.mem_cons_self, h⟩
      · obtain ⟨t, ht, h'⟩ := ih u hu
        exact ⟨t, List.mem_cons_of_mem _ ht, h'⟩
  have hkeys : ∀ u' ∈ u :: gs, ∀ t' ∈ t :: outs, ∀ k, (u'.get k).isSome = true ↔ ∃ x, t'.1.get k = some x ∧ FirstMatch o.filters k x g := by
    intro u' hu' t' ht' k
    obtain ⟨t1, ht1, hgr1⟩ := hmem (.cons hgr hgs) u' hu'
    rw [group_key hgr1]
    constructor
    · rintro ⟨x, h1, h2⟩; exact hun.same S (List.mem_map_of_mem ht1) (List.mem_map_of_mem ht') h1 h2
    · rintro ⟨x, h1, h2⟩; exact hun.same S (List.mem_map_of_mem ht') (List.mem_map_of_mem ht1) h1 h2
  have hvals : ∀ k x, t.1.get k = some x → FirstMatch o.filters k x g →
      stackVals R a ((u :: gs).filterMap fun t => t.get k) = fin.get k ∧ (fin.get k).isSome := by
    intro k x hx hfm
    obtain ⟨v, h1, h2⟩ := hfin.axes' k t.1 x g f a (by simp) hx hga hfm
    rw [group_values_new S hun (t0 := t.1) (by simp) hx hfm (.cons hgr hgs) (fun t ht => List.mem_map_of_mem ht), h1, h2]
    exact ⟨rfl, rfl⟩
  obtain ⟨st, hst, hc, hget⟩ := stackStates_spec (R := R) (axis := a) (s := u) (ss := gs) (by
      intro u' hu'
      obtain ⟨t', _, hgr'⟩ := hmem (.cons hgr hgs) u' hu'
      exact hgr'.1) (by
      intro u' hu' k
      rw [Bool.eq_iff_iff, hkeys u' (List.mem_cons_of_mem _ hu') t List.mem_cons_self k, hkeys u List.mem_cons_self t List.mem_cons_self k]) (by
      intro k hk
      obtain ⟨x, hx, hfm⟩ := (hkeys u List.mem_cons_self t List.mem_cons_self k).1 hk
      obtain ⟨h1, h2⟩ := hvals k x hx hfm
      rw [h1]; exact h2)
  refine ⟨st, hst, hc, ?_, ?_⟩
  · intro k y hy
    rw [hget] at hy
    split at hy
    · next hk =>
      obtain ⟨x, hx, hfm⟩ := (hkeys u List.mem_cons_self t List.mem_cons_self k).1 hk
      rw [← (hvals k x hx hfm).1, hy]
    · cases hy
  · intro k t' x ht' hx hfm
    obtain ⟨t1, ht1, rfl⟩ := List.mem_map.1 ht'
    have hu := (hkeys u List.mem_cons_self t1 ht1 k).2 ⟨x, hx, hfm⟩
    rw [hget, if_pos hu]
    obtain ⟨x1, hx1, hfm1⟩ := (hkeys u List.mem_cons_self t List.mem_cons_self k).1 hu
    obtain ⟨h1, h2⟩ := hvals k x1 hx1 hfm1
    rw [h1]; exact h2

/-- The final update replaces nodes by nodes of the same kind. -/
theorem final_kind (S : Setup w l o s0 d ss0 b c0) {vl : World α} {sl csl : State (PyVal α)} (a : AtNew w l o s0 vl sl csl)
    {outs : List (State (PyVal α) × B)} (hlast : sl ∈ outs.map (·.1)) {ys : List (StepOut α B)} (h : List.Forall₂ (IsStepOut w l o) outs ys)
    (hne : outs ≠ []) (hun : UniformNew o s0 (outs.map (·.1))) {fin : State (PyVal α)} (hfin : IsStackedNew R o s0 (outs.map (·.1)) fin)
    {vd : World α} {sd : State (PyVal α)} (evv : Evolves w vd l) (hsd : getState (vd.heap.length + 1) vd.heap l = some sd)
    (hgd : ∀ k y, sd.get k = some y ↔ sl.get k = some y ∧ ((s0.get k).isSome ∨ ∀ g, FirstMatch o.filters k y g → ¬ g = o.variableAxes.length)) :
    ∀ k y, fin.get k = some y → ∃ z, sd.get k = some z ∧ WFVal y ∧ y.isNode = true ∧ SameKind z y := by
  intro k y hk
  rcases hfin.only k y hk with ⟨t, x, g, ht, hx, hfm, hg⟩ | ⟨x, hx, hfm⟩
  · have hge : o.variableAxes[g]? = some (o.variableAxes[g].1, o.variableAxes[g].2) := List.getElem?_eq_getElem hg
    obtain ⟨z, hz, hzf⟩ := hun.same S ht hlast hx hfm
    have hzd : sd.get k = some z := (hgd k z).2 ⟨hz, .inr fun g' hg' e => by have := hg'.unique hzf; omega⟩
    obtain ⟨y', hy', hk'⟩ := hfin.axes k sl z g _ _ hlast hz hge hzf
    rw [hk] at hk'; cases hk'
    obtain ⟨hwf1, hnode1⟩ := a.ev.values S.hl a.state hz
    have hsk : SameKind z y := hy'.2.kind z (List.mem_filterMap.2 ⟨sl, hlast, hz⟩)
    -- the first iteration
    obtain ⟨t1, v1, rest, hm, hv1, ev1⟩ : ∃ t1 v1 rest, outs.map (·.1) = t1 :: rest ∧
        getState (v1.heap.length + 1) v1.heap l = some t1 ∧ Evolves w v1 l := by
      cases h with
      | nil => exact absurd rfl hne
      | cons h _ => obtain ⟨v, h1, h2⟩ := h.world; exact ⟨_, v, _, rfl, h2, h1⟩
    obtain ⟨z1, hz1, _⟩ := hun.same S hlast (t' := t1) (by rw [hm]; simp) hz hzf
    obtain ⟨hw1, hn1⟩ := ev1.values S.hl hv1 hz1
    have hy2 := stackedVal_iff.1 hy'
    rw [hm, List.filterMap_cons, hz1] at hy2
    obtain ⟨q1, q2, _⟩ := stackVals_like hy2 hw1 hn1
    exact ⟨z, hzd, q1, q2, hsk⟩
  · obtain ⟨z, hz, hsk⟩ := evv.state S.wf S.hl S.state hsd hx
    have := hfin.broadcast k x hx hfm
    rw [hk] at this; cases this
    obtain ⟨h1, h2⟩ := (Evolves.refl S.wf l).values S.hl S.state hx
    exact ⟨z, hz, h1, h2, hsk.symm⟩

/-- **The end of the scan.** -/
theorem scan_end_new (S : Setup w l o s0 d ss0 b c0) {vl : World α} {sl csl : State (PyVal α)} (a : AtNew w l o s0 vl sl csl)
    {outs : List (State (PyVal α) × B)} (hlast : sl ∈ outs.map (·.1)) {ys : List (StepOut α B)} (h : List.Forall₂ (IsStepOut w l o) outs ys)
    (hne : outs ≠ []) (hun : UniformNew o s0 (outs.map (·.1))) {fin : State (PyVal α)} (hfin : IsStackedNew R o s0 (outs.map (·.1)) fin)
    {vd : World α} (hdr : Dropped o s0 (· = o.variableAxes.length) l vl vd) {u : World α}
    (hgr : Grows w u) {ysNew : List (StepOut α B)} (hnb : ∀ y ∈ ysNew, y.bcastNew = ⟨[]⟩) (hnc : ∀ y ∈ ysNew, y.carryNew = ⟨[]⟩) (c' : C) :
    ∃ wd, updateState (vd.heap.length + 1) l [fin] vd = (wd, none) ∧ FinalState l vd fin wd ∧ ∀ fuel, getState fuel w.heap l = some s0 → ∃ ws,
      scanEnd R fuel o l (csl, c') ys ysNew u = (ws, .ok (c', outs.map (·.2))) ∧ AgreeOn w.heap.length wd ws ∧
      SameGraph wd.heap l ws.heap l ∧ ws.jaxTrace = w.jaxTrace ∧ ws.nnxStack = w.nnxStack := by
  obtain ⟨sd, evv, hsd, hgd⟩ := a.drop S hdr
  -- the direct update
  have hkind := final_kind S a hlast h hne hun hfin evv hsd hgd
  obtain ⟨wd, sf, hud, evd, hsf, hget, _, _⟩ := evv.update S.wf S.hl S.valid hsd hfin.sorted hkind
  refine ⟨wd, hud, ⟨evd.wf, Nat.lt_of_lt_of_le S.hl evd.keeps.len, sd, sf, hsd, hsf, hget⟩, ?_⟩
  intro fuel hfuel
  -- the stacked states
  have hstack : ∀ fa ∈ o.variableAxes.zipIdx, (stackStates R fa.1.2 (ys.filterMap fun y => y.axes[fa.2]?)).isSome := by
    rintro ⟨⟨f, ax⟩, g⟩ hm
    obtain ⟨st, hst, _⟩ := stack_group_new S h hne hun hfin (List.mem_zipIdx_iff_getElem?.1 hm)
    rw [hst]; rfl
  obtain ⟨sts, hsts⟩ := allSome_exists (fun fa : (Filter α × Int) × Nat => stackStates R fa.1.2 (ys.filterMap fun y => y.axes[fa.2]?)) _ hstack
  obtain ⟨hlen, hspec⟩ := allSome_map_spec _ _ hsts
  rw [List.length_zipIdx] at hlen
  have hg1 : ∀ t ∈ sts, t.Canonical ∧ ∀ k y, t.get k = some y → fin.get k = some y := by
    intro t ht
    obtain ⟨g, hg, rfl⟩ := List.getElem_of_mem ht
    have hg' : g < o.variableAxes.length := hlen ▸ hg
    have hz : o.variableAxes.zipIdx[g]? = some (o.variableAxes[g], g) := by
      rw [List.getElem?_zipIdx, List.getElem?_eq_getElem hg']; simp
    obtain ⟨st, h1, h2⟩ := hspec g _ hz
    obtain ⟨st', h3, h4, h5, _⟩ := stack_group_new (R := R) S h hne hun hfin (f := o.variableAxes[g].1) (a := o.variableAxes[g].2)
      (List.getElem?_eq_getElem hg')
    rw [h3] at h1
    cases h1
    rw [List.getElem?_eq_getElem hg] at h2
    cases h2
    exact ⟨h4, h5⟩
  have hg2 : ∀ k x g, g < o.variableAxes.length → sl.get k = some x → FirstMatch o.filters k x g → ∃ t ∈ sts, (t.get k).isSome := by
    intro k x g hg hx hfm
    have hz : o.variableAxes.zipIdx[g]? = some (o.variableAxes[g], g) := by
      rw [List.getElem?_zipIdx, List.getElem?_eq_getElem hg]; simp
    obtain ⟨st, h1, h2⟩ := hspec g _ hz
    obtain ⟨st', h3, h4, _, h5⟩ := stack_group_new (R := R) S h hne hun hfin (f := o.variableAxes[g].1) (a := o.variableAxes[g].2)
      (List.getElem?_eq_getElem hg)
    rw [h3] at h1
    cases h1
    exact ⟨_, List.mem_of_getElem? h2, h5 k sl x hlast hx hfm⟩
  have hnb' : stackStates R 0 (ysNew.map (·.bcastNew)) = some ⟨[]⟩ := stackStates_empty (by
    intro t ht; obtain ⟨y, hy, rfl⟩ := List.mem_map.1 ht; exact hnb y hy)
  have hnc' : stackStates R 0 (ysNew.map (·.carryNew)) = some ⟨[]⟩ := stackStates_empty (by
    intro t ht; obtain ⟨y, hy, rfl⟩ := List.mem_map.1 ht; exact hnc y hy)
  -- writing back
  obtain ⟨hwalk, hnw⟩ := evd.nodes.writes.transfer S.wf.heap S.hl hgr.len hgr.old
  have hlu := Nat.lt_of_lt_of_le S.hl hgr.len
  have hld := Nat.lt_of_lt_of_le S.hl evd.keeps.len
  have hnone : ∀ k, given (sts ++ [csl, ⟨[]⟩, ⟨[]⟩]) k = none → (∀ t ∈ sts, t.get k = none) ∧ csl.get k = none := by
    intro k hk
    rw [given, List.findSome?_eq_none_iff] at hk
    exact ⟨fun t ht => hk t (by simp [ht]), hk csl (by simp)⟩
  obtain ⟨ws, hu, so, hin, hout⟩ := update_from_all hgr.wf evd.wf hlu hld
    (fun q c => (evd.walk S.wf S.hl q c).trans (hwalk q c).symm) (by
      rintro x ob ⟨q, hq⟩ ho
      have hq' := (hwalk q x).1 hq
      rw [hgr.old x hq'.lt] at ho
      have := S.valid x ob ⟨q, hq'⟩ ho
      rw [traceValid_eq] at this ⊢
      rw [this]
      simp only [World.curTrace, hgr.jax, hgr.stack]) hnw hsf (us := sts ++ [csl, ⟨[]⟩, ⟨[]⟩]) (by
      intro t ht
      simp only [List.mem_append, List.mem_cons, List.not_mem_nil, or_false] at ht
      rcases ht with ht | rfl | rfl | rfl
      · exact (hg1 t ht).1
      · exact a.carry.1
      · exact List.Pairwise.nil
      · exact List.Pairwise.nil) (by
      intro t ht k y hk
      rw [hget]
      simp only [List.mem_append, List.mem_cons, List.not_mem_nil, or_false] at ht
      rcases ht with ht | rfl | rfl | rfl
      · rw [(hg1 t ht).2 k y hk]; rfl
      · obtain ⟨h1, h2⟩ := (a.carry.2 k y).1 hk
        have h3 : sd.get k = some y := (hgd k y).2 ⟨h1, .inr fun g' hg' e => by have := hg'.unique h2; omega⟩
        cases hfk : fin.get k with
        | none => rw [h3]; rfl
        | some z =>
          exfalso
          rcases hfin.only k z hfk with ⟨t, x, g, ht, hx, hfm, hg⟩ | ⟨x, hx, hfm⟩
          · obtain ⟨y', h4, h5⟩ := hun.same S ht hlast hx hfm
            rw [h1] at h4; cases h4
            have := h5.unique h2
            omega
          · have := (a.coll.stays k x y _ hx h1 hfm).unique h2
            omega
      · cases hk
      · cases hk) (by
      intro k y x n hk hgiv hadr
      obtain ⟨hn1, hn2⟩ := hnone k hgiv
      rw [hget] at hk
      cases hfk : fin.get k with
      | some z =>
        rw [hfk] at hk
        cases hk
        rcases hfin.only k y hfk with ⟨t, x0, g, ht, hx, hfm, hg⟩ | ⟨x0, hx, hfm⟩
        · obtain ⟨y', h4, h5⟩ := hun.same S ht hlast hx hfm
          obtain ⟨t, ht, htk⟩ := hg2 k y' g hg h4 h5
          rw [hn1 t ht] at htk; cases htk
        · have := hfin.broadcast k x0 hx hfm
          rw [hfk] at this; cases this
          obtain ⟨x', n', ha', hat, _⟩ := (state_paths S.wf.heap S.hl S.state).1 k y hx
          obtain ⟨p, e, hp⟩ := hadr
          have hp' := (hwalk p x).1 hp
          obtain ⟨rfl, rfl⟩ := ha'.functional ⟨p, e, hp'⟩
          rw [← hat]
          simp only [attrAt, hgr.old _ hp'.lt]
      | none =>
        exfalso
        rw [hfk, Option.none_or] at hk
        obtain ⟨hk1, hk2⟩ := (hgd k y).1 hk
        obtain ⟨g, hfm⟩ := S.matchedNew a.coll hk1
        have hgl := hfm.lt
        rw [filters_length] at hgl
        rcases Nat.lt_trichotomy g o.variableAxes.length with hlt | heq | hgt
        · obtain ⟨t, ht, htk⟩ := hg2 k y g hlt hk1 hfm
          rw [hn1 t ht] at htk; cases htk
        · rcases hk2 with hk2 | hk2
          · obtain ⟨x0, h0⟩ := Option.isSome_iff_exists.1 hk2
            obtain ⟨g', hfm0, _⟩ := S.first h0
            have := (a.coll.stays k x0 y g' h0 hk1 hfm0).unique hfm
            subst this
            rw [heq] at hfm0
            rw [hfin.broadcast k x0 h0 hfm0] at hfk; cases hfk
          · exact hk2 g hfm heq
        · have : g = o.variableAxes.length + 1 := by omega
          subst this
          have := (a.carry.2 k y).2 ⟨hk1, hfm⟩
          rw [hn2] at this; cases this) (hgr.enough S.wf S.hl hfuel).choose_spec
  have hag : AgreeOn w.heap.length wd ws := by
    intro x hx
    constructor
    · intro n
      by_cases hr : Reaches w.heap l x
      · obtain ⟨q, hq⟩ := hr
        exact hin x n ⟨q, (hwalk q x).2 hq⟩
      · rw [hout x n (fun ⟨q, hq⟩ => hr ⟨q, (hwalk q x).1 hq⟩)]
        simp only [attrAt, hgr.old x hx, evd.others x hx hr]
    · have hi := evd.keeps.info x hx
      have ho : u.heap[x]? = some w.heap[x] := by rw [hgr.old x hx, List.getElem?_eq_getElem hx]
      have ha4 : x < ws.heap.length := by rw [so.len]; exact Nat.lt_of_lt_of_le hx hgr.len
      have ho4 : ws.heap[x]? = some ws.heap[x] := List.getElem?_eq_getElem ha4
      obtain ⟨e1, e2, e3, e4⟩ := so.obj x _ _ ho ho4
      refine Eq.trans ?_ hi.symm
      simp only [objInfo, ho4, List.getElem?_eq_getElem hx, Option.map_some, e1, e2, e3, e4]
  have houts : ys.map (·.out) = outs.map (·.2) := by
    clear hne hun hfin hlast hkind hstack hsts hspec hg1 hg2
    induction h with
    | nil => rfl
    | cons h _ ih => simp only [List.map_cons, h.out.out_eq, ih]
  refine ⟨ws, ?_, hag, hag.sameGraph evd.wf hld ?_, so.jax.trans hgr.jax, so.stack.trans hgr.stack⟩
  · simp only [scanEnd, stackAxes, hsts, hnb', hnc', hu, houts]
  · rintro x ⟨q, hq⟩
    exact ((evd.walk S.wf S.hl q x).1 hq).lt

/-- From the scan up to its end to the whole scan. -/
theorem CoreRunNew.same (S : Setup w l o s0 d ss0 b c0) {vl : World α} {outs : List (State (PyVal α) × B)} {c' : C} {xs : List (StepIn α κ A)}
    {j : Nat} {f : Option (PureContext κ) → C → Option A → Loc → World α → World α × Except Err (C × B)} {c : C}
    {sl csl : State (PyVal α)} {ys ysNew : List (StepOut α B)} {u' : World α}
    (h : CoreRunNew w l o s0 vl outs c' w (fun fuel => scanCore fuel o j d b f (c0, c) xs w) sl csl ys ysNew u')
    (hne : outs ≠ []) (hun : UniformNew o s0 (outs.map (·.1))) {fin : State (PyVal α)} (hfin : IsStackedNew R o s0 (outs.map (·.1)) fin)
    {vd : World α} (hdr : Dropped o s0 (· = o.variableAxes.length) l vl vd) :
    SameAsLoop w l vd fin c' (outs.map (·.2)) (fun fuel => scanRun R fuel o j d b l f (c0, c) xs w) := by
  obtain ⟨wd, hud, hfs, hend⟩ := scan_end_new S h.at_ h.last h.outs hne hun hfin hdr h.grows h.bcast h.carry c'
  refine ⟨wd, hud, hfs, ?_⟩
  intro fuel hf
  obtain ⟨s, hf⟩ := Option.isSome_iff_exists.1 hf
  have := getState_det S.wf.heap S.hl hf S.state
  subst this
  obtain ⟨ws, hws, rest⟩ := hend fuel hf
  refine ⟨ws, ?_, rest⟩
  dsimp only
  rw [scanRun_core, h.eq fuel hf]
  exact hws

/-- The scan, if there are no new entries of the carry collection; in either direction. -/
theorem run_either_new (S : Setup w l o s0 d ss0 b c0) {body : Option (PureContext κ) × Option A → C → Loc → World α → World α × Except Err (C × B)}
    (hb : ∀ x c, Parametric (body x c)) (j : Nat) {vl : World α} {c c' : C} {ins outs} (run : FreshLoop o s0 body l w c ins vl c' outs) (hne : ins ≠ [])
    {xs : List (StepIn α κ A)} (hm : List.Forall₂ (Matched R o s0 ss0) ins (if o.reverse then xs.reverse else xs))
    (hun : UniformNew o s0 (outs.map (·.1))) (hno : ∀ t ∈ outs, ∀ k, CarryKey o t.1 k → (s0.get k).isSome = true) {fin : State (PyVal α)}
    (hfin : IsStackedNew R o s0 ((if o.reverse then outs.reverse else outs).map (·.1)) fin)
    {vd : World α} (hdr : Dropped o s0 (· = o.variableAxes.length) l vl vd) :
    SameAsLoop w l vd fin c' ((if o.reverse then outs.reverse else outs).map (·.2))
      (fun fuel => scanRun R fuel o j d b l (scanBody body) (c0, c) xs w) := by
  obtain ⟨hne', _, _, _, _, _, hcr⟩ := core_either_new S hb j run hne hm hun hno S.wf
  refine hcr.same S (by split <;> simpa using hne') (hun.perm ?_) hfin hdr
  intro t ht
  split at ht
  · simpa using ht
  · exact ht

/-- The scan in forward direction. -/
theorem run_forward_new (S : Setup w l o s0 d ss0 b c0) {body : Option (PureContext κ) × Option A → C → Loc → World α → World α × Except Err (C × B)}
    (hb : ∀ x c, Parametric (body x c)) (j : Nat) {vl : World α} {c c' : C} {ins outs} (run : FreshLoop o s0 body l w c ins vl c' outs) (hne : ins ≠ [])
    {xs : List (StepIn α κ A)} (hm : List.Forall₂ (Matched R o s0 ss0) ins xs) (hrev : o.reverse = false)
    (hun : UniformNew o s0 (outs.map (·.1))) {fin : State (PyVal α)} (hfin : IsStackedNew R o s0 (outs.map (·.1)) fin)
    {vd : World α} (hdr : Dropped o s0 (· = o.variableAxes.length) l vl vd) :
    SameAsLoop w l vd fin c' (outs.map (·.2)) (fun fuel => scanRun R fuel o j d b l (scanBody body) (c0, c) xs w) := by
  obtain ⟨hne', _, _, _, _, _, hcr⟩ := core_forward_new S hb j run hne hm hrev hun S.wf
  exact hcr.same S hne' hun hfin hdr

omit [DecidableEq α] in
/-- The variables can always be dropped. -/
theorem dropped_exists (o : ScanOptions α) (s0 : State (PyVal α)) (P : Nat → Prop) {v : World α} (wf : WFWorld v) {l : Loc} (hl : l < v.heap.length) :
    ∃ v', Dropped o s0 P l v v' := by
  classical
  obtain ⟨s, hs⟩ := getState_exists wf.heap hl (Nat.lt_succ_self _)
  exact ⟨_, fun a n => decide (∃ k y g, s.get k = some y ∧ s0.get k = none ∧ FirstMatch o.filters k y g ∧ P g ∧ Addresses v.heap l k a n),
    s, hs, rfl, fun a n => by rw [decide_eq_true_iff]⟩

end Nnx
