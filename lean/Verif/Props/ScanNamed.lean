import Verif.Proofs.ScanNamedEnd
import Verif.Props.Scan
/-
C79: nnx.scan with a partition name.
-/
namespace Nnx
variable {α κ A B C : Type} [DecidableEq α]

theorem named_outs {w w' : World α} {l : Loc} {o : ScanOptions α} {name : PyVal α} {s0 : State (PyVal α)}
    {d : ModuleDef α} {ss0 ss' : List (State (PyVal α))} {b c0 s' : State (PyVal α)}
    (S : Setup w l o.plain s0 d ss0 b c0) (S' : Setup w' l o.plain s' d ss' b c0) (US : UnnamedState o name s0 s')
    (hname : dget o.metadata kPartitionName = some name) {outs : List (State (PyVal α) × B)} {ys : List (StepOut α B)}
    (h : List.Forall₂ (IsStepOut w' l o.plain) outs ys) (hco : ∀ t ∈ outs, InColl o.plain s' t.1) :
    ∀ y ∈ ys, NamedOut o y (renameOut o s0 y) := by
  induction h with
  | nil => nofun
  | cons h _ ih =>
    intro y hy
    rcases List.mem_cons.1 hy with rfl | hy
    · exact named_out S S' US hname h (hco _ List.mem_cons_self)
    · exact ih (fun t ht => hco t (List.mem_cons_of_mem _ ht)) y hy

/-- **C79.** With a `partition_name` in the metadata, the body sees the variables of the `variable_axes` collections without the name of
the scanned axis in their sharding, and after the scan they have it again. Let `w'` be the world `w` with the name taken out of the
sharding of these variables. If the loop over the slices runs from there, the scan in `w` returns what it returns. The variables of the
`variable_axes` collections have the stacked values, and the metadata they had before the scan; all others are as after the loop and the
final update. The structure of the module, the flags and ids, and all that is not a variable of the module, is as it was. -/
theorem C79_scan_named {w w' : World α} (wf : WFWorld w) (wf' : WFWorld w') {l : Loc} (hl : l < w.heap.length) (hv : AllValid w l)
    {o : ScanOptions α} {fuel : Nat} {s0 : State (PyVal α)} (hs : getState fuel w.heap l = some s0) {ss}
    (hp : s0.partition o.filters = .ok ss) {name : PyVal α} (hname : dget o.metadata kPartitionName = some name) (hrev : o.reverse = false)
    (hun' : Unnamed o name l s0 w w') {s' : State (PyVal α)} (hs' : getState fuel w'.heap l = some s')
    {R : Arrays α} {xs : Option (List A)} {n : Nat} (hlen : HasLength R o s0 xs n) (hn : 0 < n)
    {split : κ → Nat → Nat → κ} {p : Str → Bool} {ctx : Option (PureContext κ)}
    (hsel : ctx.isSome = true → toRngPredicate o.splitRngs = .ok p) {ins}
    (hins : LoopInputs R o s' xs (fun i => ctx.map (stepCtx split p n i)) n ins)
    {body : Option (PureContext κ) × Option A → C → Prog α (C × B)} (hb : ∀ x c, (body x c).Good)
    {c c' : C} {vl : World α} {outs} (run : LoopRun (calls body) l w' c ins vl c' outs) (hun : Uniform o s' (outs.map (·.1)))
    {fin} (hfin : IsStacked R o s' (outs.map (·.1)) fin) (j : Nat)
    {sl : State (PyVal α)} (hsl : getState (vl.heap.length + 1) vl.heap l = some sl) :
    ∃ ws sf,
      scanApply R split fuel o j l (scanBody (calls body)) c xs ctx w = (ws, .ok (c', outs.map (·.2))) ∧
      getState (ws.heap.length + 1) ws.heap l = some sf ∧
      (∀ k, sf.get k = match fin.get k with
        | some v => some (newValue ((s0.get k).map .val) v)
        | none => sl.get k) ∧
      (∀ q x, Walk ws.heap l q x ↔ Walk w.heap l q x) ∧ WFWorld ws ∧ Keeps w ws ∧
      ∀ x m, x < w.heap.length → (∀ k, (sl.get k).isSome → ¬ Addresses w.heap l k x m) → attrAt ws.heap x m = attrAt w.heap x m := by
  obtain ⟨d, b, c0, S, hsp, hpm⟩ := scan_setup (o := o.plain) wf hl hv hs hp rfl
  obtain ⟨US, ss', S'⟩ := hun'.setup S wf' hs'
  have hins' : LoopInputs R o.plain s' xs (fun i => ctx.map (stepCtx split p n i)) n ins :=
    ⟨hins.1, fun i inp x hi => ⟨⟨(hins.2 i inp x hi).1.sorted, (hins.2 i inp x hi).1.axes, (hins.2 i inp x hi).1.broadcast,
      (hins.2 i inp x hi).1.only⟩, (hins.2 i inp x hi).2⟩⟩
  have hunp : Uniform o.plain s' (outs.map (·.1)) := ⟨hun.paths, hun.stays, hun.fresh, hun.arrays, hun.trees⟩
  have hfinp : IsStacked R o.plain s' (outs.map (·.1)) fin := ⟨hfin.sorted, hfin.axes, hfin.broadcast, hfin.only⟩
  have hlenp : HasLength R o.plain s0 xs n := ⟨hlen.leaves, hlen.arg, hlen.option, hlen.known⟩
  -- the slices
  obtain ⟨xsS', hxs', hm⟩ := slices_exist S' hlen.arg hins'
  obtain ⟨hxl', hxat'⟩ := allSome_map_spec _ _ hxs'
  have hstep : ∀ i < n, ∃ x x', stepIn R o (ss.take o.variableAxes.length) xs (fun i => ctx.map (stepCtx split p n i)) i = some x ∧
      xsS'[i]? = some x' ∧ NamedIn o x x' := by
    intro i hi
    obtain ⟨x', h1, h2⟩ := hxat' i i (by rw [List.getElem?_range hi])
    obtain ⟨x, h3, h4⟩ := stepIn_named S S' US hname
      (show stepIn R o (ss'.take o.variableAxes.length) xs (fun i => ctx.map (stepCtx split p n i)) i = some x' from h1)
    exact ⟨x, x', h3, h2, h4⟩
  obtain ⟨xsS, hxs⟩ := allSome_exists (stepIn R o (ss.take o.variableAxes.length) xs (fun i => ctx.map (stepCtx split p n i)))
    (List.range n) (by
      intro i hi
      obtain ⟨x, _, h1, _⟩ := hstep i (List.mem_range.1 hi)
      rw [h1]; rfl)
  obtain ⟨hxl, hxat⟩ := allSome_map_spec _ _ hxs
  rw [List.length_range] at hxl hxl'
  have hnamed : List.Forall₂ (NamedIn o) xsS xsS' := by
    refine List.forall₂_iff_get.2 ⟨hxl.trans hxl'.symm, ?_⟩
    intro i h1 h2
    obtain ⟨x, x', h3, h4, h5⟩ := hstep i (hxl ▸ h1)
    obtain ⟨y, h6, h7⟩ := hxat i i (by rw [List.getElem?_range (hxl ▸ h1)])
    rw [h3] at h6; cases h6
    simp only [List.get_eq_getElem, (List.getElem?_eq_some_iff.1 h7).2, (List.getElem?_eq_some_iff.1 h4).2]
    exact h5
  -- the loop
  have hco : ∀ t ∈ outs, InColl o.plain s' t.1 := fun t ht => hunp.inColl (List.mem_map_of_mem ht)
  obtain ⟨hne, sl', csl, ys, ysNew, u', cr⟩ := core_forward (body := calls body) S' (fun x c => (hb x c).parametric) j run
    (by rintro rfl; rw [← hins.1] at hn; exact Nat.lt_irrefl _ hn) hm hrev hunp wf
  obtain ⟨pre, hpre⟩ := cr.sub
  have hsame : sl' = sl := by have := cr.at_.state; rw [hsl] at this; cases this; rfl
  subst hsame
  have hnout := named_outs S S' US hname cr.outs hco
  have hfa : ∀ zs : List (StepOut α B), (∀ y ∈ zs, NamedOut o y (renameOut o s0 y)) → List.Forall₂ (NamedOut o) zs (zs.map (renameOut o s0)) := by
    intro zs hz
    rw [List.forall₂_map_right_iff]
    exact List.forall₂_same.2 hz
  have hcore := cr.eq fuel hs'
  rw [hpre] at hcore
  have hcore' := scanCore_named hrev hnamed hcore (hfa pre fun y hy => hnout y (by rw [hpre]; exact List.mem_append_left _ hy))
    (hfa ysNew fun y hy => hnout y (by rw [hpre]; exact List.mem_append_right _ hy))
  rw [← List.map_append, ← hpre] at hcore'
  obtain ⟨ws, sf, hend, wfs, so, hsf, hget, hwalk, hframe⟩ := named_end S S' hun' US cr.at_ cr.outs hne hco hfinp cr.grows cr.bcast cr.carry c'
    hs
  have hkeep : Keeps w ws := by
    refine ⟨so.jax.trans cr.grows.jax, so.stack.trans cr.grows.stack, by rw [so.len]; exact cr.grows.len, ?_⟩
    intro a ha
    rw [objInfo_of_same so a (Nat.lt_of_lt_of_le ha cr.grows.len)]
    simp only [objInfo, cr.grows.old a ha]
  refine ⟨ws, sf, ?_, hsf, ?_, hwalk, wfs, hkeep, ?_⟩
  · have haa : AxesArrays R o.plain s0 := by
      intro k x g f a hk hf hfm
      obtain ⟨ls, hx, hn⟩ := hlen.leaves' k x g f a hk hf hfm
      exact ⟨ls, hx, fun y hy => by rw [hn y hy]; rfl⟩
    obtain ⟨sizes, hsz, hnn⟩ := length_iff S haa xs
    have hL : scanLength o (sizes.flatten ++ (xs.map List.length).toList) = .ok n := (hnn n).2 hlenp
    have hpm' : partitionModule fuel w.heap l o.filters = .ok (ss, d) := hpm fuel hs
    have hsp' : splitGroups o.variableAxes.length ss = some (ss.take o.variableAxes.length, b, c0) := hsp
    have hsz' : allSome (((ss.take o.variableAxes.length).zip (o.variableAxes.map (·.2))).map fun sa => leafSizes R sa.2 sa.1) = some sizes := hsz
    rw [show scanApply R split fuel o j l (scanBody (calls body)) c xs ctx w = scanRun R fuel o j d b l (scanBody (calls body)) (c0, c) xsS w from ?_]
    · rw [scanRun_core, hcore']
      exact hend
    · cases ctx with
      | none =>
        simp only [scanApply, hpm', hsp', hsz', hL, Option.isSome_none, Bool.false_eq_true, if_false]
        simp only [Option.map_none] at hxs ⊢
        rw [hxs]
      | some cx =>
        simp only [scanApply, hpm', hsp', hsz', hL, Option.isSome_some, if_true, hsel rfl, hxs]
  · intro k
    rw [hget k, finalGet]
    cases fin.get k <;> rfl
  · intro x m hx hno
    rw [hframe x m hno]
    simp only [attrAt, cr.grows.old x hx]

/-! ### Wrong names -/

omit [DecidableEq α] in
theorem mapExcept_raises {X Y : Type} {f : X → Except Err Y} : ∀ {xs : List X}, (∃ x ∈ xs, ∃ e, f x = .error e) →
    ∃ x ∈ xs, ∃ e, f x = .error e ∧ mapExcept f xs = .error e := by
  intro xs
  induction xs with
  | nil => rintro ⟨x, hx, _⟩; cases hx
  | cons x xs ih =>
    rintro ⟨z, hz, e, he⟩
    cases hx : f x with
    | error e' => exact ⟨x, List.mem_cons_self, e', hx, by simp only [mapExcept, hx]⟩
    | ok y =>
      obtain ⟨x1, h1, e1, h2, h3⟩ := ih (by
        rcases List.mem_cons.1 hz with rfl | hz
        · rw [hx] at he; cases he
        · exact ⟨z, hz, e, he⟩)
      exact ⟨x1, List.mem_cons_of_mem _ h1, e1, h2, by simp only [mapExcept, hx, h3]⟩

/-- The exceptions of `remove_axis`. -/
theorem removeAxisLeaf_error {i : Int} {name x : PyVal α} {e : Err} (hx : WFVal x) (h : removeAxisLeaf i name x = .error e) :
    e = .indexError ∨ e = .assertionError := by
  simp only [removeAxisLeaf] at h
  cases hs : shardingOf x with
  | none => rw [hs] at h; cases h
  | some xs =>
    rw [hs] at h
    dsimp only at h
    cases hp : pyPop xs i with
    | none => rw [hp] at h; cases h; exact .inl rfl
    | some r =>
      obtain ⟨y, ys⟩ := r
      rw [hp] at h
      dsimp only at h
      split at h
      · obtain ⟨c, v, m, rfl, _⟩ := shardingOf_some hs
        rw [replace_sharding (wfVal_container hx) hs] at h; cases h
      · cases h; exact .inr rfl

omit [DecidableEq α] in
theorem shardingOf_mapLeaves {g : α → Option α} {x y : PyVal α} (h : x.mapLeaves g = some y) :
    shardingOf y = shardingOf x := shardingOf_kind (mapLeaves_like h).2.2

/-- **C79, wrong names.** If a variable of a `variable_axes` collection has a sharding, and its entry at the scanned axis is not the
partition name, the scan raises IndexError or AssertionError before the body runs and changes nothing. -/
theorem C79_wrong_name {w : World α} (wf : WFWorld w) {l : Loc} (hl : l < w.heap.length) (hv : AllValid w l)
    {o : ScanOptions α} {fuel : Nat} {s0 : State (PyVal α)} (hs : getState fuel w.heap l = some s0) {ss}
    (hp : s0.partition o.filters = .ok ss) {name : PyVal α} (hname : dget o.metadata kPartitionName = some name)
    {R : Arrays α} {xs : Option (List A)} {n : Nat} (hlen : HasLength R o s0 xs n) (hn : 0 < n)
    {split : κ → Nat → Nat → κ} {p : Str → Bool} {ctx : Option (PureContext κ)}
    (hsel : ctx.isSome = true → toRngPredicate o.splitRngs = .ok p) {ins}
    (hins : LoopInputs R o s0 xs (fun i => ctx.map (stepCtx split p n i)) n ins)
    {k : Str} {x : PyVal α} {g : Nat} {f : Filter α} {i : Nat} (hk : s0.get k = some x) (hg : o.variableAxes[g]? = some (f, (i : Int)))
    (hfm : FirstMatch o.filters k x g) {axes : List (PyVal α)} (hsh : shardingOf x = some axes) (hbad : axes[i]? ≠ some name)
    (body : Option (PureContext κ) → C → Option A → Loc → World α → World α × Except Err (C × B)) (c : C) (j : Nat) :
    ∃ e, (e = .indexError ∨ e = .assertionError) ∧ scanApply R split fuel o j l body c xs ctx w = (w, .error e) := by
  obtain ⟨d, b, c0, S, hsp, hpm⟩ := scan_setup (o := o.plain) wf hl hv hs hp rfl
  have hins' : LoopInputs R o.plain s0 xs (fun i => ctx.map (stepCtx split p n i)) n ins :=
    ⟨hins.1, fun i inp x hi => ⟨⟨(hins.2 i inp x hi).1.sorted, (hins.2 i inp x hi).1.axes, (hins.2 i inp x hi).1.broadcast,
      (hins.2 i inp x hi).1.only⟩, (hins.2 i inp x hi).2⟩⟩
  have hlenp : HasLength R o.plain s0 xs n := ⟨hlen.leaves, hlen.arg, hlen.option, hlen.known⟩
  obtain ⟨xsS, hxs, hm⟩ := slices_exist S hlen.arg hins'
  -- the axes of a step
  have hstep : ∀ y ∈ xsS, ∃ e, (e = .indexError ∨ e = .assertionError) ∧ onAxes removeAxis o y.axes = .error e := by
    intro y hy
    have hmat : ∀ {ins : List (State (PyVal α) × (Option (PureContext κ) × Option A))} {ys : List (StepIn α κ A)},
        List.Forall₂ (Matched R o.plain s0 ss) ins ys → ∀ y ∈ ys, ∃ i, IsAxes R o.plain ss i y.axes := by
      intro ins ys h
      induction h with
      | nil => nofun
      | cons h _ ih =>
        intro y hy
        rcases List.mem_cons.1 hy with rfl | hy
        · obtain ⟨i, _, h, _⟩ := h; exact ⟨i, h⟩
        · exact ih y hy
    obtain ⟨q, hlen', hax⟩ := hmat hm y hy
    have hd : dhas o.metadata kPartitionName = true := by simp only [dhas, hname, Option.isSome_some]
    simp only [onAxes, hd, if_true]
    -- the values of a slice
    have hval : ∀ (g' : Nat) f' a t r, o.variableAxes[g']? = some (f', a) → ss[g']? = some t → sliceState R a q t = some r →
        r.Canonical ∧ ∀ k' y', r.get k' = some y' → ∃ x', t.get k' = some x' ∧ x'.mapLeaves (R.index a q) = some y' ∧ WFVal y' ∧
          shardingOf y' = shardingOf x' := by
      intro g' f' a t r hg' ht hr
      have hgr := S.group ht
      obtain ⟨h1, h2⟩ := mapVals_spec hgr.1 hr
      refine ⟨h1, ?_⟩
      intro k' y' hk'
      rw [h2] at hk'
      obtain ⟨x', h3, h4⟩ := Option.bind_eq_some_iff.1 hk'
      obtain ⟨h5, h6⟩ := (Evolves.refl S.wf l).values S.hl S.state ((hgr.2 k' x').1 h3).1
      exact ⟨x', h3, h4, mapLeaves_wf h4 h5, shardingOf_mapLeaves h4⟩
    obtain ⟨t, ht⟩ := S.axis (List.getElem?_eq_some_iff.1 hg).1
    obtain ⟨r, hr, hyr⟩ := hax g f i t hg ht
    obtain ⟨hcr, hrv⟩ := hval g f i t r hg ht hr
    have htk := ((S.group ht).2 k x).2 ⟨hk, hfm⟩
    have hrk : (r.get k).isSome := by rw [mapVals_keys (S.group ht).1 hr, htk]; rfl
    obtain ⟨y1, hy1⟩ := Option.isSome_iff_exists.1 hrk
    obtain ⟨x1, h1, _, h3, h4⟩ := hrv k y1 hy1
    rw [htk] at h1; cases h1
    have hleaf : ∃ e, removeAxisLeaf i name y1 = .error e := by
      simp only [removeAxisLeaf, h4, hsh, pyPop_nat]
      cases hxi : axes[i]? with
      | none => exact ⟨_, rfl⟩
      | some z =>
        have : z ≠ name := by rintro rfl; exact hbad hxi
        exact ⟨.assertionError, by simp only [Option.map_some, if_neg this]⟩
    have hrem : ∃ e, removeAxis r i o.metadata = .error e := by
      obtain ⟨e, he⟩ := hleaf
      obtain ⟨_, _, e', _, h6⟩ := mapExcept_raises (f := removeAxisLeaf i name) (xs := r.flatten.1) ⟨y1, by
        simp only [State.flatten, State.items, List.mem_map]
        exact ⟨(k, y1), dget_mem hy1, rfl⟩, e, he⟩
      exact ⟨e', by simp only [removeAxis, hname, State.treeMapExcept, h6]⟩
    obtain ⟨e, he⟩ := hrem
    obtain ⟨⟨r2, a2⟩, h5, e2, h6, h7⟩ := mapExcept_raises (f := fun sa : State (PyVal α) × Int => removeAxis sa.1 sa.2 o.metadata)
      (xs := y.axes.zip (o.variableAxes.map (·.2))) ⟨(r, i), by
        refine List.mem_of_getElem? (i := g) ?_
        rw [List.getElem?_zip_eq_some, List.getElem?_map, hg]
        exact ⟨hyr, rfl⟩, e, he⟩
    refine ⟨e2, ?_, h7⟩
    obtain ⟨g2, hg2⟩ := List.getElem?_of_mem h5
    rw [List.getElem?_zip_eq_some, List.getElem?_map, Option.map_eq_some_iff] at hg2
    obtain ⟨hr2, ⟨f2, a2'⟩, hf2, rfl⟩ := hg2
    obtain ⟨t2, ht2⟩ := S.axis (List.getElem?_eq_some_iff.1 hf2).1
    obtain ⟨r2', h8, h9⟩ := hax g2 f2 a2' t2 hf2 ht2
    rw [hr2] at h9; cases h9
    obtain ⟨hc2, hv2⟩ := hval g2 f2 a2' t2 r2 hf2 ht2 h8
    simp only [removeAxis, hname, State.treeMapExcept] at h6
    cases hme : mapExcept (removeAxisLeaf a2' name) r2.flatten.1 with
    | ok zs => rw [hme] at h6; cases h6
    | error e3 =>
      rw [hme] at h6
      cases h6
      have : ∃ z ∈ r2.flatten.1, ∃ e, removeAxisLeaf a2' name z = .error e := by
        by_contra hno
        have : ∀ zs : List (PyVal α), (∀ z ∈ zs, ∀ e, removeAxisLeaf a2' name z ≠ .error e) → ∃ ws, mapExcept (removeAxisLeaf a2' name) zs = .ok ws := by
          intro zs
          induction zs with
          | nil => intro _; exact ⟨_, rfl⟩
          | cons z zs ih =>
            intro hz
            obtain ⟨ws, hws⟩ := ih fun z' h' => hz z' (List.mem_cons_of_mem _ h')
            cases hzr : removeAxisLeaf a2' name z with
            | error e => exact absurd hzr (hz z List.mem_cons_self e)
            | ok z2 => exact ⟨z2 :: ws, by simp only [mapExcept, hzr, hws]⟩
        obtain ⟨ws, hws⟩ := this _ fun z hz e he => hno ⟨z, hz, e, he⟩
        rw [hws] at hme; cases hme
      obtain ⟨z, hz, e4, h10, h11⟩ := mapExcept_raises this
      rw [hme] at h11
      cases h11
      simp only [State.flatten, State.items, List.mem_map] at hz
      obtain ⟨⟨k3, z3⟩, hz3, rfl⟩ := hz
      obtain ⟨_, _, _, hw3, _⟩ := hv2 k3 z3 (mem_dget hc2.nodup hz3)
      exact removeAxisLeaf_error hw3 h10
  have hrun : ∃ e, (e = .indexError ∨ e = .assertionError) ∧ scanRun R fuel o j d b l body (c0, c) xsS w = (w, .error e) := by
    have hne : xsS ≠ [] := by
      have := (allSome_map_spec _ _ hxs).1
      rw [List.length_range] at this
      rintro rfl
      rw [← this] at hn
      exact Nat.lt_irrefl _ hn
    have : ∃ y ∈ xsS, (if o.reverse then xsS.getLast? else xsS.head?) = some y := by
      split
      · exact ⟨_, List.getLast_mem hne, List.getLast?_eq_some_getLast hne⟩
      · exact ⟨_, List.head_mem hne, List.head?_eq_some_head hne⟩
    obtain ⟨y, hy, hye⟩ := this
    obtain ⟨e, he, hon⟩ := hstep y hy
    refine ⟨e, he, ?_⟩
    simp only [scanRun, hye, scanFn, hon]
  obtain ⟨e, he, hr⟩ := hrun
  refine ⟨e, he, ?_⟩
  rw [← hr]
  have haa : AxesArrays R o.plain s0 := by
    intro k x g f a hk hf hfm
    obtain ⟨ls, hx, hn⟩ := hlen.leaves' k x g f a hk hf hfm
    exact ⟨ls, hx, fun y hy => by rw [hn y hy]; rfl⟩
  obtain ⟨sizes, hsz, hnn⟩ := length_iff S haa xs
  have hL : scanLength o (sizes.flatten ++ (xs.map List.length).toList) = .ok n := (hnn n).2 hlenp
  have hpm' : partitionModule fuel w.heap l o.filters = .ok (ss, d) := hpm fuel hs
  have hsp' : splitGroups o.variableAxes.length ss = some (ss.take o.variableAxes.length, b, c0) := hsp
  have hsz' : allSome (((ss.take o.variableAxes.length).zip (o.variableAxes.map (·.2))).map fun sa => leafSizes R sa.2 sa.1) = some sizes := hsz
  have hxs' : allSome ((List.range n).map (stepIn R o (ss.take o.variableAxes.length) xs fun i => ctx.map (stepCtx split p n i))) = some xsS := hxs
  cases ctx with
  | none =>
    simp only [scanApply, hpm', hsp', hsz', hL, Option.isSome_none, Bool.false_eq_true, if_false]
    simp only [Option.map_none] at hxs' ⊢
    rw [hxs']
  | some cx =>
    simp only [scanApply, hpm', hsp', hsz', hL, Option.isSome_some, if_true, hsel rfl, hxs']

/-! ### An example -/

/-- A stacked parameter whose sharding is `axes`. -/
def exShVar (c : Cls) (x : Arr) (axes : List (PyVal Arr)) : PyVal Arr := .cont c (.data cArray x) [(kSharding, .tup axes)]

/-- The layer of the scan examples, its parameter with a sharding. -/
def exLayersSh (axes : List (PyVal Arr)) : World Arr :=
  ⟨[⟨{ name := py! "Layer", ancestors := [py! "Module"] }, [(py! "w", .val (exShVar cParam (.vec [5, 6, 7]) axes)),
    (py! "s", .val (exVar cBatchStat (.num 1))), (py! "b", .val (exVar cCache (.num 10)))], 3, false, ⟨0, 0⟩⟩], 9, 0, []⟩

def exLayersShState (axes : List (PyVal Arr)) : State (PyVal Arr) :=
  ⟨[(py! "b", exVar cCache (.num 10)), (py! "s", exVar cBatchStat (.num 1)), (py! "w", exShVar cParam (.vec [5, 6, 7]) axes)]⟩

def exLayerName : PyVal Arr := .str (py! "layers")

/-- The options with `partition_name="layers"`. -/
def exOptsN : ScanOptions Arr := { exOpts with metadata := [(kPartitionName, exLayerName)] }

theorem exFiltersN_wf : ∀ f ∈ exOptsN.filters, f.WellFormed := exFilters_wf

theorem exLayersSh_state (axes : List (PyVal Arr)) : getState 2 (exLayersSh axes).heap 0 = some (exLayersShState axes) := by rfl

theorem exLayersSh_wf {axes : List (PyVal Arr)} : WFWorld (exLayersSh axes) := by
  refine ⟨wfHeap_of_forall (by unfold exLayersSh; exact List.nodup_singleton _) ?_, ?_⟩
  · intro o ho
    simp only [exLayersSh, List.mem_cons, List.not_mem_nil, or_false] at ho
    subst ho
    refine ⟨by unfold DNodup dkeys; simp only [List.map_cons, List.map_nil]; decide, ?_⟩
    intro na hna
    simp only [List.mem_cons, List.not_mem_nil, or_false] at hna
    rcases hna with rfl | rfl | rfl <;> refine ⟨by unfold NoSlash; dsimp only; decide, by dsimp only; decide, ?_, ?_⟩ <;>
      intros <;> rename_i h <;> try cases h
    · exact .mk (by simp [PyVal.Plain]) (by simp [DNodup, dkeys]) (by simp [kSharding]) (by simp [kSharding]; decide) (fun _ _ => ⟨_, _, rfl⟩)
    all_goals exact exVar_wf _ (by simp)
  · intro l o ho
    have := List.mem_of_getElem? ho
    simp only [exLayersSh, List.mem_cons, List.not_mem_nil, or_false] at this ⊢
    subst this; simp

theorem exLayersSh_valid (axes : List (PyVal Arr)) : AllValid (exLayersSh axes) 0 := by
  rintro l o ⟨p, hp⟩ ho
  have := List.mem_of_getElem? ho
  simp only [exLayersSh, List.mem_cons, List.not_mem_nil, or_false] at this
  subst this
  simp only [traceValid_eq]
  rfl

/-- The slices: the body sees the sharding without the name. -/
def exInsN : List (State (PyVal Arr) × (Option (PureContext Nat) × Option Int)) :=
  [(⟨[(py! "b", exVar cCache (.num 10)), (py! "w", exShVar cParam (.num 5) [])]⟩, none, some 100),
   (⟨[(py! "b", exVar cCache (.num 10)), (py! "w", exShVar cParam (.num 6) [])]⟩, none, some 200),
   (⟨[(py! "b", exVar cCache (.num 10)), (py! "w", exShVar cParam (.num 7) [])]⟩, none, some 300)]

def exOutsN : List (State (PyVal Arr) × Int) :=
  [(⟨[(py! "b", exVar cCache (.num 10)), (py! "n", .data cArray (.num 1)), (py! "s", exVar cBatchStat (.num 151)), (py! "w", exShVar cParam (.num 6) [])]⟩, 151),
   (⟨[(py! "b", exVar cCache (.num 10)), (py! "n", .data cArray (.num 2)), (py! "s", exVar cBatchStat (.num 411)), (py! "w", exShVar cParam (.num 7) [])]⟩, 411),
   (⟨[(py! "b", exVar cCache (.num 10)), (py! "n", .data cArray (.num 3)), (py! "s", exVar cBatchStat (.num 781)), (py! "w", exShVar cParam (.num 8) [])]⟩, 781)]

def exFinN : State (PyVal Arr) := ⟨[(py! "b", exVar cCache (.num 10)), (py! "w", exShVar cParam (.vec [6, 7, 8]) [])]⟩

theorem exRunN : ∃ vl sl, LoopRun (calls exScanBody) 0 (exLayersSh []) 1 exInsN vl 47 exOutsN ∧ getState (vl.heap.length + 1) vl.heap 0 = some sl ∧
    sl.get (py! "w") = some (exShVar cParam (.num 8) []) :=
  ⟨_, _, .next rfl rfl (nodesOnly_of_check (by decide) (by decide)) rfl
    (.next rfl rfl (nodesOnly_of_check (by decide) (by decide)) rfl
      (.next rfl rfl (nodesOnly_of_check (by decide) (by decide)) rfl .done)), rfl, by decide⟩

theorem exUnnamed : Unnamed exOptsN exLayerName 0 (exLayersShState [exLayerName]) (exLayersSh [exLayerName]) (exLayersSh []) := by
  have hw : ∀ k x g, (exLayersShState [exLayerName]).get k = some x → g < exOptsN.variableAxes.length → FirstMatch exOptsN.filters k x g →
      k = py! "w" ∧ x = exShVar cParam (.vec [5, 6, 7]) [exLayerName] ∧ g = 0 := by
    intro k x g hk hg hfm
    have hg0 : g = 0 := by have : exOptsN.variableAxes.length = 1 := rfl; omega
    subst hg0
    rw [firstIdx_iff exFiltersN_wf] at hfm
    have hm := dget_mem hk
    simp only [exLayersShState, List.mem_cons, Prod.mk.injEq, List.not_mem_nil, or_false] at hm
    rcases hm with ⟨rfl, rfl⟩ | ⟨rfl, rfl⟩ | ⟨rfl, rfl⟩
    · exact absurd hfm (by decide)
    · exact absurd hfm (by decide)
    · exact ⟨rfl, rfl, rfl⟩
  have hadr : Addresses (exLayersSh [exLayerName]).heap 0 (py! "w") 0 (py! "w") := ⟨[], rfl, .here (by decide)⟩
  refine ⟨⟨rfl, ?_, rfl, rfl, rfl⟩, ?_, ?_⟩
  · intro a ob ob' h1 h2
    match a with
    | 0 => cases h1; cases h2; exact ⟨rfl, rfl, rfl, rfl⟩
    | a + 1 => cases h1
  · intro k x g f i a n hk hgi hfm ha
    obtain ⟨rfl, rfl, rfl⟩ := hw k x g hk (List.getElem?_eq_some_iff.1 hgi).1 hfm
    cases hgi
    obtain ⟨rfl, rfl⟩ := ha.functional hadr
    exact ⟨exShVar cParam (.vec [5, 6, 7]) [], .inr ⟨[exLayerName], 0, rfl, rfl, rfl, rfl⟩,
      (firstIdx_iff exFiltersN_wf).2 (by decide), rfl⟩
  · intro a n hno
    have hne : ¬ (a = 0 ∧ n = py! "w") := by
      rintro ⟨rfl, rfl⟩
      exact hno _ _ 0 rfl (by decide) ((firstIdx_iff exFiltersN_wf).2 (by decide)) hadr
    match a with
    | 0 =>
      have hn : ¬ (py! "w" = n) := fun e => hne ⟨rfl, e.symm⟩
      simp only [attrAt, exLayersSh, List.getElem?_cons_zero, dget, hn, if_false]
    | a + 1 => rfl

/-- The hypotheses of C79 hold for the layer with the sharding `("layers",)`. After the scan the parameter has it again. -/
theorem exScanN (j : Nat) : ∃ ws sf,
    scanApply arrOps (fun (k : Nat) n i => k * 100 + n * 10 + i) 2 exOptsN j 0 (scanBody (calls exScanBody)) 1 (some [100, 200, 300]) none
      (exLayersSh [exLayerName]) = (ws, .ok (47, [151, 411, 781])) ∧
    getState (ws.heap.length + 1) ws.heap 0 = some sf ∧
    sf.get (py! "w") = some (exShVar cParam (.vec [6, 7, 8]) [exLayerName]) := by
  obtain ⟨vl, sl, run, hsl, _⟩ := exRunN
  obtain ⟨ws, sf, h3, h4, h5, _⟩ := C79_scan_named (A := Int) exLayersSh_wf exLayersSh_wf (l := 0) (by decide) (exLayersSh_valid _) (o := exOptsN)
    (exLayersSh_state [exLayerName])
    (ss := [⟨[(py! "w", exShVar cParam (.vec [5, 6, 7]) [exLayerName])]⟩, ⟨[(py! "b", exVar cCache (.num 10))]⟩,
      ⟨[(py! "s", exVar cBatchStat (.num 1))]⟩])
    rfl (name := exLayerName) rfl rfl exUnnamed (exLayersSh_state []) (R := arrOps) (xs := some [100, 200, 300]) (n := 3)
    (hasLength_of_check exFiltersN_wf (s := exLayersShState [exLayerName]) (by decide) (by intro as h; cases h; rfl) (fun m h => by cases h) (.inr nofun)) (by decide)
    (split := fun (k : Nat) n i => k * 100 + n * 10 + i) (p := fun _ => false) (ctx := none) nofun (ins := exInsN) (by
      refine ⟨rfl, ?_⟩
      intro i inp x hi
      have hlt : i < 3 := (List.getElem?_eq_some_iff.1 hi).1
      match i, hlt with
      | 0, _ => cases hi; exact ⟨isSlice_of_check exFiltersN_wf (by decide), rfl⟩
      | 1, _ => cases hi; exact ⟨isSlice_of_check exFiltersN_wf (by decide), rfl⟩
      | 2, _ => cases hi; exact ⟨isSlice_of_check exFiltersN_wf (by decide), rfl⟩)
    exScanBody_good run (uniform_of_check exFiltersN_wf (by decide) (by decide) (by decide) (by decide))
    (fin := exFinN) (isStacked_of_check exFiltersN_wf (by decide)) j hsl
  exact ⟨ws, sf, h3, h4, by rw [h5]; rfl⟩

/-- With another name in the sharding the scan raises. -/
example : scanApply arrOps (fun (k : Nat) n i => k * 100 + n * 10 + i) 9 exOptsN 7 0 (scanBody (calls exScanBody)) 1 (some [100, 200, 300]) none
    (exLayersSh [.str (py! "embed")]) = (exLayersSh [.str (py! "embed")], .error .assertionError) := by rfl

end Nnx
