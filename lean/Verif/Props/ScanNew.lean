import Verif.Proofs.ScanNewCheck
import Verif.Props.Scan
/-
C53, C54 (scan), with bodies that create variables of any collection.
-/
namespace Nnx
variable {α κ A B C : Type} [DecidableEq α]

/-- **C54, exactly.** What a scan does with the variables its body creates: variables of the `variable_axes` collections are created
again in every iteration, and their values are stacked; variables of the carry collection stay; variables of the broadcast collection
are gone after each iteration. The scan returns what the loop returns in which each iteration begins by deleting the new variables of
axes and broadcast collections (`FreshLoop`), and leaves every existing Module as that loop does after deleting the new broadcast
variables and an update with the stacked axes variables and the original broadcast variables. -/
theorem C54_scan_is_fresh_loop {w : World α} (wf : WFWorld w) {l : Loc} (hl : l < w.heap.length) (hv : AllValid w l) {o : ScanOptions α}
    {fuel : Nat} {s0 : State (PyVal α)} (hs : getState fuel w.heap l = some s0) {ss} (hp : s0.partition o.filters = .ok ss)
    (hname : dhas o.metadata kPartitionName = false) (hrev : o.reverse = false)
    {R : Arrays α} {xs : Option (List A)} {n : Nat} (hlen : HasLength R o s0 xs n) (hn : 0 < n)
    {split : κ → Nat → Nat → κ} {p : Str → Bool} {ctx : Option (PureContext κ)}
    (hsel : ctx.isSome = true → toRngPredicate o.splitRngs = .ok p) {ins}
    (hins : LoopInputs R o s0 xs (fun i => ctx.map (stepCtx split p n i)) n ins)
    {body : Option (PureContext κ) × Option A → C → Prog α (C × B)} (hb : ∀ x c, (body x c).Good)
    {c c' : C} {vl : World α} {outs} (run : FreshLoop o s0 (calls body) l w c ins vl c' outs) (hun : UniformNew o s0 (outs.map (·.1)))
    {fin} (hfin : IsStackedNew R o s0 (outs.map (·.1)) fin) {vd : World α} (hdr : Dropped o s0 (· = o.variableAxes.length) l vl vd) (j : Nat) :
    ∃ wd ws, updateState (vd.heap.length + 1) l [fin] vd = (wd, none) ∧
      scanApply R split fuel o j l (scanBody (calls body)) c xs ctx w = (ws, .ok (c', outs.map (·.2))) ∧
      AgreeOn w.heap.length wd ws ∧ SameGraph wd.heap l ws.heap l ∧ ws.jaxTrace = w.jaxTrace ∧ ws.nnxStack = w.nnxStack := by
  obtain ⟨d, b, c0, S, hsp, hpm⟩ := scan_setup wf hl hv hs hp hname
  obtain ⟨xsS, hm, heq⟩ := scanApply_eq (B := B) (C := C) S hsp hpm hlen hsel hins
  obtain ⟨wd, hu, _, hr⟩ := run_forward_new S (fun x c => (hb x c).parametric) j run (by rintro rfl; rw [← hins.1] at hn; exact Nat.lt_irrefl _ hn) hm hrev hun hfin hdr
  obtain ⟨ws, h1, h2⟩ := hr fuel (by rw [hs]; rfl)
  exact ⟨wd, ws, hu, by rw [heq fuel j _ c hs]; exact h1, h2⟩

/-- **C54, where the new variables are.** After the scan: a variable of an axes collection that the body creates is in the module, with
its values after all iterations stacked along the axis; one of the carry collection is in the module with the value it has after the
last iteration; one of the broadcast collection is not in the module (`C54` claims that it is). -/
theorem C54_new_variables_partial {w : World α} (wf : WFWorld w) {l : Loc} (hl : l < w.heap.length) (hv : AllValid w l) {o : ScanOptions α}
    {fuel : Nat} {s0 : State (PyVal α)} (hs : getState fuel w.heap l = some s0) {ss} (hp : s0.partition o.filters = .ok ss)
    (hname : dhas o.metadata kPartitionName = false) (hrev : o.reverse = false)
    {R : Arrays α} {xs : Option (List A)} {n : Nat} (hlen : HasLength R o s0 xs n) (hn : 0 < n)
    {split : κ → Nat → Nat → κ} {p : Str → Bool} {ctx : Option (PureContext κ)}
    (hsel : ctx.isSome = true → toRngPredicate o.splitRngs = .ok p) {ins}
    (hins : LoopInputs R o s0 xs (fun i => ctx.map (stepCtx split p n i)) n ins)
    {body : Option (PureContext κ) × Option A → C → Prog α (C × B)} (hb : ∀ x c, (body x c).Good)
    {c c' : C} {vl : World α} {outs} (run : FreshLoop o s0 (calls body) l w c ins vl c' outs) (hun : UniformNew o s0 (outs.map (·.1)))
    {fin} (hfin : IsStackedNew R o s0 (outs.map (·.1)) fin) (j : Nat) {sl : State (PyVal α)}
    (hsl : getState (vl.heap.length + 1) vl.heap l = some sl) {k : Str} {y : PyVal α} (hnew : s0.get k = none) (hk : sl.get k = some y) {g : Nat}
    (hfm : FirstMatch o.filters k y g) :
    ∃ ws,
      scanApply R split fuel o j l (scanBody (calls body)) c xs ctx w = (ws, .ok (c', outs.map (·.2))) ∧
      (∀ f a, o.variableAxes[g]? = some (f, a) →
        ∃ v, StackedVal R a ((outs.map (·.1)).filterMap fun t => t.get k) v ∧ observe ws.heap l (splitSlash k) = some (.value v)) ∧
      (g = o.variableAxes.length + 1 → observe ws.heap l (splitSlash k) = some (.value y)) ∧
      (g = o.variableAxes.length → observe ws.heap l (splitSlash k) = none) := by
  obtain ⟨d, b, c0, S, hsp, hpm⟩ := scan_setup wf hl hv hs hp hname
  obtain ⟨xsS, hm, heq⟩ := scanApply_eq (B := B) (C := C) S hsp hpm hlen hsel hins
  have hne : ins ≠ [] := by rintro rfl; rw [← hins.1] at hn; exact Nat.lt_irrefl _ hn
  obtain ⟨hne', sl', csl, ys, ysNew, u', hcr⟩ := core_forward_new S (fun x c => (hb x c).parametric) j run hne hm hrev hun S.wf
  have := hcr.at_.state
  rw [hsl] at this
  cases this
  have hlvl := Nat.lt_of_lt_of_le hl hcr.at_.ev.keeps.len
  obtain ⟨vd, hdr⟩ := dropped_exists o s0 (· = o.variableAxes.length) hcr.at_.ev.wf hlvl
  obtain ⟨sd, evv, hsd, hgd⟩ := hcr.at_.drop S hdr
  obtain ⟨wd, hu, ⟨wfd, hld, sd', sf, hsd', hsf, hget⟩, hr⟩ := hcr.same S hne' hun hfin hdr
  rw [hsd] at hsd'
  cases hsd'
  obtain ⟨ws, h1, _, h2, _⟩ := hr fuel (by rw [hs]; rfl)
  refine ⟨ws, by rw [heq fuel j _ c hs]; exact h1, ?_⟩
  have hobs : ∀ z, sf.get k = some z → observe ws.heap l (splitSlash k) = some (.value z) := by
    intro z hz
    obtain ⟨a, m, ⟨q, hq, hwk⟩, hat, _⟩ := (state_paths wfd.heap hld hsf).1 k z hz
    rw [h2.1, hq]
    simp only [observe, access_snoc hwk, hat, Option.bind_some, shown]
  refine ⟨?_, ?_, ?_⟩
  · intro f a hga
    obtain ⟨v, hv, hfk⟩ := hfin.axes k sl y g f a hcr.last hk hga hfm
    exact ⟨v, hv, hobs v (by rw [hget, hfk]; rfl)⟩
  · rintro rfl
    refine hobs y ?_
    have hsdk : sd.get k = some y := (hgd k y).2 ⟨hk, .inr fun g' hg' e => by have := hg'.unique hfm; omega⟩
    have hfk : fin.get k = none := by
      cases hfk : fin.get k with
      | none => rfl
      | some z =>
        rcases hfin.only k z hfk with ⟨t, x, g, ht, hx, hfx, hg⟩ | ⟨x, hx, _⟩
        · obtain ⟨y', h4, h5⟩ := hun.same S ht hcr.last hx hfx
          rw [hk] at h4; cases h4
          have := h5.unique hfm
          omega
        · rw [hnew] at hx; cases hx
    rw [hget, hfk, hsdk]; rfl
  · rintro rfl
    -- the attribute that held the variable is gone
    obtain ⟨a, m, hadr, hat, hnode⟩ := (state_paths hcr.at_.ev.wf.heap hlvl hsl).1 k y hk
    obtain ⟨del, s1, hs1, rfl, hdel⟩ := hdr
    rw [hsl] at hs1
    cases hs1
    have hd1 : attrAt (vl.without del).heap a m = none := by
      rw [without_attr, (hdel a m).2 ⟨k, y, _, hk, hnew, hfm, rfl, hadr⟩]; rfl
    obtain ⟨q, hq, hwk⟩ := hadr
    have hsfk : sf.get k = none := by
      rw [hget]
      have h3 : sd.get k = none := by
        cases hc : sd.get k with
        | none => rfl
        | some z =>
          obtain ⟨h4, h5⟩ := (hgd k z).1 hc
          rw [hk] at h4; cases h4
          rcases h5 with h5 | h5
          · rw [hnew] at h5; cases h5
          · exact absurd rfl (h5 _ hfm)
      have h4 : fin.get k = none := by
        cases hfk : fin.get k with
        | none => rfl
        | some z =>
          rcases hfin.only k z hfk with ⟨t, x, g, ht, hx, hfx, hg⟩ | ⟨x, hx, _⟩
          · obtain ⟨y', h4, h5⟩ := hun.same S ht hcr.last hx hfx
            rw [hk] at h4; cases h4
            have := h5.unique hfm
            omega
          · rw [hnew] at hx; cases hx
      rw [h4, h3]; rfl
    obtain ⟨wd', sf', hu', _, hsf', _, _, evd⟩ := evv.update wf hl hv hsd hfin.sorted
      (final_kind S hcr.at_ hcr.last hcr.outs hne' hun hfin evv hsd hgd)
    rw [hu] at hu'
    cases hu'
    have hwd : Walk (vl.without del).heap l q a := (evv.walk wf hl q a).2 ((hcr.at_.ev.walk wf hl q a).1 hwk)
    have hlvd := Nat.lt_of_lt_of_le hl evv.keeps.len
    have hwd' : Walk wd.heap l q a := (evd.walk evv.wf hlvd q a).2 hwd
    have hno : attrAt wd.heap a m = none := by
      rcases evd.nodes a m ⟨q, hwd⟩ with h | ⟨v, h, hn', _⟩
      · rw [h, hd1]
      · exfalso
        obtain ⟨k', h3, h4⟩ := (state_paths wfd.heap hld hsf).2.2 a m v ⟨q, hwd'⟩ h hn'
        have h5 : (sl.get k').isSome := by
          rw [hget] at h3
          cases hfk : fin.get k' with
          | none =>
            rw [hfk] at h3
            rw [((hgd k' v).1 h3).1]; rfl
          | some z =>
            rcases hfin.only k' z hfk with ⟨t, x, g, ht, hx, hfx, hg⟩ | ⟨x, hx, _⟩
            · obtain ⟨y', h6, _⟩ := hun.same S ht hcr.last hx hfx
              rw [h6]; rfl
            · obtain ⟨y', h6, _⟩ := hcr.at_.ev.state wf hl hs hsl hx
              rw [h6]; rfl
        obtain ⟨q', hq', hwk'⟩ := h4
        have h6 : Addresses vl.heap l k' a m :=
          ⟨q', hq', (hcr.at_.ev.walk wf hl q' a).2 ((evv.walk wf hl q' a).1 ((evd.walk evv.wf hlvd q' a).1 hwk'))⟩
        have := (state_paths hcr.at_.ev.wf.heap hlvl hsl).2.1 k' k a m h5 (by rw [hk]; rfl) h6 ⟨q, hq, hwk⟩
        subst this
        rw [hsfk] at h3; cases h3
    rw [h2.1, hq]
    simp only [observe, access_snoc hwd', hno, Option.bind_none]

/-- **C53, without new carry variables.** With `reverse=True`, if the body creates no variables of the carry collection, the scan is the
loop over the slices from the last to the first, where as above the new variables of other collections are deleted before each
iteration; the outputs and the axes variables, old and new, are put back where the slices were. Missing: bodies that create variables of
the carry collection (`C53_reverse_new_carry_wrong`). -/
theorem C53_reverse_fresh_partial {w : World α} (wf : WFWorld w) {l : Loc} (hl : l < w.heap.length) (hv : AllValid w l) {o : ScanOptions α}
    {fuel : Nat} {s0 : State (PyVal α)} (hs : getState fuel w.heap l = some s0) {ss} (hp : s0.partition o.filters = .ok ss)
    (hname : dhas o.metadata kPartitionName = false) (hrev : o.reverse = true)
    {R : Arrays α} {xs : Option (List A)} {n : Nat} (hlen : HasLength R o s0 xs n) (hn : 0 < n)
    {split : κ → Nat → Nat → κ} {p : Str → Bool} {ctx : Option (PureContext κ)}
    (hsel : ctx.isSome = true → toRngPredicate o.splitRngs = .ok p) {ins}
    (hins : LoopInputs R o s0 xs (fun i => ctx.map (stepCtx split p n i)) n ins)
    {body : Option (PureContext κ) × Option A → C → Prog α (C × B)} (hb : ∀ x c, (body x c).Good)
    {c c' : C} {vl : World α} {outs} (run : FreshLoop o s0 (calls body) l w c ins.reverse vl c' outs) (hun : UniformNew o s0 (outs.map (·.1)))
    (hno : ∀ t ∈ outs, ∀ k y, s0.get k = none → t.1.get k = some y → ¬ FirstMatch o.filters k y (o.variableAxes.length + 1))
    {fin} (hfin : IsStackedNew R o s0 (outs.reverse.map (·.1)) fin) {vd : World α}
    (hdr : Dropped o s0 (· = o.variableAxes.length) l vl vd) (j : Nat) :
    ∃ wd ws, updateState (vd.heap.length + 1) l [fin] vd = (wd, none) ∧
      scanApply R split fuel o j l (scanBody (calls body)) c xs ctx w = (ws, .ok (c', outs.reverse.map (·.2))) ∧
      AgreeOn w.heap.length wd ws ∧ SameGraph wd.heap l ws.heap l ∧ ws.jaxTrace = w.jaxTrace ∧ ws.nnxStack = w.nnxStack := by
  obtain ⟨d, b, c0, S, hsp, hpm⟩ := scan_setup wf hl hv hs hp hname
  obtain ⟨xsS, hm, heq⟩ := scanApply_eq (B := B) (C := C) S hsp hpm hlen hsel hins
  obtain ⟨wd, hu, _, hr⟩ := run_either_new S (fun x c => (hb x c).parametric) j run (by
      intro h
      rw [List.reverse_eq_nil_iff] at h
      rw [h] at hins
      rw [← hins.1] at hn; exact Nat.lt_irrefl _ hn) (xs := xsS)
    (by rw [hrev]; exact List.rel_reverse hm) hun (by
      rintro t ht k ⟨y, h1, h2⟩
      cases h0 : s0.get k with
      | some z => rfl
      | none => exact absurd h2 (hno t ht k y h0 h1)) (fin := fin) (by rw [hrev]; exact hfin) hdr
  simp only [hrev, if_true] at hr
  obtain ⟨ws, h1, h2⟩ := hr fuel (by rw [hs]; rfl)
  exact ⟨wd, ws, hu, by rw [heq fuel j _ c hs]; exact h1, h2⟩

/-! ### An example -/

/-- `y = hasattr(m, 'a') + hasattr(m, 'z'); m.a = Param(m.w * 2); m.z = Cache(m.w); m.n = (m.n if there, else 0) + 1; return carry + m.w, y` -/
def exNewBody (x : Option (PureContext Nat) × Option Int) (c : Int) : Prog Arr (Int × Int) :=
  .get 0 (py! "w") fun w => .get 0 (py! "a") fun a => .get 0 (py! "z") fun z => .get 0 (py! "n") fun n =>
  .set 0 (py! "a") (exVar cParam (.num (numOf w * 2 + x.2.getD 0))) fun _ =>
  .set 0 (py! "z") (exVar cCache (.num (numOf w))) fun _ =>
  .set 0 (py! "n") (.data cArray (.num (numOf n + 1))) fun _ =>
  .ret (c + numOf w, (if a.isSome then 1 else 0) + if z.isSome then 1 else 0)

theorem exNewBody_good (x c) : (exNewBody x c).Good := by
  intro w _ a _ z _ n _
  exact ⟨⟨by unfold NoSlash; decide, by decide⟩, .inr (exVar_wf _ (by simp)), fun _ =>
    ⟨⟨by unfold NoSlash; decide, by decide⟩, .inr (exVar_wf _ (by simp)), fun _ =>
      ⟨⟨by unfold NoSlash; decide, by decide⟩, .inl trivial, fun _ => trivial⟩⟩⟩

/-- State and output after each iteration of the loop: `m.a` and `m.z` are new in each of them. -/
def exNewOuts : List (State (PyVal Arr) × Int) :=
  [(⟨[(py! "a", exVar cParam (.num 110)), (py! "b", exVar cCache (.num 10)), (py! "n", .data cArray (.num 1)),
      (py! "s", exVar cBatchStat (.num 1)), (py! "w", exVar cParam (.num 5)), (py! "z", exVar cCache (.num 5))]⟩, 0),
   (⟨[(py! "a", exVar cParam (.num 212)), (py! "b", exVar cCache (.num 10)), (py! "n", .data cArray (.num 2)),
      (py! "s", exVar cBatchStat (.num 1)), (py! "w", exVar cParam (.num 6)), (py! "z", exVar cCache (.num 6))]⟩, 0),
   (⟨[(py! "a", exVar cParam (.num 314)), (py! "b", exVar cCache (.num 10)), (py! "n", .data cArray (.num 3)),
      (py! "s", exVar cBatchStat (.num 1)), (py! "w", exVar cParam (.num 7)), (py! "z", exVar cCache (.num 7))]⟩, 0)]

def exNewFin : State (PyVal Arr) :=
  ⟨[(py! "a", exVar cParam (.vec [110, 212, 314])), (py! "b", exVar cCache (.num 10)), (py! "w", exVar cParam (.vec [5, 6, 7]))]⟩

/-- The next iteration of the example. -/
theorem exNewStep {v : World Arr} {s : State (PyVal Arr)} (h : getState (v.heap.length + 1) v.heap 0 = some s) :
    Dropped exOpts exLayersState (· ≤ exOpts.variableAxes.length) 0 v (dropVars exOpts exLayersState (fun g => decide (g ≤ 1)) 0 v) :=
  dropVars_spec exFilters_wf _ _ _ (fun g => by simp [exOpts]) h

theorem exNewRun : ∃ vl, FreshLoop exOpts exLayersState (calls exNewBody) 0 exLayers 1 exIns vl 19 exNewOuts ∧
    getState (vl.heap.length + 1) vl.heap 0 = some (exNewOuts.map (·.1))[2] :=
  ⟨_, .next (exNewStep rfl) rfl rfl (nodesOnly_of_check (by decide) (by decide)) rfl
    (.next (exNewStep rfl) rfl rfl (nodesOnly_of_check (by decide) (by decide)) rfl
      (.next (exNewStep rfl) rfl rfl (nodesOnly_of_check (by decide) (by decide)) rfl .done)), rfl⟩

theorem exNewUniform : UniformNew exOpts exLayersState (exNewOuts.map (·.1)) :=
  uniformNew_of_check exFilters_wf (by decide) (by decide) (by decide) (by decide)

theorem exNewStacked : IsStackedNew arrOps exOpts exLayersState (exNewOuts.map (·.1)) exNewFin :=
  isStackedNew_of_check exFilters_wf (by decide) (by decide) (by decide) (by decide)

/-- The body of the example creates variables of all collections. The hypotheses of `C54_scan_is_fresh_loop` hold. -/
example (j : Nat) : ∃ ws,
    scanApply arrOps exSplit 2 exOpts j 0 (scanBody (calls exNewBody)) 1 (some [100, 200, 300]) none exLayers = (ws, .ok (19, [0, 0, 0])) := by
  obtain ⟨vl, run, hsl⟩ := exNewRun
  obtain ⟨vd, hdr⟩ : ∃ vd, Dropped exOpts exLayersState (· = exOpts.variableAxes.length) 0 vl vd :=
    ⟨_, dropVars_spec exFilters_wf _ (fun g => decide (g = 1)) _ (fun g => by simp [exOpts]) hsl⟩
  obtain ⟨wd, ws, _, h, _⟩ := C54_scan_is_fresh_loop (A := Int) exLayers_wf (l := 0) (by decide) exLayers_valid (o := exOpts) exLayers_state
    (ss := [⟨[(py! "w", exVar cParam (.vec [5, 6, 7]))]⟩, ⟨[(py! "b", exVar cCache (.num 10))]⟩, ⟨[(py! "s", exVar cBatchStat (.num 1))]⟩])
    rfl rfl rfl (R := arrOps) (xs := some [100, 200, 300]) (n := 3)
    (hasLength_of_check exFilters_wf (by decide) (by intro as h; cases h; rfl) nofun (.inr nofun)) (by decide)
    (split := exSplit) (p := fun _ => false) (ctx := none) nofun (ins := exIns) (by
      refine ⟨rfl, ?_⟩
      intro i inp x hi
      have hlt : i < 3 := (List.getElem?_eq_some_iff.1 hi).1
      match i, hlt with
      | 0, _ => cases hi; exact ⟨isSlice_of_check exFilters_wf (by decide), rfl⟩
      | 1, _ => cases hi; exact ⟨isSlice_of_check exFilters_wf (by decide), rfl⟩
      | 2, _ => cases hi; exact ⟨isSlice_of_check exFilters_wf (by decide), rfl⟩)
    exNewBody_good run exNewUniform exNewStacked hdr j
  exact ⟨ws, h⟩

/-- The new variables after the scan: of the axes collection stacked, of the carry collection as the last iteration left it, of the
broadcast collection not there. -/
example : ∃ ws, exCall exOpts exNewBody = (ws, .ok (19, [0, 0, 0])) ∧
    observe ws.heap 0 [py! "a"] = some (.value (exVar cParam (.vec [110, 212, 314]))) ∧
    observe ws.heap 0 [py! "n"] = some (.value (.data cArray (.num 3))) ∧ observe ws.heap 0 [py! "z"] = none :=
  ⟨_, rfl, by decide, by decide, by decide⟩

/-- The same with `reverse=True` and a body that creates only `m.a`. -/
example : ∃ ws, exCall exOptsRev (fun x c => .get 0 (py! "w") fun w => .get 0 (py! "a") fun a =>
      .set 0 (py! "a") (exVar cParam (.num (numOf w * 2 + x.2.getD 0))) fun _ => .ret (c * 2 + numOf w, if a.isSome then 1 else 0)) =
      (ws, .ok (53, [0, 0, 0])) ∧
    observe ws.heap 0 [py! "a"] = some (.value (exVar cParam (.vec [110, 212, 314]))) := ⟨_, rfl, by decide⟩

end Nnx
