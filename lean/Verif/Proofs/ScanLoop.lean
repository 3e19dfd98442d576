import Verif.Proofs.ScanCheck
/-
nnx.scan is a loop, for all bodies that do not depend on the identity of Modules.
-/
namespace Nnx
variable {α κ A B C : Type} [DecidableEq α]

/-- A scan is a loop. Let `s0` be the state of the module before the call, obtained within the recursion limit `fuel`, and `n` the length of the scan. If the loop over
the slices `ins` - each iteration runs the body on the module itself, updated with slice `i` of the axes variables and with the
broadcast variables, the carry variables being left as the previous iteration left them - ends with carry `c'` and outputs `outs`,
then the scan returns the same carry and the same outputs, and leaves every existing Module as the loop does followed by an update
with the stacked axes variables and the original broadcast variables. The body may create variables of the carry collection. -/
theorem scan_is_loop {w : World α} (wf : WFWorld w) {l : Loc} (hl : l < w.heap.length) (hv : AllValid w l) {o : ScanOptions α}
    {fuel : Nat} {s0 : State (PyVal α)} (hs : getState fuel w.heap l = some s0) {ss} (hp : s0.partition o.filters = .ok ss)
    (hname : dhas o.metadata kPartitionName = false) (hrev : o.reverse = false)
    {R : Arrays α} {xs : Option (List A)} {n : Nat} (hlen : HasLength R o s0 xs n) (hn : 0 < n)
    {split : κ → Nat → Nat → κ} {p : Str → Bool} {ctx : Option (PureContext κ)}
    (hsel : ctx.isSome = true → toRngPredicate o.splitRngs = .ok p) {ins}
    (hins : LoopInputs R o s0 xs (fun i => ctx.map (stepCtx split p n i)) n ins)
    {body : Option (PureContext κ) × Option A → C → Loc → World α → World α × Except Err (C × B)} (hb : ∀ x c, Parametric (body x c))
    {c c' : C} {vl : World α} {outs} (run : LoopRun body l w c ins vl c' outs) (hun : Uniform o s0 (outs.map (·.1)))
    {fin} (hfin : IsStacked R o s0 (outs.map (·.1)) fin) (j : Nat) :
    ∃ wd ws, updateState (vl.heap.length + 1) l [fin] vl = (wd, none) ∧
      scanApply R split fuel o j l (scanBody body) c xs ctx w = (ws, .ok (c', outs.map (·.2))) ∧
      AgreeOn w.heap.length wd ws ∧ SameGraph wd.heap l ws.heap l ∧ ws.jaxTrace = w.jaxTrace ∧ ws.nnxStack = w.nnxStack := by
  obtain ⟨d, b, c0, S, hsp, hpm⟩ := scan_setup wf hl hv hs hp hname
  obtain ⟨xsS, hm, heq⟩ := scanApply_eq (B := B) (C := C) S hsp hpm hlen hsel hins
  obtain ⟨wd, hu, _, hr⟩ := run_forward S hb j run (by rintro rfl; rw [← hins.1] at hn; exact Nat.lt_irrefl _ hn) hm hrev hun hfin
  obtain ⟨ws, h1, h2⟩ := hr fuel (by rw [hs]; rfl)
  exact ⟨wd, ws, hu, by rw [heq fuel j _ c hs]; exact h1, h2⟩

/-- Exceptions. If an iteration of the loop raises, the scan raises the same and leaves every existing Module as it was. -/
theorem scan_raises {w : World α} (wf : WFWorld w) {l : Loc} (hl : l < w.heap.length) (hv : AllValid w l) {o : ScanOptions α}
    {fuel : Nat} {s0 : State (PyVal α)} (hs : getState fuel w.heap l = some s0) {ss} (hp : s0.partition o.filters = .ok ss)
    (hname : dhas o.metadata kPartitionName = false) (hrev : o.reverse = false)
    {R : Arrays α} {xs : Option (List A)} {n : Nat} (hlen : HasLength R o s0 xs n)
    {split : κ → Nat → Nat → κ} {p : Str → Bool} {ctx : Option (PureContext κ)}
    (hsel : ctx.isSome = true → toRngPredicate o.splitRngs = .ok p) {ins inp x rest}
    (hins : LoopInputs R o s0 xs (fun i => ctx.map (stepCtx split p n i)) n (ins ++ (inp, x) :: rest))
    {body : Option (PureContext κ) × Option A → C → Loc → World α → World α × Except Err (C × B)} (hb : ∀ x c, Parametric (body x c))
    {c c1 : C} {v v1 v2 : World α} {outs} (run : LoopRun body l w c ins v c1 outs) (hun : Uniform o s0 (outs.map (·.1)))
    (hu : updateState (v.heap.length + 1) l [inp] v = (v1, none)) {e : Err} (hc : body x c1 l v1 = (v2, .error e)) (j : Nat) :
    ∃ ws,
      scanApply R split fuel o j l (scanBody body) c xs ctx w = (ws, .error e) ∧
      (∀ a : Loc, a < w.heap.length → ws.heap[a]? = w.heap[a]?) ∧ ws.jaxTrace = w.jaxTrace ∧ ws.nnxStack = w.nnxStack := by
  obtain ⟨d, b, c0, S, hsp, hpm⟩ := scan_setup wf hl hv hs hp hname
  obtain ⟨xsS, hm, heq⟩ := scanApply_eq (B := B) (C := C) S hsp hpm hlen hsel hins
  obtain ⟨ws, h1, h2⟩ := run_raises S hb j run hu hc (xs := xsS) (by rw [hrev]; exact hm) hun (by rw [hrev]; intro h; cases h) fuel hs
  exact ⟨ws, by rw [heq fuel j _ c hs]; exact h1, h2.old, h2.jax, h2.stack⟩

/-- Lengths that disagree. If the arrays, the argument and `length` do not agree on a length, or none of them gives one, the
scan raises ValueError and changes nothing. -/
theorem scan_bad_length {w : World α} (wf : WFWorld w) {l : Loc} (hl : l < w.heap.length) (hv : AllValid w l) {o : ScanOptions α}
    {fuel : Nat} {s0 : State (PyVal α)} (hs : getState fuel w.heap l = some s0) {ss} (hp : s0.partition o.filters = .ok ss)
    (hname : dhas o.metadata kPartitionName = false) {R : Arrays α} {xs : Option (List A)}
    (harr : ∀ k x (g : Nat) f a, s0.get k = some x → o.variableAxes[g]? = some (f, a) → FirstMatch o.filters k x g →
      AllArrays (fun y => (R.size a y).isSome) x)
    (hlen : ∀ n, ¬ HasLength R o s0 xs n) (split : κ → Nat → Nat → κ) (j : Nat)
    (f : Option (PureContext κ) → C → Option A → Loc → World α → World α × Except Err (C × B)) (c : C) (ctx : Option (PureContext κ)) :
    scanApply R split fuel o j l f c xs ctx w = (w, .error .valueError) := by
  obtain ⟨d, b, c0, S, hsp, hpm⟩ := scan_setup wf hl hv hs hp hname
  obtain ⟨sizes, hsz, hn⟩ := length_iff S (fun k x g f a h1 h2 h3 => allArrays_iff.1 (harr k x g f a h1 h2 h3)) xs
  simp only [scanApply, hpm fuel hs, hsp, hsz]
  cases hL : scanLength o (sizes.flatten ++ (xs.map List.length).toList) with
  | error e => rw [scanLength_error o hL]
  | ok n => exact absurd ((hn n).1 hL) (hlen n)

/-- Entries in no collection. If the filters do not cover the state, the scan raises what `partition` raises and changes nothing. -/
theorem scan_bad_filters {w : World α} {l : Loc} {o : ScanOptions α} {fuel : Nat} {s0 : State (PyVal α)} (hs : getState fuel w.heap l = some s0) {e : Err} (hp : s0.partition o.filters = .error e)
    (R : Arrays α) (xs : Option (List A)) (split : κ → Nat → Nat → κ) (j : Nat)
    (f : Option (PureContext κ) → C → Option A → Loc → World α → World α × Except Err (C × B)) (c : C) (ctx : Option (PureContext κ)) :
    scanApply R split fuel o j l f c xs ctx w = (w, .error e) := by
  obtain ⟨d, hd'⟩ := getModuleDef_of_getState hs
  have : partitionModule fuel w.heap l o.filters = .error e := by
    simp only [partitionModule, hd', hs]
    split
    · next h => exact absurd (congrArg List.length h) (by rw [filters_length]; simp)
    · rw [hp]
  simp only [scanApply, this]

end Nnx
