import Verif.Proofs.ScanLoop
import Verif.Props.Context
/-
C52 - C55 (scan).
-/
namespace Nnx
variable {α κ A B C : Type} [DecidableEq α]

/-! ### C52 -/

/-- **C52, a scan is a loop.** Let `s0` be the state of the module before the call and `n` the length of the scan. If the loop over
the slices `ins` - each iteration runs the body on the module itself, updated with slice `i` of the axes variables and with the
broadcast variables, the carry variables being left as the previous iteration left them - ends with carry `c'` and outputs `outs`,
then the scan returns the same carry and the same outputs, and leaves every existing Module as the loop does followed by an update
with the stacked axes variables and the original broadcast variables. The body may create variables of the carry collection. -/
theorem C52_scan_is_loop {w : World α} (wf : WFWorld w) {l : Loc} (hl : l < w.heap.length) (hv : AllValid w l) {o : ScanOptions α}
    {fuel : Nat} {s0 : State (PyVal α)} (hs : getState fuel w.heap l = some s0) {ss} (hp : s0.partition o.filters = .ok ss)
    (hname : dhas o.metadata kPartitionName = false) (hrev : o.reverse = false)
    {R : Arrays α} {xs : Option (List A)} {n : Nat} (hlen : HasLength R o s0 xs n) (hn : 0 < n)
    {split : κ → Nat → Nat → κ} {p : Str → Bool} {ctx : Option (PureContext κ)}
    (hsel : ctx.isSome = true → toRngPredicate o.splitRngs = .ok p) {ins}
    (hins : LoopInputs R o s0 xs (fun i => ctx.map (stepCtx split p n i)) n ins)
    {body : Option (PureContext κ) × Option A → C → Prog α (C × B)} (hb : ∀ x c, (body x c).Good)
    {c c' : C} {vl : World α} {outs} (run : LoopRun (calls body) l w c ins vl c' outs) (hun : Uniform o s0 (outs.map (·.1)))
    {fin} (hfin : IsStacked R o s0 (outs.map (·.1)) fin) (j : Nat) :
    ∃ wd ws, updateState (vl.heap.length + 1) l [fin] vl = (wd, none) ∧
      scanApply R split fuel o j l (scanBody (calls body)) c xs ctx w = (ws, .ok (c', outs.map (·.2))) ∧
      AgreeOn w.heap.length wd ws ∧ SameGraph wd.heap l ws.heap l ∧ ws.jaxTrace = w.jaxTrace ∧ ws.nnxStack = w.nnxStack :=
  scan_is_loop wf hl hv hs hp hname hrev hlen hn hsel hins (fun x c => (hb x c).parametric) run hun hfin j

/-- **C52, exceptions.** If an iteration of the loop raises, the scan raises the same and leaves every existing Module as it was. -/
theorem C52_raises {w : World α} (wf : WFWorld w) {l : Loc} (hl : l < w.heap.length) (hv : AllValid w l) {o : ScanOptions α}
    {fuel : Nat} {s0 : State (PyVal α)} (hs : getState fuel w.heap l = some s0) {ss} (hp : s0.partition o.filters = .ok ss)
    (hname : dhas o.metadata kPartitionName = false) (hrev : o.reverse = false)
    {R : Arrays α} {xs : Option (List A)} {n : Nat} (hlen : HasLength R o s0 xs n)
    {split : κ → Nat → Nat → κ} {p : Str → Bool} {ctx : Option (PureContext κ)}
    (hsel : ctx.isSome = true → toRngPredicate o.splitRngs = .ok p) {ins inp x rest}
    (hins : LoopInputs R o s0 xs (fun i => ctx.map (stepCtx split p n i)) n (ins ++ (inp, x) :: rest))
    {body : Option (PureContext κ) × Option A → C → Prog α (C × B)} (hb : ∀ x c, (body x c).Good)
    {c c1 : C} {v v1 v2 : World α} {outs} (run : LoopRun (calls body) l w c ins v c1 outs) (hun : Uniform o s0 (outs.map (·.1)))
    (hu : updateState (v.heap.length + 1) l [inp] v = (v1, none)) {e : Err} (hc : (body x c1).call l v1 = (v2, .error e)) (j : Nat) :
    ∃ ws,
      scanApply R split fuel o j l (scanBody (calls body)) c xs ctx w = (ws, .error e) ∧
      (∀ a : Loc, a < w.heap.length → ws.heap[a]? = w.heap[a]?) ∧ ws.jaxTrace = w.jaxTrace ∧ ws.nnxStack = w.nnxStack :=
  scan_raises wf hl hv hs hp hname hrev hlen hsel hins (fun x c => (hb x c).parametric) run hun hu hc j

/-- **C52, lengths that disagree.** If the arrays, the argument and `length` do not agree on a length, or none of them gives one, the
scan raises ValueError and changes nothing. -/
theorem C52_bad_length {w : World α} (wf : WFWorld w) {l : Loc} (hl : l < w.heap.length) (hv : AllValid w l) {o : ScanOptions α}
    {fuel : Nat} {s0 : State (PyVal α)} (hs : getState fuel w.heap l = some s0) {ss} (hp : s0.partition o.filters = .ok ss)
    (hname : dhas o.metadata kPartitionName = false) {R : Arrays α} {xs : Option (List A)}
    (harr : ∀ k x (g : Nat) f a, s0.get k = some x → o.variableAxes[g]? = some (f, a) → FirstMatch o.filters k x g →
      AllArrays (fun y => (R.size a y).isSome) x)
    (hlen : ∀ n, ¬ HasLength R o s0 xs n) (split : κ → Nat → Nat → κ) (j : Nat)
    (f : Option (PureContext κ) → C → Option A → Loc → World α → World α × Except Err (C × B)) (c : C) (ctx : Option (PureContext κ)) :
    scanApply R split fuel o j l f c xs ctx w = (w, .error .valueError) :=
  scan_bad_length wf hl hv hs hp hname harr hlen split j f c ctx

/-- **C52, entries in no collection.** If the filters do not cover the state, the scan raises what `partition` raises and changes nothing. -/
theorem C52_bad_filters {w : World α} {l : Loc} {o : ScanOptions α} {fuel : Nat} {s0 : State (PyVal α)} (hs : getState fuel w.heap l = some s0) {e : Err} (hp : s0.partition o.filters = .error e)
    (R : Arrays α) (xs : Option (List A)) (split : κ → Nat → Nat → κ) (j : Nat)
    (f : Option (PureContext κ) → C → Option A → Loc → World α → World α × Except Err (C × B)) (c : C) (ctx : Option (PureContext κ)) :
    scanApply R split fuel o j l f c xs ctx w = (w, .error e) :=
  scan_bad_filters hs hp R xs split j f c ctx

/-! ### C53 -/

/-- **C53, without new variables.** With `reverse=True`, if the body creates no variables, the scan is the loop over the slices from the
last to the first; the outputs and the axes variables are put back where the slices were. Missing: bodies that create variables
(`C53_reverse_new_carry_wrong`). -/
theorem C53_reverse_partial {w : World α} (wf : WFWorld w) {l : Loc} (hl : l < w.heap.length) (hv : AllValid w l) {o : ScanOptions α}
    {fuel : Nat} {s0 : State (PyVal α)} (hs : getState fuel w.heap l = some s0) {ss} (hp : s0.partition o.filters = .ok ss)
    (hname : dhas o.metadata kPartitionName = false) (hrev : o.reverse = true)
    {R : Arrays α} {xs : Option (List A)} {n : Nat} (hlen : HasLength R o s0 xs n) (hn : 0 < n)
    {split : κ → Nat → Nat → κ} {p : Str → Bool} {ctx : Option (PureContext κ)}
    (hsel : ctx.isSome = true → toRngPredicate o.splitRngs = .ok p) {ins}
    (hins : LoopInputs R o s0 xs (fun i => ctx.map (stepCtx split p n i)) n ins)
    {body : Option (PureContext κ) × Option A → C → Prog α (C × B)} (hb : ∀ x c, (body x c).Good)
    {c c' : C} {vl : World α} {outs} (run : LoopRun (calls body) l w c ins.reverse vl c' outs) (hun : Uniform o s0 (outs.map (·.1)))
    (hno : ∀ t ∈ outs, ∀ k, s0.get k = none → t.1.get k = none)
    {fin} (hfin : IsStacked R o s0 (outs.reverse.map (·.1)) fin) (j : Nat) :
    ∃ wd ws, updateState (vl.heap.length + 1) l [fin] vl = (wd, none) ∧
      scanApply R split fuel o j l (scanBody (calls body)) c xs ctx w = (ws, .ok (c', outs.reverse.map (·.2))) ∧
      AgreeOn w.heap.length wd ws ∧ SameGraph wd.heap l ws.heap l ∧ ws.jaxTrace = w.jaxTrace ∧ ws.nnxStack = w.nnxStack := by
  obtain ⟨d, b, c0, S, hsp, hpm⟩ := scan_setup wf hl hv hs hp hname
  obtain ⟨xsS, hm, heq⟩ := scanApply_eq (B := B) (C := C) S hsp hpm hlen hsel hins
  obtain ⟨wd, hu, _, hr⟩ := run_nonew S (fun x c => (hb x c).parametric) j run (by
      intro h
      rw [List.reverse_eq_nil_iff] at h
      rw [h] at hins
      rw [← hins.1] at hn; exact Nat.lt_irrefl _ hn) (xs := xsS)
    (by rw [hrev]; exact List.rel_reverse hm) hun hno (fin := fin) (by rw [hrev]; exact hfin)
  simp only [hrev, if_true] at hr
  obtain ⟨ws, h1, h2⟩ := hr fuel (by rw [hs]; rfl)
  exact ⟨wd, ws, hu, by rw [heq fuel j _ c hs]; exact h1, h2⟩

/-! ### C54 -/

/-- **C54, variables of the carry collection.** A variable of the carry collection that the body creates is in the module after
the scan, at the path and with the value it has after the loop. Missing: variables of the broadcast collection
(`C54_new_broadcast_lost`), and scans with `reverse`. -/
theorem C54_new_carry_partial {w : World α} (wf : WFWorld w) {l : Loc} (hl : l < w.heap.length) (hv : AllValid w l) {o : ScanOptions α}
    {fuel : Nat} {s0 : State (PyVal α)} (hs : getState fuel w.heap l = some s0) {ss} (hp : s0.partition o.filters = .ok ss)
    (hname : dhas o.metadata kPartitionName = false) (hrev : o.reverse = false)
    {R : Arrays α} {xs : Option (List A)} {n : Nat} (hlen : HasLength R o s0 xs n) (hn : 0 < n)
    {split : κ → Nat → Nat → κ} {p : Str → Bool} {ctx : Option (PureContext κ)}
    (hsel : ctx.isSome = true → toRngPredicate o.splitRngs = .ok p) {ins}
    (hins : LoopInputs R o s0 xs (fun i => ctx.map (stepCtx split p n i)) n ins)
    {body : Option (PureContext κ) × Option A → C → Prog α (C × B)} (hb : ∀ x c, (body x c).Good)
    {c c' : C} {vl : World α} {outs} (run : LoopRun (calls body) l w c ins vl c' outs) (hun : Uniform o s0 (outs.map (·.1)))
    {fin} (hfin : IsStacked R o s0 (outs.map (·.1)) fin) (j : Nat) {sl : State (PyVal α)}
    (hsl : getState (vl.heap.length + 1) vl.heap l = some sl) {k : Str} {y : PyVal α} (hnew : s0.get k = none) (hk : sl.get k = some y) :
    ∃ ws,
      scanApply R split fuel o j l (scanBody (calls body)) c xs ctx w = (ws, .ok (c', outs.map (·.2))) ∧
      observe ws.heap l (splitSlash k) = some (.value y) := by
  obtain ⟨d, b, c0, S, hsp, hpm⟩ := scan_setup wf hl hv hs hp hname
  obtain ⟨xsS, hm, heq⟩ := scanApply_eq (B := B) (C := C) S hsp hpm hlen hsel hins
  obtain ⟨wd, hu, ⟨wfd, hld, sl', sf, hsl', hsf, hget⟩, hr⟩ := run_forward S (fun x c => (hb x c).parametric) j run
    (by rintro rfl; rw [← hins.1] at hn; exact Nat.lt_irrefl _ hn) hm hrev hun hfin
  rw [hsl] at hsl'
  cases hsl'
  obtain ⟨ws, h1, _, h2, _⟩ := hr fuel (by rw [hs]; rfl)
  refine ⟨ws, by rw [heq fuel j _ c hs]; exact h1, ?_⟩
  have hfk : fin.get k = none := by
    cases hfk : fin.get k with
    | none => rfl
    | some z => obtain ⟨x, _, hx, _⟩ := hfin.only k z hfk; rw [hnew] at hx; cases hx
  obtain ⟨a, m, ⟨q, hq, hwk⟩, hat, _⟩ := (state_paths wfd.heap hld hsf).1 k y (by rw [hget, hfk, hk]; rfl)
  rw [h2.1, hq]
  simp only [observe, access_snoc hwk, hat, Option.bind_some, shown]

/-! ### C55 -/

/-- The keys of iteration `i`. -/
theorem stepCtx_keys (split : κ → Nat → Nat → κ) (p : Str → Bool) (n i : Nat) (c : PureContext κ) (name : Str) :
    dget (stepCtx split p n i c).keys name = (dget c.keys name).map fun k => if p name then split k n i else k := by
  simp only [stepCtx]
  rw [dget_append, dget_map_val (fun _ (k : κ) => split k n i), dget_filter_key p, dget_filter_key (fun m => !p m)]
  cases hp : p name <;> simp

/-- **C55.** When a context is given to a scanned function, iteration `i` of `n` merges a context with the same stream names and the
same flags. A stream that `split_rngs` selects has the `i`-th of `n` keys split from its key, every other stream has its key; the
paths of the counters are extended as by `partition`. `w'` is the world in which the iteration runs. -/
theorem C55_split_rngs {w : RngWorld κ} (hw : WFRng w) {c : Nat} {ctx : CtxObj} (hu : usable w c = some ctx) :
    ∃ (w1 : RngWorld κ) (pc : PureContext κ), partitionCtx c w = (w1, .ok pc) ∧
      ∀ (f : RngFilter), f.Valid → ∃ p, toRngPredicate f = .ok p ∧
      ∀ (split : κ → Nat → Nat → κ) (n i : Nat) (w' : RngWorld κ),
      ∃ (w2 : RngWorld κ) (c2 : Nat) (ctx2 : CtxObj), mergeCtx (stepCtx split p n i pc) w' = (w2, .ok c2) ∧
        usable w2 c2 = some ctx2 ∧
        (∀ name, ctx2.hasRng name = ctx.hasRng name) ∧ (∀ name, ctx2.getFlag name = ctx.getFlag name) ∧
        ∀ name s, dget ctx.rngs name = some s → ∃ st s2 k t, w.streams[s]? = some st ∧ dget ctx2.rngs name = some s2 ∧
          w2.streams[s2]? = some ⟨k, 0, st.path ++ [st.count + t]⟩ ∧ (ctx.Unaliased → t = 0) ∧
          (f.Selects name → k = split st.key n i) ∧ (¬ f.Selects name → k = st.key) := by
  obtain ⟨ss, fs, hf, hp⟩ := partitionCtx_of_usable hw hu
  obtain ⟨hn, hforks⟩ := forkAll_forks hf
  have hmem := List.mem_of_getElem? (mem_of_usable hu).1
  have hnd := hw.nodup ctx hmem
  have hfsnd : DNodup fs := by unfold DNodup dkeys; rw [hn]; exact hnd
  refine ⟨_, _, hp, ?_⟩
  intro f hfv
  obtain ⟨p, hpf, hpsel⟩ := (toRngPredicate_spec f).1 hfv
  refine ⟨p, hpf, ?_⟩
  intro split n i w'
  have hkeys := stepCtx_keys split p n i ⟨fs.map (fun kv => (kv.1, kv.2.key)), fs.map (fun kv => (kv.1, kv.2.path)), ctx.flags⟩
  have hrest : (stepCtx split p n i ⟨fs.map (fun kv => (kv.1, kv.2.key)), fs.map (fun kv => (kv.1, kv.2.path)), ctx.flags⟩).rngCounts =
    fs.map (fun kv => (kv.1, kv.2.path)) := rfl
  have hflags : (stepCtx split p n i ⟨fs.map (fun kv => (kv.1, kv.2.key)), fs.map (fun kv => (kv.1, kv.2.path)), ctx.flags⟩).flags =
    ctx.flags := rfl
  generalize stepCtx split p n i ⟨fs.map (fun kv => (kv.1, kv.2.key)), fs.map (fun kv => (kv.1, kv.2.path)), ctx.flags⟩ = sc at *
  have hkeys' : ∀ name, dget sc.keys name = (dget fs name).map fun st => if p name then split st.key n i else st.key := by
    intro name
    rw [hkeys name, dget_map_val (fun _ (v : RngStream κ) => v.key), Option.map_map]; rfl
  obtain ⟨ss2, rs2, hms, hspec⟩ := mergeStreams_ok (keys := sc.keys)
    (counts := fs.map (fun kv => (kv.1, kv.2.path))) w'.streams.length (by
      intro m π hm
      obtain ⟨x, hx, e⟩ := List.mem_map.1 hm
      cases e
      rw [← dget_isSome, hkeys', Option.isSome_map, dget_isSome]
      exact List.mem_map_of_mem (f := fun kv : Str × RngStream κ => kv.1) hx)
  obtain ⟨_, hrs, _, _, _⟩ := mergeStreams_spec hms
  have hrsnd : DNodup rs2 := by
    unfold DNodup dkeys; rw [hrs, List.map_map]; exact hfsnd
  have hm : mergeCtx sc w' = ({ w' with
        streams := w'.streams ++ ss2, ctxs := w'.ctxs ++ [⟨dofList rs2, dofList ctx.flags, w'.curTrace⟩] }, .ok w'.ctxs.length) := by
    simp only [mergeCtx, hrest, hms, hflags]
  refine ⟨_, _, ⟨dofList rs2, dofList ctx.flags, w'.curTrace⟩, hm, usable_of (by simp) rfl, ?_, ?_, ?_⟩
  · intro name
    simp only [CtxObj.hasRng, dhas]
    rw [dofList_of_nodup hrsnd]
    have : dkeys rs2 = dkeys ctx.rngs := by unfold dkeys; rw [hrs, List.map_map, ← hn]; rfl
    rw [Bool.eq_iff_iff, dget_isSome, dget_isSome, this]
  · intro name; simp only [CtxObj.getFlag, dofList_of_nodup (hw.flags ctx hmem)]
  · intro name s hd
    obtain ⟨st, g1, t, g2, g3, g4⟩ := hforks name s hd
    obtain ⟨k, q, k1, k2, k3⟩ := hspec name (st.path ++ [st.count + t])
      (List.mem_map_of_mem (f := fun kv : Str × RngStream κ => (kv.1, kv.2.path)) (dget_mem g2)) (by rw [List.map_map]; exact hfsnd)
    rw [hkeys', g2] at k1
    simp only [Option.map_some, Option.some.injEq] at k1
    refine ⟨st, w'.streams.length + q, k, t, g1, ?_, ?_, g4, ?_, ?_⟩
    · rw [dofList_of_nodup hrsnd]; exact k2
    · dsimp only
      rw [List.getElem?_append_right (by omega), show w'.streams.length + q - w'.streams.length = q by omega]
      exact k3
    · intro hsel
      rw [← k1, if_pos ((hpsel name).2 hsel)]
    · intro hsel
      rw [← k1, if_neg (fun h => hsel ((hpsel name).1 h))]

/-! ### An example -/

/-- Arrays with at most one axis. -/
inductive Arr where
  | num (v : Int)
  | vec (vs : List Int)
deriving DecidableEq, Repr

/-- The numbers, if all are numbers. -/
def Arr.nums : List Arr → Option (List Int)
  | [] => some []
  | .num v :: xs => (Arr.nums xs).map (v :: ·)
  | .vec _ :: _ => none

def arrOps : Arrays Arr where
  size a x := match x with
    | .vec vs => if a = 0 then some vs.length else none
    | .num _ => none
  index a i x := match x with
    | .vec vs => if a = 0 then (vs[i]?).map .num else none
    | .num _ => none
  stack a xs := if a = 0 then (Arr.nums xs).map .vec else none

def exVar (c : Cls) (x : Arr) : PyVal Arr := .cont c (.data cArray x) [(py! "sharding", .none)]

/-- A layer with stacked parameters `w`, a statistic `s`, and a shared number `b`. -/
def exLayers : World Arr :=
  ⟨[⟨{ name := py! "Layer", ancestors := [py! "Module"] }, [(py! "w", .val (exVar cParam (.vec [5, 6, 7]))), (py! "s", .val (exVar cBatchStat (.num 1))),
    (py! "b", .val (exVar cCache (.num 10)))], 3, false, ⟨0, 0⟩⟩], 9, 0, []⟩

def exOpts : ScanOptions Arr := { variableAxes := [(.ofType cParam, 0)], variableBroadcast := .ofType cCache, variableCarry := .ellipsis }

/-- The number a value holds. -/
def numOf : Option (Shown Arr) → Int
  | some (.value (.cont _ (.data _ (.num v)) _)) => v
  | some (.value (.data _ (.num v))) => v
  | _ => 0

/-- `s = m.s + m.w * m.b + x; m.s = s; m.w = m.w + 1; m.n = (m.n if there, else 0) + 1; return carry * 2 + m.w, s` -/
def exScanBody (x : Option (PureContext Nat) × Option Int) (c : Int) : Prog Arr (Int × Int) :=
  .get 0 (py! "w") fun w => .get 0 (py! "s") fun s => .get 0 (py! "b") fun b => .get 0 (py! "n") fun n =>
  .set 0 (py! "s") (.data cArray (.num (numOf s + numOf w * numOf b + x.2.getD 0))) fun _ =>
  .set 0 (py! "w") (.data cArray (.num (numOf w + 1))) fun _ =>
  .set 0 (py! "n") (.data cArray (.num (numOf n + 1))) fun _ =>
  .ret (c * 2 + numOf w, numOf s + numOf w * numOf b + x.2.getD 0)


/-- The three slices. -/
def exIns : List (State (PyVal Arr) × (Option (PureContext Nat) × Option Int)) :=
  [(⟨[(py! "b", exVar cCache (.num 10)), (py! "w", exVar cParam (.num 5))]⟩, none, some 100),
   (⟨[(py! "b", exVar cCache (.num 10)), (py! "w", exVar cParam (.num 6))]⟩, none, some 200),
   (⟨[(py! "b", exVar cCache (.num 10)), (py! "w", exVar cParam (.num 7))]⟩, none, some 300)]

/-- State and output after each iteration. -/
def exOuts : List (State (PyVal Arr) × Int) :=
  [(⟨[(py! "b", exVar cCache (.num 10)), (py! "n", .data cArray (.num 1)), (py! "s", exVar cBatchStat (.num 151)), (py! "w", exVar cParam (.num 6))]⟩, 151),
   (⟨[(py! "b", exVar cCache (.num 10)), (py! "n", .data cArray (.num 2)), (py! "s", exVar cBatchStat (.num 411)), (py! "w", exVar cParam (.num 7))]⟩, 411),
   (⟨[(py! "b", exVar cCache (.num 10)), (py! "n", .data cArray (.num 3)), (py! "s", exVar cBatchStat (.num 781)), (py! "w", exVar cParam (.num 8))]⟩, 781)]

def exFin : State (PyVal Arr) := ⟨[(py! "b", exVar cCache (.num 10)), (py! "w", exVar cParam (.vec [6, 7, 8]))]⟩

/-- The state before the scan. -/
def exLayersState : State (PyVal Arr) :=
  ⟨[(py! "b", exVar cCache (.num 10)), (py! "s", exVar cBatchStat (.num 1)), (py! "w", exVar cParam (.vec [5, 6, 7]))]⟩

theorem exLayers_state : getState 2 exLayers.heap 0 = some exLayersState := by rfl

theorem exVar_wf {c : Cls} (x : Arr) (hc : c ∈ [cParam, cBatchStat, cCache]) : WFContainer (exVar c x) := by
  simp only [List.mem_cons, List.not_mem_nil, or_false] at hc
  rcases hc with rfl | rfl | rfl <;>
  exact .mk (by simp [PyVal.Plain]) (by simp [DNodup, dkeys]) (by decide) (by decide) (fun _ _ => ⟨_, _, rfl⟩)

theorem exLayers_wf : WFWorld exLayers := by
  refine ⟨wfHeap_of_forall (by decide) ?_, ?_⟩
  · intro o ho
    simp only [exLayers, List.mem_cons, List.not_mem_nil, or_false] at ho
    subst ho
    refine ⟨by decide, ?_⟩
    intro na hna
    simp only [List.mem_cons, List.not_mem_nil, or_false] at hna
    rcases hna with rfl | rfl | rfl <;> refine ⟨by unfold NoSlash; decide, by decide, ?_, ?_⟩ <;>
      intros <;> rename_i h <;> try cases h
    all_goals exact exVar_wf _ (by simp)
  · intro l o ho
    have := List.mem_of_getElem? ho
    simp only [exLayers, List.mem_cons, List.not_mem_nil, or_false] at this ⊢
    subst this; simp

theorem exLayers_valid : AllValid exLayers 0 := by
  rintro l o ⟨p, hp⟩ ho
  have := List.mem_of_getElem? ho
  simp only [exLayers, List.mem_cons, List.not_mem_nil, or_false] at this
  subst this; decide

theorem exScanBody_good (x c) : (exScanBody x c).Good := by
  have hn : ∀ s ∈ [py! "w", py! "s", py! "n"], GoodName s := by
    intro s hs
    simp only [List.mem_cons, List.not_mem_nil, or_false] at hs
    rcases hs with rfl | rfl | rfl <;> exact ⟨by unfold NoSlash; decide, by decide⟩
  intro _ _ _ _ _ _ _ _
  exact ⟨hn _ (by simp), .inl trivial, fun _ => ⟨hn _ (by simp), .inl trivial, fun _ => ⟨hn _ (by simp), .inl trivial, fun _ => trivial⟩⟩⟩

theorem exRun : ∃ vl, LoopRun (calls exScanBody) 0 exLayers 1 exIns vl 47 exOuts :=
  ⟨_, .next rfl rfl (nodesOnly_of_check (by decide) (by decide)) rfl
    (.next rfl rfl (nodesOnly_of_check (by decide) (by decide)) rfl
      (.next rfl rfl (nodesOnly_of_check (by decide) (by decide)) rfl .done))⟩

theorem exFilters_wf : ∀ f ∈ exOpts.filters, f.WellFormed := by
  intro f hf
  simp only [ScanOptions.filters, exOpts, List.map_cons, List.map_nil, List.cons_append, List.nil_append, List.mem_cons, List.not_mem_nil, or_false] at hf
  rcases hf with rfl | rfl | rfl <;> trivial

/-- The hypotheses of C52 hold for this module, whose body creates `m.n` in the first iteration. -/
theorem exScan (j : Nat) : ∃ vl wd ws, LoopRun (calls exScanBody) 0 exLayers 1 exIns vl 47 exOuts ∧
    updateState (vl.heap.length + 1) 0 [exFin] vl = (wd, none) ∧
      scanApply arrOps (fun (k : Nat) n i => k * 100 + n * 10 + i) 2 exOpts j 0 (scanBody (calls exScanBody)) 1 (some [100, 200, 300]) none exLayers =
        (ws, .ok (47, [151, 411, 781])) ∧ AgreeOn 1 wd ws := by
  obtain ⟨vl, run⟩ := exRun
  obtain ⟨wd, ws, h1, h2, h3, _⟩ := C52_scan_is_loop (A := Int) exLayers_wf (l := 0) (by decide) exLayers_valid (o := exOpts) exLayers_state
    (ss := [⟨[(py! "w", exVar cParam (.vec [5, 6, 7]))]⟩, ⟨[(py! "b", exVar cCache (.num 10))]⟩, ⟨[(py! "s", exVar cBatchStat (.num 1))]⟩])
    rfl rfl rfl (R := arrOps) (xs := some [100, 200, 300]) (n := 3)
    (hasLength_of_check exFilters_wf (by decide) (by intro as h; cases h; rfl) nofun (.inr nofun)) (by decide)
    (split := fun (k : Nat) n i => k * 100 + n * 10 + i) (p := fun _ => false) (ctx := none) nofun (ins := exIns) (by
      refine ⟨rfl, ?_⟩
      intro i inp x hi
      have hlt : i < 3 := (List.getElem?_eq_some_iff.1 hi).1
      match i, hlt with
      | 0, _ => cases hi; exact ⟨isSlice_of_check exFilters_wf (by decide), rfl⟩
      | 1, _ => cases hi; exact ⟨isSlice_of_check exFilters_wf (by decide), rfl⟩
      | 2, _ => cases hi; exact ⟨isSlice_of_check exFilters_wf (by decide), rfl⟩)
    exScanBody_good run (uniform_of_check exFilters_wf (by decide) (by decide) (by decide) (by decide))
    (fin := exFin) (isStacked_of_check exFilters_wf (by decide)) j
  exact ⟨vl, wd, ws, run, h1, h2, h3⟩

def exOptsRev : ScanOptions Arr := { exOpts with reverse := true }

/-- How the examples split keys. -/
def exSplit (k n i : Nat) : Nat := k * 100 + n * 10 + i

/-- The call of the example with other options and bodies. -/
def exCall (o : ScanOptions Arr) (body : Option (PureContext Nat) × Option Int → Int → Prog Arr (Int × Int)) :
    World Arr × Except Err (Int × List Int) :=
  scanApply arrOps exSplit 9 o 7 0 (scanBody (calls body)) 1 (some [100, 200, 300]) none exLayers

/-- **C53 is false for bodies that create variables.** The body creates `m.n`. The loop from the last slice to the first ends with carry
53, the scan with `reverse=True` with 48: it processes the first slice first, then the last one. -/
theorem C53_reverse_new_carry_wrong :
    (∃ vl outs, LoopRun (calls exScanBody) 0 exLayers 1 exIns.reverse vl 53 outs) ∧
    ∃ ws outs, exCall exOptsRev exScanBody = (ws, .ok (48, outs)) :=
  ⟨⟨_, _, .next rfl rfl (nodesOnly_of_check (by decide) (by decide)) rfl
    (.next rfl rfl (nodesOnly_of_check (by decide) (by decide)) rfl
      (.next rfl rfl (nodesOnly_of_check (by decide) (by decide)) rfl .done))⟩, _, _, rfl⟩

/-- The same body without `m.n`. -/
def exScanBodyOld (x : Option (PureContext Nat) × Option Int) (c : Int) : Prog Arr (Int × Int) :=
  .get 0 (py! "w") fun w => .get 0 (py! "s") fun s => .get 0 (py! "b") fun b =>
  .set 0 (py! "s") (.data cArray (.num (numOf s + numOf w * numOf b + x.2.getD 0))) fun _ =>
  .set 0 (py! "w") (.data cArray (.num (numOf w + 1))) fun _ =>
  .ret (c * 2 + numOf w, numOf s + numOf w * numOf b + x.2.getD 0)

/-- With `reverse=True` and no new variables: 53, and everything is put back in order. -/
example : ∃ ws, exCall exOptsRev exScanBodyOld = (ws, .ok (53, [781, 631, 371])) ∧
    observe ws.heap 0 [py! "w"] = some (.value (exVar cParam (.vec [6, 7, 8]))) := ⟨_, rfl, by decide⟩

/-- State and output after each iteration of the reverse loop. -/
def exOutsRev : List (State (PyVal Arr) × Int) :=
  [(⟨[(py! "b", exVar cCache (.num 10)), (py! "s", exVar cBatchStat (.num 371)), (py! "w", exVar cParam (.num 8))]⟩, 371),
   (⟨[(py! "b", exVar cCache (.num 10)), (py! "s", exVar cBatchStat (.num 631)), (py! "w", exVar cParam (.num 7))]⟩, 631),
   (⟨[(py! "b", exVar cCache (.num 10)), (py! "s", exVar cBatchStat (.num 781)), (py! "w", exVar cParam (.num 6))]⟩, 781)]

/-- The hypotheses of C53 on the loop hold for it. -/
example : (∃ vl, LoopRun (calls exScanBodyOld) 0 exLayers 1 exIns.reverse vl 53 exOutsRev) ∧
    Uniform exOptsRev exLayersState (exOutsRev.map (·.1)) ∧
    (∀ t ∈ exOutsRev, ∀ k, exLayersState.get k = none → t.1.get k = none) ∧
    IsStacked arrOps exOptsRev exLayersState (exOutsRev.reverse.map (·.1)) exFin := by
  refine ⟨⟨_, .next rfl rfl (nodesOnly_of_check (by decide) (by decide)) rfl
    (.next rfl rfl (nodesOnly_of_check (by decide) (by decide)) rfl
      (.next rfl rfl (nodesOnly_of_check (by decide) (by decide)) rfl .done))⟩,
    uniform_of_check (o := exOptsRev) exFilters_wf (by decide) (by decide) (by decide) (by decide), ?_,
    isStacked_of_check (o := exOptsRev) exFilters_wf (by decide)⟩
  intro t ht k hk
  have h1 : t.1.keys = exLayersState.keys := by
    revert t; decide
  have h2 : ∀ s : State (PyVal Arr), s.get k = none ↔ k ∉ s.keys := fun s => dget_eq_none
  rw [h2] at hk ⊢
  rwa [h1]

/-- **C54 is false for broadcast variables.** The body creates `m.z`, a variable of the broadcast collection. A loop leaves it in the
module, the scan does not. -/
theorem C54_new_broadcast_lost : ∃ body, (∀ x c, (body x c : Prog Arr (Int × Int)).Good) ∧
    (∃ vl outs, LoopRun (calls body) 0 exLayers 1 exIns vl 1 outs ∧ observe vl.heap 0 [py! "z"] = some (.value (exVar cCache (.num 4)))) ∧
    ∃ ws outs, exCall exOpts body = (ws, .ok (1, outs)) ∧ observe ws.heap 0 [py! "z"] = none := by
  refine ⟨fun _ c => .set 0 (py! "z") (exVar cCache (.num 4)) fun _ => .ret (c, 0), ?_, ⟨_, _,
    .next rfl rfl (nodesOnly_of_check (by decide) (by decide)) rfl
    (.next rfl rfl (nodesOnly_of_check (by decide) (by decide)) rfl
      (.next rfl rfl (nodesOnly_of_check (by decide) (by decide)) rfl .done)), by decide⟩, _, _, rfl, by decide⟩
  intro x c
  exact ⟨⟨by unfold NoSlash; decide, by decide⟩, .inr (exVar_wf _ (by simp)), fun _ => trivial⟩

/-- The difference of the broadcast states is taken the wrong way round: a broadcast variable that the body deletes comes back, with
the values of all iterations stacked. -/
theorem C54_deleted_broadcast_stacked : ∃ body, (∀ x c, (body x c : Prog Arr (Int × Int)).Good) ∧
    ∃ ws outs, exCall exOpts body = (ws, .ok (1, outs)) ∧
      observe exLayers.heap 0 [py! "b"] = some (.value (exVar cCache (.num 10))) ∧
      observe ws.heap 0 [py! "b"] = some (.value (exVar cCache (.vec [10, 10, 10]))) :=
  ⟨fun _ c => .del 0 (py! "b") fun _ => .ret (c, 0), fun _ _ _ => trivial, _, _, rfl, by decide, by decide⟩

/-- The new carry variable of the example. -/
example : ∃ ws outs, exCall exOpts exScanBody = (ws, .ok (47, outs)) ∧
    observe ws.heap 0 [py! "n"] = some (.value (.data cArray (.num 3))) ∧
    observe ws.heap 0 [py! "s"] = some (.value (exVar cBatchStat (.num 781))) ∧
    observe ws.heap 0 [py! "w"] = some (.value (exVar cParam (.vec [6, 7, 8]))) ∧
    observe ws.heap 0 [py! "b"] = some (.value (exVar cCache (.num 10))) := ⟨_, _, rfl, by decide, by decide, by decide, by decide⟩

/-- Lengths that disagree, and no length at all. -/
example : exCall { exOpts with length := some 2 } exScanBody = (exLayers, .error .valueError) ∧
    scanApply (κ := Nat) (A := Int) arrOps exSplit 9 { exOpts with variableAxes := [], variableBroadcast := .none } 7 0 (scanBody (calls exScanBody)) 1 none none exLayers =
      (exLayers, .error .valueError) := ⟨rfl, rfl⟩

/-- Streams "params" and "dropout"; "dropout" is split. -/
example : stepCtx exSplit (fun n => decide (n = py! "dropout")) 3 2
    ⟨[(py! "params", 1), (py! "dropout", 2)], [(py! "params", [0]), (py! "dropout", [0])], []⟩ =
    ⟨[(py! "dropout", 232), (py! "params", 1)], [(py! "params", [0]), (py! "dropout", [0])], []⟩ := by decide

end Nnx
