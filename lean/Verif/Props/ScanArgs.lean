import Verif.Props.Scan
import Verif.Proofs.ScanArgs
/-
C85: the argument and the output of a scan (in_axes, out_axes).
-/
namespace Nnx
variable {α κ C : Type} [DecidableEq α]

/-- The function that is scanned. -/
def callBody (body : Option (PureContext κ) × PyVal α → C → Prog α (C × PyVal α)) :
    Option (PureContext κ) → C → PyVal α → Loc → World α → World α × Except Err (C × PyVal α) :=
  fun ctx c a => (body (ctx, a) c).call

theorem LoopRun.mapInputs {X Y B : Type} {body : X → C → Prog α (C × B)} {body' : Y → C → Prog α (C × B)} {g : X → Y} {m : Loc} {w w' : World α} {c c' : C}
    {ins : List (State (PyVal α) × X)} {outs : List (State (PyVal α) × B)} (run : LoopRun (calls body) m w c ins w' c' outs) :
    (∀ i ∈ ins, body' (g i.2) = body i.2) → LoopRun (calls body') m w c (ins.map fun i => (i.1, g i.2)) w' c' outs := by
  induction run with
  | done => intro _; exact .done
  | next h1 h2 h3 h4 _ ih =>
    intro h
    refine .next h1 ?_ h3 h4 (ih fun i hi => h i (List.mem_cons_of_mem _ hi))
    simp only [calls] at h2 ⊢
    rw [h _ List.mem_cons_self]
    exact h2

omit [DecidableEq α] in
/-- The slices of an argument. -/
theorem argSlices_spec {R : Arrays α} {move : Int → Int → α → Option α} (laws : MoveLaws R move) {axes : SpecTree Int} {x x' : PyVal α}
    (h : moveIn move axes x = .ok x') {n : Nat} (hn : ArgLength R axes x n) :
    (AllArrays (fun _ => False) x → argSlices R x' = .ok none ∧ ∀ i y, ArgSlice R axes i x y → y = x') ∧
    (¬ AllArrays (fun _ => False) x → ∃ xs, argSlices R x' = .ok (some xs) ∧ xs.length = n ∧ ∀ i < n, ∃ y, xs[i]? = some y ∧
      ∀ z, ArgSlice R axes i x z ↔ z = y) := by
  obtain ⟨h1, h2, h3, h4⟩ := moveIn_spec laws h
  rw [h2] at hn
  rw [h4, noArrays_iff]
  constructor
  · intro hno
    refine ⟨by simp only [argSlices, hno, List.map_nil, allSome], ?_⟩
    intro i y hy
    rw [h3, ← sliceVal_iff] at hy
    have hid : TreeOf (fun as b => ∃ z, as = [z] ∧ R.index 0 i z = some b) [x'] x' := by
      refine TreeOf.mono ?_ (noArrays_iff.2 hno)
      rintro as b ⟨_, hf⟩
      exact hf.elim
    have e1 := tree_mapLeaves hid rfl
    have e2 := tree_mapLeaves hy rfl
    rw [e1, Option.some.injEq] at e2
    exact e2.symm
  · intro hsome
    obtain ⟨ls, hls, hsz⟩ := allArrays_iff.1 hn
    have hne : ls ≠ [] := by rintro rfl; exact hsome hls
    have hall : allSome (ls.map (R.size 0)) = some (ls.map fun _ => n) := by
      clear hne hls
      induction ls with
      | nil => rfl
      | cons y ls ih =>
        simp only [List.map_cons, hsz y List.mem_cons_self, allSome, ih fun z hz => hsz z (List.mem_cons_of_mem _ hz), Option.map_some]
    have hsl : ∀ i < n, ∃ y, x'.mapLeaves (R.index 0 i) = some y := by
      intro i hi
      obtain ⟨y, hy⟩ := TreeOf.exists (h := fun as b => ∃ z, as = [z] ∧ R.index 0 i z = some b) (by
        rintro as b ⟨rfl, hb⟩
        obtain ⟨c, hc⟩ := Option.isSome_iff_exists.1 (laws.slices 0 b n i hb hi)
        exact ⟨c, b, rfl, hc⟩) hn
      exact ⟨y, tree_mapLeaves hy rfl⟩
    have hx : ∃ xs, allSome ((List.range n).map fun i => x'.mapLeaves (R.index 0 i)) = some xs ∧ xs.length = n ∧
        ∀ i < n, xs[i]? = x'.mapLeaves (R.index 0 i) := by
      clear hall hsz hls hne h3 h4 h2 h1 hn
      have : ∀ (is : List Nat), (∀ i ∈ is, i < n) → ∃ xs, allSome (is.map fun i => x'.mapLeaves (R.index 0 i)) = some xs ∧ xs.length = is.length ∧
          ∀ (k i : Nat), is[k]? = some i → xs[k]? = x'.mapLeaves (R.index 0 i) := by
        intro is
        induction is with
        | nil => intro _; exact ⟨[], rfl, rfl, by simp⟩
        | cons i is ih =>
          intro hlt
          obtain ⟨xs, e1, e2, e3⟩ := ih fun k hk => hlt k (List.mem_cons_of_mem _ hk)
          obtain ⟨y, hy⟩ := hsl i (hlt i List.mem_cons_self)
          refine ⟨y :: xs, by simp only [List.map_cons, hy, allSome, e1, Option.map_some], by simp [e2], ?_⟩
          rintro (_ | k) i' hk
          · simp only [List.getElem?_cons_zero, Option.some.injEq] at hk ⊢
            rw [← hk, hy]
          · simpa using e3 k i' (by simpa using hk)
      obtain ⟨xs, e1, e2, e3⟩ := this (List.range n) fun i hi => List.mem_range.1 hi
      exact ⟨xs, e1, by simpa using e2, fun i hi => e3 i i (by rw [List.getElem?_range hi])⟩
    obtain ⟨xs, hxs, hlen, hget⟩ := hx
    refine ⟨xs, ?_, hlen, ?_⟩
    · cases ls with
      | nil => exact absurd rfl hne
      | cons y ls =>
        simp only [List.map_cons] at hall
        have hal : (ls.map fun _ => n).all (fun m => decide (m = n)) = true := by simp
        simp only [argSlices, hls, List.map_cons, hall, hal, if_true, hxs]
    · intro i hi
      obtain ⟨y, hy⟩ := hsl i hi
      refine ⟨y, by rw [hget i hi, hy], ?_⟩
      intro z
      rw [h3, hy, Option.some.injEq]
      exact eq_comm

/-- The call, once the slices of the argument are known. -/
theorem scanCall_of {R : Arrays α} {move : Int → Int → α → Option α} (laws : MoveLaws R move) {split : κ → Nat → Nat → κ} {fuel : Nat}
    {o : ScanOptions α} {inAxes outAxes : SpecTree Int} {j : Nat} {l : Loc} {body : Option (PureContext κ) × PyVal α → C → Prog α (C × PyVal α)}
    {c c' : C} {arg arg' : PyVal α} {ctx : Option (PureContext κ)} {w ws : World α} {r xs ys}
    (hpm : partitionModule fuel w.heap l o.filters = .ok r) (hmv : moveIn move inAxes arg = .ok arg') (hsl : argSlices R arg' = .ok xs)
    (hrun : scanApply R split fuel o j l (scanBody (calls fun x c => body (x.1, x.2.getD arg') c)) c xs ctx w = (ws, .ok (c', ys))) (hne : ys ≠ []) :
    (∀ out, OutStacked R outAxes ys out → scanCall R move split fuel o inAxes outAxes j l (callBody body) c arg ctx w = (ws, .ok (c', out))) ∧
    ((∃ v, StackedVal R 0 ys v) → (∀ out, ¬ OutStacked R outAxes ys out) →
      scanCall R move split fuel o inAxes outAxes j l (callBody body) c arg ctx w = (w, .error .valueError)) := by
  have hrun' : scanApply R split fuel o j l (fun ctx c a => callBody body ctx c (a.getD arg')) c xs ctx w = (ws, .ok (c', ys)) := hrun
  constructor
  · intro out hout
    obtain ⟨st, h1, h2⟩ := (stack_moveOut laws hne).1 hout
    simp only [scanCall, hpm, hmv, hsl, hrun', h1, h2]
  · rintro ⟨v, hv⟩ hno
    have hv := stackedVal_iff.1 hv
    cases hm : moveOut move outAxes v with
    | error e => simp only [scanCall, hpm, hmv, hsl, hrun', hv, hm, moveOut_error hm]
    | ok out => exact absurd ((stack_moveOut laws hne).2 ⟨v, hv, hm⟩) (hno out)

theorem LoopRun.length_eq {X B : Type} {body : X → C → Prog α (C × B)} {m : Loc} {w w' : World α} {c c' : C}
    {ins : List (State (PyVal α) × X)} {outs : List (State (PyVal α) × B)} (run : LoopRun (calls body) m w c ins w' c' outs) : outs.length = ins.length := by
  induction run with
  | done => rfl
  | next _ _ _ _ _ ih => simp [ih]

omit [DecidableEq α] in
/-- The loop of a call is a loop with the slices of the argument. -/
theorem call_inputs {R : Arrays α} {move : Int → Int → α → Option α} (laws : MoveLaws R move) {o : ScanOptions α} {inAxes : SpecTree Int}
    {s0 : State (PyVal α)} {arg : PyVal α} {n : Nat} (hlen : CallLength R o inAxes s0 arg n) {ctxs : Nat → Option (PureContext κ)} {ins}
    (hins : CallInputs R o inAxes s0 arg ctxs n ins) :
    ∃ arg' xs ins', moveIn move inAxes arg = .ok arg' ∧ argSlices R arg' = .ok xs ∧ HasLength R o s0 xs n ∧ LoopInputs R o s0 xs ctxs n ins' ∧
      ∃ g : Option (PureContext κ) × PyVal α → Option (PureContext κ) × Option (PyVal α), ins' = ins.map (fun i => (i.1, g i.2)) ∧
        ∀ i ∈ ins, ((g i.2).1, (g i.2).2.getD arg') = i.2 := by
  obtain ⟨arg', hmv⟩ := moveIn_exists laws hlen.args
  obtain ⟨h1, h2⟩ := argSlices_spec laws hmv hlen.args
  have hcover : ∀ i ∈ ins, ∃ k : Nat, k < n ∧ ins[k]? = some i := by
    intro i hi
    obtain ⟨k, hk, rfl⟩ := List.mem_iff_getElem.1 hi
    exact ⟨k, by rw [← hins.1]; exact hk, List.getElem?_eq_getElem hk⟩
  by_cases hno : AllArrays (fun _ => False) arg
  · obtain ⟨hsl, hall⟩ := h1 hno
    refine ⟨arg', none, _, hmv, hsl, ?_, ?_, fun x => (x.1, none), rfl, ?_⟩
    · refine ⟨hlen.leaves, nofun, hlen.option, ?_⟩
      rcases hlen.known with h | h | h
      · exact .inl h
      · exact absurd hno h
      · exact .inr (.inr h)
    · refine ⟨by simp [hins.1], ?_⟩
      intro i inp x hx
      rw [List.getElem?_map, Option.map_eq_some_iff] at hx
      obtain ⟨⟨inp', ctx, a⟩, hx, he⟩ := hx
      cases he
      obtain ⟨h1, h2, _⟩ := hins.2 i _ _ _ hx
      exact ⟨h1, by rw [h2]; rfl⟩
    · rintro ⟨inp, ctx, a⟩ hi
      obtain ⟨k, _, hk⟩ := hcover _ hi
      obtain ⟨_, _, h3⟩ := hins.2 k _ _ _ hk
      rw [hall k a h3]
      rfl
  · obtain ⟨xs, hsl, hl, hall⟩ := h2 hno
    refine ⟨arg', some xs, _, hmv, hsl, ?_, ?_, fun x => (x.1, some x.2), rfl, fun _ _ => rfl⟩
    · refine ⟨hlen.leaves, by intro as h; cases h; exact hl, hlen.option, .inr (.inl nofun)⟩
    · refine ⟨by simp [hins.1], ?_⟩
      intro i inp x hx
      rw [List.getElem?_map, Option.map_eq_some_iff] at hx
      obtain ⟨⟨inp', ctx, a⟩, hx, he⟩ := hx
      cases he
      obtain ⟨h1, h2, h3⟩ := hins.2 i _ _ _ hx
      have hin : i < n := by rw [← hins.1]; exact (List.getElem?_eq_some_iff.1 hx).1
      obtain ⟨y, hy, hz⟩ := hall i hin
      rw [hz] at h3
      subst h3
      exact ⟨h1, by rw [h2]; simp [hy]⟩

variable {w : World α} {l : Loc} {o : ScanOptions α}

/-- **C85, a scanned call.** The argument of a scanned function is a tree of arrays, and `in_axes` a prefix of that tree with axes as
leaves; likewise the output and `out_axes`. A scan is then the loop over the slices: the argument of iteration `i` is the tree
of the slices `i` of its arrays, each along the axis that `in_axes` has for it, and the output is the tree of the outputs of the
iterations, stacked along the axis that `out_axes` has for it. The module is as in C52. -/
theorem C85_scan_call (wf : WFWorld w) (hl : l < w.heap.length) (hv : AllValid w l)
    {fuel : Nat} {s0 : State (PyVal α)} (hs : getState fuel w.heap l = some s0) {ss} (hp : s0.partition o.filters = .ok ss)
    (hname : dhas o.metadata kPartitionName = false) (hrev : o.reverse = false)
    {R : Arrays α} {move : Int → Int → α → Option α} (laws : MoveLaws R move) {inAxes outAxes : SpecTree Int} {arg : PyVal α} {n : Nat}
    (hlen : CallLength R o inAxes s0 arg n) (hn : 0 < n)
    {split : κ → Nat → Nat → κ} {p : Str → Bool} {ctx : Option (PureContext κ)}
    (hsel : ctx.isSome = true → toRngPredicate o.splitRngs = .ok p) {ins}
    (hins : CallInputs R o inAxes s0 arg (fun i => ctx.map (stepCtx split p n i)) n ins)
    {body : Option (PureContext κ) × PyVal α → C → Prog α (C × PyVal α)} (hb : ∀ x c, (body x c).Good)
    {c c' : C} {vl : World α} {outs} (run : LoopRun (calls body) l w c ins vl c' outs) (hun : Uniform o s0 (outs.map (·.1)))
    {fin} (hfin : IsStacked R o s0 (outs.map (·.1)) fin) {out : PyVal α} (hout : OutStacked R outAxes (outs.map (·.2)) out) (j : Nat) :
    ∃ wd ws, updateState (vl.heap.length + 1) l [fin] vl = (wd, none) ∧
      scanCall R move split fuel o inAxes outAxes j l (callBody body) c arg ctx w = (ws, .ok (c', out)) ∧
      AgreeOn w.heap.length wd ws ∧ SameGraph wd.heap l ws.heap l ∧ ws.jaxTrace = w.jaxTrace ∧ ws.nnxStack = w.nnxStack := by
  obtain ⟨d, b, c0, _, _, hpm⟩ := scan_setup wf hl hv hs hp hname
  obtain ⟨arg', xs, _, hmv, hsl, hlen', hins', g, rfl, hg⟩ := call_inputs laws hlen hins
  have run' := run.mapInputs (body' := fun x c => body (x.1, x.2.getD arg') c) (g := g) (fun i hi => by
    funext c
    exact congrArg (fun x => body x c) (hg i hi))
  obtain ⟨wd, ws, h1, h3, h4⟩ := C52_scan_is_loop wf hl hv hs hp hname hrev hlen' hn hsel hins' (fun x c => hb _ c) run' hun hfin j
  refine ⟨wd, ws, h1, ?_, h4⟩
  refine (scanCall_of laws (hpm fuel hs) hmv hsl h3 ?_).1 out hout
  intro h
  have := congrArg List.length h
  rw [List.length_map, run.length_eq, hins.1] at this
  exact absurd this (by simpa using Nat.ne_of_gt hn)

/-- **C85, reverse.** The same with `reverse=True`, for bodies that create no variables: the slices are processed from the last to the
first, and output `i` is stacked at position `i`. -/
theorem C85_reverse (wf : WFWorld w) (hl : l < w.heap.length) (hv : AllValid w l)
    {fuel : Nat} {s0 : State (PyVal α)} (hs : getState fuel w.heap l = some s0) {ss} (hp : s0.partition o.filters = .ok ss)
    (hname : dhas o.metadata kPartitionName = false) (hrev : o.reverse = true)
    {R : Arrays α} {move : Int → Int → α → Option α} (laws : MoveLaws R move) {inAxes outAxes : SpecTree Int} {arg : PyVal α} {n : Nat}
    (hlen : CallLength R o inAxes s0 arg n) (hn : 0 < n)
    {split : κ → Nat → Nat → κ} {p : Str → Bool} {ctx : Option (PureContext κ)}
    (hsel : ctx.isSome = true → toRngPredicate o.splitRngs = .ok p) {ins}
    (hins : CallInputs R o inAxes s0 arg (fun i => ctx.map (stepCtx split p n i)) n ins)
    {body : Option (PureContext κ) × PyVal α → C → Prog α (C × PyVal α)} (hb : ∀ x c, (body x c).Good)
    {c c' : C} {vl : World α} {outs} (run : LoopRun (calls body) l w c ins.reverse vl c' outs) (hun : Uniform o s0 (outs.map (·.1)))
    (hno : ∀ t ∈ outs, ∀ k, s0.get k = none → t.1.get k = none)
    {fin} (hfin : IsStacked R o s0 (outs.reverse.map (·.1)) fin) {out : PyVal α} (hout : OutStacked R outAxes (outs.reverse.map (·.2)) out) (j : Nat) :
    ∃ wd ws, updateState (vl.heap.length + 1) l [fin] vl = (wd, none) ∧
      scanCall R move split fuel o inAxes outAxes j l (callBody body) c arg ctx w = (ws, .ok (c', out)) ∧
      AgreeOn w.heap.length wd ws ∧ SameGraph wd.heap l ws.heap l ∧ ws.jaxTrace = w.jaxTrace ∧ ws.nnxStack = w.nnxStack := by
  obtain ⟨d, b, c0, _, _, hpm⟩ := scan_setup wf hl hv hs hp hname
  obtain ⟨arg', xs, _, hmv, hsl, hlen', hins', g, rfl, hg⟩ := call_inputs laws hlen hins
  have run' := run.mapInputs (body' := fun x c => body (x.1, x.2.getD arg') c) (g := g) (fun i hi => by
    funext c
    exact congrArg (fun x => body x c) (hg i (by simpa using hi)))
  rw [List.map_reverse] at run'
  obtain ⟨wd, ws, h1, h3, h4⟩ := C53_reverse_partial wf hl hv hs hp hname hrev hlen' hn hsel hins' (fun x c => hb _ c) run' hun hno hfin j
  refine ⟨wd, ws, h1, ?_, h4⟩
  refine (scanCall_of laws (hpm fuel hs) hmv hsl h3 ?_).1 out hout
  intro h
  have := congrArg List.length h
  rw [List.length_map, List.length_reverse, run.length_eq, List.length_reverse, hins.1] at this
  exact absurd this (by simpa using Nat.ne_of_gt hn)

/-- **C85, an `out_axes` that does not fit.** If `out_axes` is not a prefix of the tree of the outputs, or an array does not have the axis, the
call raises ValueError, and no Module is changed although all iterations ran. -/
theorem C85_bad_out_axes (wf : WFWorld w) (hl : l < w.heap.length) (hv : AllValid w l)
    {fuel : Nat} {s0 : State (PyVal α)} (hs : getState fuel w.heap l = some s0) {ss} (hp : s0.partition o.filters = .ok ss)
    (hname : dhas o.metadata kPartitionName = false) (hrev : o.reverse = false)
    {R : Arrays α} {move : Int → Int → α → Option α} (laws : MoveLaws R move) {inAxes outAxes : SpecTree Int} {arg : PyVal α} {n : Nat}
    (hlen : CallLength R o inAxes s0 arg n) (hn : 0 < n)
    {split : κ → Nat → Nat → κ} {p : Str → Bool} {ctx : Option (PureContext κ)}
    (hsel : ctx.isSome = true → toRngPredicate o.splitRngs = .ok p) {ins}
    (hins : CallInputs R o inAxes s0 arg (fun i => ctx.map (stepCtx split p n i)) n ins)
    {body : Option (PureContext κ) × PyVal α → C → Prog α (C × PyVal α)} (hb : ∀ x c, (body x c).Good)
    {c c' : C} {vl : World α} {outs} (run : LoopRun (calls body) l w c ins vl c' outs) (hun : Uniform o s0 (outs.map (·.1)))
    {fin} (hfin : IsStacked R o s0 (outs.map (·.1)) fin) (hst : ∃ v, StackedVal R 0 (outs.map (·.2)) v)
    (hout : ∀ out, ¬ OutStacked R outAxes (outs.map (·.2)) out) (j : Nat) :
    scanCall R move split fuel o inAxes outAxes j l (callBody body) c arg ctx w = (w, .error .valueError) := by
  obtain ⟨d, b, c0, _, _, hpm⟩ := scan_setup wf hl hv hs hp hname
  obtain ⟨arg', xs, _, hmv, hsl, hlen', hins', g, rfl, hg⟩ := call_inputs laws hlen hins
  have run' := run.mapInputs (body' := fun x c => body (x.1, x.2.getD arg') c) (g := g) (fun i hi => by
    funext c
    exact congrArg (fun x => body x c) (hg i hi))
  obtain ⟨wd, ws, h1, h3, h4⟩ := C52_scan_is_loop wf hl hv hs hp hname hrev hlen' hn hsel hins' (fun x c => hb _ c) run' hun hfin j
  refine (scanCall_of laws (hpm fuel hs) hmv hsl h3 ?_).2 hst hout
  intro h
  have := congrArg List.length h
  rw [List.length_map, run.length_eq, hins.1] at this
  exact absurd this (by simpa using Nat.ne_of_gt hn)

/-- **C85, lengths and axes that do not fit.** If `in_axes` is not a prefix of the argument, an array does not have the axis, or there is no
common length of all arrays, or none at all, the call raises ValueError and changes nothing. -/
theorem C85_bad_length (wf : WFWorld w) (hl : l < w.heap.length) (hv : AllValid w l)
    {fuel : Nat} {s0 : State (PyVal α)} (hs : getState fuel w.heap l = some s0) {ss} (hp : s0.partition o.filters = .ok ss)
    (hname : dhas o.metadata kPartitionName = false) {R : Arrays α} {move : Int → Int → α → Option α} (laws : MoveLaws R move)
    {inAxes outAxes : SpecTree Int} {arg : PyVal α}
    (harr : ∀ k x (g : Nat) f a, s0.get k = some x → o.variableAxes[g]? = some (f, a) → FirstMatch o.filters k x g →
      AllArrays (fun y => (R.size a y).isSome) x) (_harg : AllArrays (fun _ => True) arg)
    (hlen : ∀ n, ¬ CallLength R o inAxes s0 arg n) (split : κ → Nat → Nat → κ) (j : Nat)
    (f : Option (PureContext κ) → C → PyVal α → Loc → World α → World α × Except Err (C × PyVal α)) (c : C) (ctx : Option (PureContext κ)) :
    scanCall R move split fuel o inAxes outAxes j l f c arg ctx w = (w, .error .valueError) := by
  obtain ⟨d, b, c0, _, _, hpm⟩ := scan_setup wf hl hv hs hp hname
  cases hmv : moveIn move inAxes arg with
  | error e => simp only [scanCall, hpm fuel hs, hmv, moveIn_error hmv]
  | ok arg' =>
    obtain ⟨⟨ls, h1, h1'⟩, h2, h3, h4⟩ := moveIn_spec laws hmv
    by_cases hex : ∃ n, ArgLength R inAxes arg n ∧ ¬ AllArrays (fun _ => False) arg
    · obtain ⟨n, hn, hsome⟩ := hex
      obtain ⟨xs, hsl, hxl, _⟩ := (argSlices_spec laws hmv hn).2 hsome
      have := C52_bad_length (A := PyVal α) (B := PyVal α) wf hl hv hs hp hname (xs := some xs) harr (by
        intro m hm
        have hmn : n = m := by rw [← hxl]; exact hm.arg xs rfl
        subst hmn
        exact hlen n ⟨hm.leaves, hn, hm.option, .inr (.inl hsome)⟩) split j (fun ctx c a => f ctx c (a.getD arg')) c ctx
      simp only [scanCall, hpm fuel hs, hmv, hsl, this]
    · by_cases hno : AllArrays (fun _ => False) arg
      · have hany : ∀ n, ArgLength R inAxes arg n := by
          intro n
          rw [h2]
          exact TreeOf.mono (fun as b ⟨h, hf⟩ => ⟨h, hf.elim⟩) (h4.1 hno)
        obtain ⟨hsl, _⟩ := (argSlices_spec laws hmv (hany 0)).1 hno
        have := C52_bad_length (A := PyVal α) (B := PyVal α) wf hl hv hs hp hname (xs := none) harr (by
          intro m hm
          refine hlen m ⟨hm.leaves, hany m, hm.option, ?_⟩
          rcases hm.known with h | h | h
          · exact .inl h
          · exact absurd rfl h
          · exact .inr (.inr h)) split j (fun ctx c a => f ctx c (a.getD arg')) c ctx
        simp only [scanCall, hpm fuel hs, hmv, hsl, this]
      · have hsl : argSlices R arg' = .error .valueError := by
          have hall : allSome (ls.map (R.size 0)) ≠ none := by
            clear h1
            induction ls with
            | nil => exact nofun
            | cons y ls ih =>
              obtain ⟨m, hm⟩ := Option.isSome_iff_exists.1 (h1' y List.mem_cons_self)
              simp only [List.map_cons, hm, allSome, ne_eq, Option.map_eq_none_iff]
              exact ih fun z hz => h1' z (List.mem_cons_of_mem _ hz)
          obtain ⟨sizes, hsz⟩ := Option.ne_none_iff_exists'.1 hall
          cases sizes with
          | nil =>
            have : ls = [] := by
              cases ls with
              | nil => rfl
              | cons y ls =>
                obtain ⟨m, hm⟩ := Option.isSome_iff_exists.1 (h1' y List.mem_cons_self)
                simp [hm, allSome] at hsz
            subst this
            exact absurd (h4.2 (noArrays_iff.2 h1)) hno
          | cons n sizes =>
            simp only [argSlices, h1, hsz]
            split
            · next hs =>
              refine absurd ⟨n, ?_, hno⟩ hex
              rw [h2]
              refine allArrays_iff.2 ⟨ls, h1, ?_⟩
              have hmem : ∀ m ∈ n :: sizes, m = n := by
                intro m hm
                rcases List.mem_cons.1 hm with rfl | hm
                · rfl
                · simpa using List.all_eq_true.1 hs m hm
              clear h1 h1' hall hex
              intro y hy
              generalize n :: sizes = sz at hsz hmem
              induction ls generalizing sz with
              | nil => cases hy
              | cons z ls ih =>
                simp only [List.map_cons] at hsz
                cases hz : R.size 0 z with
                | none => rw [hz] at hsz; cases hsz
                | some m =>
                  simp only [hz, allSome, Option.map_eq_some_iff] at hsz
                  obtain ⟨sz', h5, rfl⟩ := hsz
                  rcases List.mem_cons.1 hy with rfl | hy
                  · rw [hz, hmem m List.mem_cons_self]
                  · exact ih hy sz' h5 fun m hm => hmem m (List.mem_cons_of_mem _ hm)
            · rfl
        simp only [scanCall, hpm fuel hs, hmv, hsl]

/-! ### An example -/

/-- Arrays with at most two axes; a matrix is the list of its rows. -/
inductive Mat where
  | num (v : Int)
  | vec (vs : List Int)
  | mat (rows : List (List Int))
deriving DecidableEq, Repr

/-- At least one row, all of the same positive length. -/
def Mat.Ok (rows : List (List Int)) : Prop := 0 < (rows.headD []).length ∧ ∀ r ∈ rows, r.length = (rows.headD []).length

instance : DecidablePred Mat.Ok := fun _ => inferInstanceAs (Decidable (_ ∧ _))

def Mat.transpose (rows : List (List Int)) : List (List Int) :=
  (List.range (rows.headD []).length).map fun j => rows.map fun r => r[j]?.getD 0

/-- `jnp.moveaxis` -/
def Mat.move (src dst : Int) : Mat → Option Mat
  | .num _ => none
  | .vec vs => if src = 0 ∧ dst = 0 then some (.vec vs) else none
  | .mat rows =>
    if Mat.Ok rows ∧ (src = 0 ∨ src = 1) ∧ (dst = 0 ∨ dst = 1) then some (.mat (if src = dst then rows else Mat.transpose rows)) else none

def Mat.nums : List Mat → Option (List Int)
  | [] => some []
  | .num v :: xs => (Mat.nums xs).map (v :: ·)
  | _ :: _ => none

def Mat.vecs : List Mat → Option (List (List Int))
  | [] => some []
  | .vec v :: xs => (Mat.vecs xs).map (v :: ·)
  | _ :: _ => none

def Mat.stack (xs : List Mat) : Option Mat :=
  match Mat.nums xs with
  | some vs => some (.vec vs)
  | none =>
    match Mat.vecs xs with
    | some rows => if Mat.Ok rows then some (.mat rows) else none
    | none => none

def Mat.size : Mat → Option Nat
  | .num _ => none
  | .vec vs => some vs.length
  | .mat rows => some rows.length

def Mat.index (i : Nat) : Mat → Option Mat
  | .num _ => none
  | .vec vs => vs[i]?.map .num
  | .mat rows => rows[i]?.map .vec

def matOps : Arrays Mat where
  size a x := (x.move a 0).bind Mat.size
  index a i x := (x.move a 0).bind (Mat.index i)
  stack a xs := (Mat.stack xs).bind (Mat.move 0 a)

theorem Mat.transpose_ok {rows : List (List Int)} (h : Mat.Ok rows) : Mat.Ok (Mat.transpose rows) := by
  obtain ⟨h1, h2⟩ := h
  have hr : 0 < rows.length := by
    cases rows with
    | nil => exact absurd h1 (by decide)
    | cons => exact Nat.succ_pos _
  have hlen : ∀ r ∈ Mat.transpose rows, r.length = rows.length := by
    intro r hr
    simp only [transpose, List.mem_map] at hr
    obtain ⟨j, _, rfl⟩ := hr
    simp
  have hhead : ((Mat.transpose rows).headD []).length = rows.length := by
    have hne : 0 < (Mat.transpose rows).length := by simpa [transpose] using h1
    cases ht : Mat.transpose rows with
    | nil => rw [ht] at hne; cases hne
    | cons r rs => exact hlen r (by rw [ht]; exact List.mem_cons_self)
  exact ⟨by rw [hhead]; exact hr, fun r hr => by rw [hhead]; exact hlen r hr⟩

theorem Mat.move_front {a : Int} {x y : Mat} (h : x.move a 0 = some y) : y.move 0 0 = some y ∧ (y.size).isSome := by
  cases x with
  | num => cases h
  | vec vs =>
    simp only [move] at h
    split at h
    · cases h; exact ⟨rfl, rfl⟩
    · cases h
  | mat rows =>
    simp only [move] at h
    split at h
    · next hc =>
      rw [Option.some.injEq] at h
      subst h
      refine ⟨?_, rfl⟩
      have : Mat.Ok (if a = 0 then rows else Mat.transpose rows) := by
        split
        · exact hc.1
        · exact Mat.transpose_ok hc.1
      simp [move, this]
    · cases h

theorem Mat.move_stack {xs : List Mat} {s : Mat} (h : Mat.stack xs = some s) : s.move 0 0 = some s := by
  unfold Mat.stack at h
  split at h
  · cases h; rfl
  · split at h
    · split at h
      · next hc => cases h; simp [move, hc]
      · cases h
    · cases h

/-- Matrices satisfy the hypothesis on `jnp.moveaxis`. -/
theorem matOps_laws : MoveLaws matOps Mat.move := by
  refine ⟨?_, ?_, ?_, ?_⟩
  · intro a x y h
    obtain ⟨h1, h2⟩ := Mat.move_front h
    exact ⟨by simp [matOps, h, h1], by simpa [matOps, h] using h2, fun i => by simp [matOps, h, h1]⟩
  · intro a x h
    cases hm : x.move a 0 with
    | none => simp [matOps, hm] at h
    | some y => rfl
  · intro a x n i h hi
    simp only [matOps] at h ⊢
    cases hm : x.move a 0 with
    | none => simp [hm] at h
    | some y =>
      rw [hm] at h
      cases y with
      | num => cases h
      | vec vs =>
        have hn : vs.length = n := Option.some.inj h
        simp [Mat.index, hn, hi]
      | mat rows =>
        have hn : rows.length = n := Option.some.inj h
        simp [Mat.index, hn, hi]
  · intro a xs v
    simp only [matOps]
    cases hs : Mat.stack xs with
    | none => simp
    | some s => simp [Mat.move_stack hs]

/-- A module with parameters stacked along axis 1, and a running sum. -/
def exMatLayers : World Mat :=
  ⟨[⟨{ name := py! "Layer", ancestors := [py! "Module"] },
    [(py! "w", .val (.cont cParam (.data cArray (.mat [[5, 6, 7], [1, 2, 3]])) [(py! "sharding", .none)])),
     (py! "s", .val (.cont cBatchStat (.data cArray (.num 1)) [(py! "sharding", .none)]))], 3, false, ⟨0, 0⟩⟩], 9, 0, []⟩

def exMatOpts : ScanOptions Mat := { variableAxes := [(.ofType cParam, 1)], variableBroadcast := .ofType cCache, variableCarry := .ellipsis }

def exMatVar (c : Cls) (x : Mat) : PyVal Mat := .cont c (.data cArray x) [(py! "sharding", .none)]

/-- The argument: a tuple of a matrix of two rows, and a vector. -/
def exArg : PyVal Mat := .tup [.data cArray (.mat [[10, 20, 30], [40, 50, 60]]), .data cArray (.vec [100, 200, 300])]

/-- The numbers a value holds. -/
def numsOf : Option (Shown Mat) → List Int
  | some (.value (.cont _ (.data _ (.num v)) _)) => [v]
  | some (.value (.cont _ (.data _ (.vec vs)) _)) => vs
  | _ => []

/-- `m.s = m.s + y; return carry + y, (x + m.w, m.s)` for the argument `(x, y)` -/
def exMatBody (x : Option (PureContext Nat) × PyVal Mat) (c : Int) : Prog Mat (Int × PyVal Mat) :=
  .get 0 (py! "w") fun w => .get 0 (py! "s") fun s =>
  match x.2 with
  | .tup [.data _ (.vec vs), .data _ (.num y)] =>
    .set 0 (py! "s") (exMatVar cBatchStat (.num ((numsOf s).headD 0 + y))) fun _ =>
    .ret (c + y, .tup [.data cArray (.vec (List.zipWith (· + ·) vs (numsOf w))), .data cArray (.num ((numsOf s).headD 0 + y))])
  | _ => .ret (c, .none)

/-- The three iterations: what the module is updated with, and the slice of the argument. -/
def exMatIns : List (State (PyVal Mat) × (Option (PureContext Nat) × PyVal Mat)) :=
  [(⟨[(py! "w", exMatVar cParam (.vec [5, 1]))]⟩, none, .tup [.data cArray (.vec [10, 40]), .data cArray (.num 100)]),
   (⟨[(py! "w", exMatVar cParam (.vec [6, 2]))]⟩, none, .tup [.data cArray (.vec [20, 50]), .data cArray (.num 200)]),
   (⟨[(py! "w", exMatVar cParam (.vec [7, 3]))]⟩, none, .tup [.data cArray (.vec [30, 60]), .data cArray (.num 300)])]

def exMatOuts : List (State (PyVal Mat) × PyVal Mat) :=
  [(⟨[(py! "s", exMatVar cBatchStat (.num 101)), (py! "w", exMatVar cParam (.vec [5, 1]))]⟩, .tup [.data cArray (.vec [15, 41]), .data cArray (.num 101)]),
   (⟨[(py! "s", exMatVar cBatchStat (.num 301)), (py! "w", exMatVar cParam (.vec [6, 2]))]⟩, .tup [.data cArray (.vec [26, 52]), .data cArray (.num 301)]),
   (⟨[(py! "s", exMatVar cBatchStat (.num 601)), (py! "w", exMatVar cParam (.vec [7, 3]))]⟩, .tup [.data cArray (.vec [37, 63]), .data cArray (.num 601)])]

def exMatState : State (PyVal Mat) :=
  ⟨[(py! "s", exMatVar cBatchStat (.num 1)), (py! "w", exMatVar cParam (.mat [[5, 6, 7], [1, 2, 3]]))]⟩

theorem exMatVar_wf {c : Cls} (x : Mat) (hc : c ∈ [cParam, cBatchStat]) : WFContainer (exMatVar c x) := by
  simp only [List.mem_cons, List.not_mem_nil, or_false] at hc
  rcases hc with rfl | rfl <;>
  exact .mk (by simp [PyVal.Plain]) (by simp [DNodup, dkeys]) (by decide) (by decide) (fun _ _ => ⟨_, _, rfl⟩)

theorem exMatLayers_wf : WFWorld exMatLayers := by
  refine ⟨wfHeap_of_forall (by decide) ?_, ?_⟩
  · intro o ho
    simp only [exMatLayers, List.mem_cons, List.not_mem_nil, or_false] at ho
    subst ho
    refine ⟨by decide, ?_⟩
    intro na hna
    simp only [List.mem_cons, List.not_mem_nil, or_false] at hna
    rcases hna with rfl | rfl <;> refine ⟨by unfold NoSlash; decide, by decide, ?_, ?_⟩ <;>
      intros <;> rename_i h <;> try cases h
    all_goals exact exMatVar_wf _ (by simp)
  · intro l o ho
    have := List.mem_of_getElem? ho
    simp only [exMatLayers, List.mem_cons, List.not_mem_nil, or_false] at this ⊢
    subst this; simp

theorem exMatLayers_valid : AllValid exMatLayers 0 := by
  rintro l o ⟨p, hp⟩ ho
  have := List.mem_of_getElem? ho
  simp only [exMatLayers, List.mem_cons, List.not_mem_nil, or_false] at this
  subst this; decide

theorem exMatBody_good (x c) : (exMatBody x c).Good := by
  intro _ _ _ _
  dsimp only
  split
  · exact ⟨⟨by unfold NoSlash; decide, by decide⟩, .inr (exMatVar_wf _ (by simp)), fun _ => trivial⟩
  · trivial

theorem exMatFilters_wf : ∀ f ∈ exMatOpts.filters, f.WellFormed := by
  intro f hf
  simp only [ScanOptions.filters, exMatOpts, List.map_cons, List.map_nil, List.cons_append, List.nil_append, List.mem_cons, List.not_mem_nil, or_false] at hf
  rcases hf with rfl | rfl | rfl <;> trivial

theorem exMatRun : ∃ vl, LoopRun (calls exMatBody) 0 exMatLayers 1 exMatIns vl 601 exMatOuts :=
  ⟨_, .next rfl rfl (nodesOnly_of_check (by decide) (by decide)) rfl
    (.next rfl rfl (nodesOnly_of_check (by decide) (by decide)) rfl
      (.next rfl rfl (nodesOnly_of_check (by decide) (by decide)) rfl .done))⟩

omit [DecidableEq α] in
/-- A pair with an axis for each component. -/
theorem UpTo.pair {P : Int → List (PyVal α) → PyVal α → Prop} {a b : Int} {us : List (PyVal α × PyVal α)} {x y : PyVal α}
    (h1 : P a (us.map (·.1)) x) (h2 : P b (us.map (·.2)) y) :
    UpTo P (.tup [.leaf a, .leaf b]) (us.map fun u => .tup [u.1, u.2]) (.tup [x, y]) := by
  have h3 := UpTo.tupCons (t := .leaf b) (ts := []) (us := us.map fun u => (u.2, [])) (v := y) (vs := []) (P := P)
    (.axis (by simpa [Function.comp_def] using h2)) (by simpa [Function.comp_def, List.map_const'] using UpTo.tupNil us.length)
  have h4 := UpTo.tupCons (t := .leaf a) (us := us.map fun u => (u.1, [u.2])) (v := x) (P := P)
    (.axis (by simpa [Function.comp_def] using h1)) (by simpa [Function.comp_def] using h3)
  simpa [Function.comp_def] using h4

theorem exMat_length : CallLength matOps exMatOpts (.tup [.leaf 1, .leaf 0]) exMatState exArg 3 := by
  have h := hasLength_of_check (R := matOps) (o := exMatOpts) (xs := some [(), (), ()]) (n := 3) exMatFilters_wf (s := exMatState) (by decide)
    (by intro as h; cases h; rfl) nofun (.inr nofun)
  refine ⟨h.leaves, ?_, nofun, .inr (.inl ?_)⟩
  · exact UpTo.pair (α := Mat) (us := [(.data cArray (.mat [[10, 20, 30], [40, 50, 60]]), .data cArray (.vec [100, 200, 300]))])
      ⟨rfl, TreeOf.array (as := [_]) ⟨rfl, by decide⟩⟩ ⟨rfl, TreeOf.array (as := [_]) ⟨rfl, by decide⟩⟩
  · rw [noArrays_iff]; decide

theorem exMat_inputs : CallInputs matOps exMatOpts (.tup [.leaf 1, .leaf 0]) exMatState exArg (fun _ => none) 3 exMatIns := by
  have hs : ∀ (i : Nat) x y, SliceVal matOps 1 i (.data cArray (.mat [[10, 20, 30], [40, 50, 60]])) x →
      SliceVal matOps 0 i (.data cArray (.vec [100, 200, 300])) y → ArgSlice matOps (.tup [.leaf 1, .leaf 0]) i exArg (.tup [x, y]) :=
    fun i x y h1 h2 => UpTo.pair (α := Mat) (us := [(.data cArray (.mat [[10, 20, 30], [40, 50, 60]]), .data cArray (.vec [100, 200, 300]))])
      ⟨_, rfl, h1⟩ ⟨_, rfl, h2⟩
  refine ⟨rfl, ?_⟩
  intro i inp ctx x hi
  have hlt : i < 3 := (List.getElem?_eq_some_iff.1 hi).1
  match i, hlt with
  | 0, _ => cases hi; exact ⟨isSlice_of_check exMatFilters_wf (by decide), rfl, hs _ _ _ (sliceVal_iff.2 rfl) (sliceVal_iff.2 rfl)⟩
  | 1, _ => cases hi; exact ⟨isSlice_of_check exMatFilters_wf (by decide), rfl, hs _ _ _ (sliceVal_iff.2 rfl) (sliceVal_iff.2 rfl)⟩
  | 2, _ => cases hi; exact ⟨isSlice_of_check exMatFilters_wf (by decide), rfl, hs _ _ _ (sliceVal_iff.2 rfl) (sliceVal_iff.2 rfl)⟩

/-- The vectors are stacked along axis 1, the numbers along axis 0. -/
def exMatOut : PyVal Mat := .tup [.data cArray (.mat [[15, 26, 37], [41, 52, 63]]), .data cArray (.vec [101, 301, 601])]

theorem exMat_out : OutStacked matOps (.tup [.leaf 1, .leaf 0]) (exMatOuts.map (·.2)) exMatOut :=
  UpTo.pair (α := Mat) (us := [(.data cArray (.vec [15, 41]), .data cArray (.num 101)), (.data cArray (.vec [26, 52]), .data cArray (.num 301)),
    (.data cArray (.vec [37, 63]), .data cArray (.num 601))]) (stackedVal_iff.2 rfl) (stackedVal_iff.2 rfl)

theorem exMat_uniform : Uniform exMatOpts exMatState (exMatOuts.map (·.1)) :=
  uniform_of_check exMatFilters_wf (by decide) (by decide) (by decide) (by decide)

/-- The hypotheses of C85 hold for the example. -/
theorem exMatScan (j : Nat) : ∃ ws,
    scanCall matOps Mat.move exSplit 2 exMatOpts (.tup [.leaf 1, .leaf 0]) (.tup [.leaf 1, .leaf 0]) j 0 (callBody exMatBody) 1 exArg none exMatLayers =
      (ws, .ok (601, exMatOut)) := by
  obtain ⟨vl, run⟩ := exMatRun
  obtain ⟨wd, ws, h1, h2, _⟩ := C85_scan_call exMatLayers_wf (l := 0) (by decide) exMatLayers_valid (o := exMatOpts) (fuel := 2) (s0 := exMatState) rfl
    (ss := [⟨[(py! "w", exMatVar cParam (.mat [[5, 6, 7], [1, 2, 3]]))]⟩, ⟨[]⟩, ⟨[(py! "s", exMatVar cBatchStat (.num 1))]⟩]) rfl rfl rfl matOps_laws
    exMat_length (by decide) (split := exSplit) (p := fun _ => false) (ctx := none) nofun exMat_inputs exMatBody_good run exMat_uniform
    (fin := ⟨[(py! "w", exMatVar cParam (.mat [[5, 6, 7], [1, 2, 3]]))]⟩) (isStacked_of_check exMatFilters_wf (by decide)) exMat_out j
  exact ⟨ws, h2⟩

/-- Other `in_axes` and `out_axes`: a single axis for the whole argument, and trees that do not fit. -/
example : (∃ ws, scanCall matOps Mat.move exSplit 9 exMatOpts (.tup [.leaf 1, .leaf 0]) (.leaf 0) 7 0 (callBody exMatBody) 1 exArg none exMatLayers =
      (ws, .ok (601, .tup [.data cArray (.mat [[15, 41], [26, 52], [37, 63]]), .data cArray (.vec [101, 301, 601])]))) ∧
    scanCall matOps Mat.move exSplit 9 exMatOpts (.tup [.leaf 1, .leaf 0]) (.leaf 1) 7 0 (callBody exMatBody) 1 exArg none exMatLayers =
      (exMatLayers, .error .valueError) ∧
    scanCall matOps Mat.move exSplit 9 exMatOpts (.tup [.leaf 1, .leaf 0]) (.tup [.leaf 0]) 7 0 (callBody exMatBody) 1 exArg none exMatLayers =
      (exMatLayers, .error .valueError) ∧
    scanCall matOps Mat.move exSplit 9 exMatOpts (.leaf 0) (.leaf 0) 7 0 (callBody exMatBody) 1 exArg none exMatLayers =
      (exMatLayers, .error .valueError) ∧
    scanCall matOps Mat.move exSplit 9 exMatOpts (.leaf 1) (.leaf 0) 7 0 (callBody exMatBody) 1 exArg none exMatLayers =
      (exMatLayers, .error .valueError) := ⟨⟨_, rfl⟩, rfl, rfl, rfl, rfl⟩

/-- `reverse=True`. -/
example : ∃ ws, scanCall matOps Mat.move exSplit 9 { exMatOpts with reverse := true } (.tup [.leaf 1, .leaf 0]) (.tup [.leaf 1, .leaf 0]) 7 0
    (callBody exMatBody) 1 exArg none exMatLayers =
      (ws, .ok (601, .tup [.data cArray (.mat [[15, 26, 37], [41, 52, 63]]), .data cArray (.vec [601, 501, 301])])) := ⟨_, rfl⟩

end Nnx
