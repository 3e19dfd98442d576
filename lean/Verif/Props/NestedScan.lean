import Verif.Props.Nested
import Verif.Props.Scan
/-
C91: scan and the other transforms compose.
-/
namespace Nnx
variable {α κ L β : Type} [DecidableEq α] {J : Jax α κ L}

/-- The condition on the calls in a scan does not distinguish corresponding Modules. -/
theorem WheneverCalled.corresponding (hlaw : GradLaw J.gradOf) {body : Option (PureContext κ) → β → Option β → Routine α κ L β}
    (hb : ∀ ctx c x, (body ctx c x).Good) {fuel j : Nat} {o : ScanOptions α} {out : β → β × β} {c : β} {xs : Option (List β)}
    {ctx : Option (PureContext κ)} {S : Loc → Prop} {f : Loc → Loc} {w w' : World α} (B : Bisim S f w w') (wf : WFWorld w) (wf' : WFWorld w')
    {l : Loc} (hl : S l)
    (hc : WheneverCalled J fuel j o out c xs ctx (fun ctx c x l w => (body ctx c x).Carried J [l] w)
      (fun ctx c x l w => (body ctx c x).plain J [l] w) l w) :
    WheneverCalled J fuel j o out c xs ctx (fun ctx c x l w => (body ctx c x).Carried J [l] w)
      (fun ctx c x l w => (body ctx c x).plain J [l] w) (f l) w' := by
  intro e
  obtain ⟨_, _, _, _, he⟩ := (scanApply_parametric (R := J.arrays) (split := J.split) (fuel := fuel) (o := o) (j := j)
    (fun ctx c x => ((hb ctx c x).parametric hlaw).withOut out) c xs ctx).bisim S f l w w' B wf wf' hl
  have Pg : ∀ ctx c x, Parametric (withOut out (fun ctx c x =>
      guarded (fun l w => (body ctx c x).Carried J [l] w) e fun l w => (body ctx c x).plain J [l] w) ctx c x) := fun ctx c x =>
    (guarded_parametric ((hb ctx c x).parametric hlaw) e fun S f l w w' B wf wf' hl h =>
      Routine.Carried.corresponding hlaw _ (hb ctx c x) S f [l] w w' B wf wf' (by simpa using hl) h).withOut out
  obtain ⟨_, _, _, _, hge⟩ := (scanApply_parametric (R := J.arrays) (split := J.split) (fuel := fuel) (o := o) (j := j) Pg
    c xs ctx).bisim S f l w w' B wf wf' hl
  exact (hge.symm.trans (hc e)).trans he

/-- **C91, transforms inside scan.** A scan of functions that call other functions through `jit`, `remat`, `grad` or `scan` has the
outcome of the scan of the functions without `jit`, `remat` and `grad`, provided the effects of the functions that are called through stateful
transforms are node writes: it returns or raises the same, and all Modules that could be reached have the same graphs and are at the same
places, also if there is an exception. All other Modules, and the traces, are as before. -/
theorem C91_scan_of_transformed (hlaw : GradLaw J.gradOf) {w : World α} (wf : WFWorld w) {l : Loc} (hl : l < w.heap.length)
    (hv : AllValid w l) {body : Option (PureContext κ) → β → Option β → Routine α κ L β} (hb : ∀ ctx c x, (body ctx c x).Good)
    {fuel j : Nat} {o : ScanOptions α} {out : β → β × β} {c : β} {xs : Option (List β)} {ctx : Option (PureContext κ)}
    (hc : WheneverCalled J fuel j o out c xs ctx (fun ctx c x l w => (body ctx c x).Carried J [l] w)
      (fun ctx c x l w => (body ctx c x).plain J [l] w) l w)
    {wt wp : World α} {rt rp : Except Err (β × List β)}
    (ht : scanApply J.arrays J.split fuel o j l (withOut out fun ctx c x l w => (body ctx c x).run J [l] w) c xs ctx w = (wt, rt))
    (hpl : scanApply J.arrays J.split fuel o j l (withOut out fun ctx c x l w => (body ctx c x).plain J [l] w) c xs ctx w = (wp, rp)) :
    rt = rp ∧ (∀ a, Reaches w.heap l a → SameGraph wp.heap a wt.heap a) ∧
    (∀ a a' q, Reaches w.heap l a → Reaches w.heap l a' → (Walk wp.heap a q a' ↔ Walk wt.heap a q a')) ∧
    (∀ a : Loc, a < w.heap.length → ¬ Reaches w.heap l a → wt.heap[a]? = w.heap[a]?) ∧
    WFWorld wt ∧ wt.jaxTrace = w.jaxTrace ∧ wt.nnxStack = w.nnxStack := by
  have hr : Reaches w.heap l l := ⟨[], .here hl⟩
  have B := bisim_self wf hv
  have F := scan_follows hlaw hb (fun ctx c x => Routine.run_follows hlaw _ (hb ctx c x)) wf B hr hc
  rw [ht, hpl] at F
  have cd := F.confined (Reaches w.heap l) B.closed hr
  have ct := F.confined' (Reaches w.heap l) B.closed hr
  refine ⟨F.out, fun a ha => (F.bisim.iso ha).sameGraph cd.wf.heap (F.bisim.lt ha).1,
    fun a a' q ha ha' => F.bisim.walk_iff ha ha' rfl rfl q, ct.same, ct.wf, F.keeps'.jax, F.keeps'.stack⟩

/-- **C91, transforms around scan.** A scan of such functions inside `jit` or `remat` has the outcome of the scan itself, provided the
effects of the scan are node writes if they are kept (`stateful=False` forgets them). -/
theorem C91_transformed_scan (hlaw : GradLaw J.gradOf) {w : World α} (wf : WFWorld w) {l : Loc} (hl : l < w.heap.length)
    (hv : AllValid w l) {body : Option (PureContext κ) → β → Option β → Routine α κ L β} (hb : ∀ ctx c x, (body ctx c x).Good)
    {fuel j : Nat} {o : ScanOptions α} {out : β → β × β} {c : β} {xs : Option (List β)} {ctx : Option (PureContext κ)}
    (hc : WheneverCalled J fuel j o out c xs ctx (fun ctx c x l w => (body ctx c x).Carried J [l] w)
      (fun ctx c x l w => (body ctx c x).plain J [l] w) l w)
    {wt wp : World α} {rt rp : Except Err (β × List β)} {how : How} (hh : how ≠ .direct)
    (ht : how.call l (fun l w => scanApply J.arrays J.split fuel o j l
      (withOut out fun ctx c x l w => (body ctx c x).run J [l] w) c xs ctx w) w = (wt, rt))
    (hpl : scanApply J.arrays J.split fuel o j l (withOut out fun ctx c x l w => (body ctx c x).plain J [l] w) c xs ctx w = (wp, rp))
    (hn : how.kept = true → ∀ b, rp = .ok b → NodeWrites w wp l) :
    rt = rp ∧ (∀ b, rp = .ok b → (∀ a, Reaches w.heap l a → SameGraph (if how.kept then wp else w).heap a wt.heap a) ∧
      ∀ a a' q, Reaches w.heap l a → Reaches w.heap l a' → (Walk (if how.kept then wp else w).heap a q a' ↔ Walk wt.heap a q a')) ∧
    (∀ a : Loc, a < w.heap.length → ¬ Reaches w.heap l a → wt.heap[a]? = w.heap[a]?) ∧
    WFWorld wt ∧ wt.jaxTrace = w.jaxTrace ∧ wt.nnxStack = w.nnxStack := by
  have hr : Reaches w.heap l l := ⟨[], .here hl⟩
  have B := bisim_self wf hv
  have P := scanApply_parametric (R := J.arrays) (split := J.split) (fuel := fuel) (o := o) (j := j)
    (F := withOut out fun ctx c x l w => (body ctx c x).plain J [l] w)
    (fun ctx c x => ((hb ctx c x).parametric hlaw).withOut out) c xs ctx
  have hF : FollowsAt w l
      (fun l w => scanApply J.arrays J.split fuel o j l (withOut out fun ctx c x l w => (body ctx c x).run J [l] w) c xs ctx w)
      (fun l w => scanApply J.arrays J.split fuel o j l (withOut out fun ctx c x l w => (body ctx c x).plain J [l] w) c xs ctx w) := by
    intro f u Bf wfu
    have F := scan_follows hlaw hb (fun ctx c x => Routine.run_follows hlaw _ (hb ctx c x)) wfu Bf.right ⟨l, hr, rfl⟩
      (hc.corresponding hlaw hb Bf wf wfu hr)
    exact ⟨_, ⟨l, hr, rfl⟩, F.out, F.keeps', fun A hA hA' => F.confined' A hA (by simpa using hA'),
      fun _ _ => ⟨_, id, fun a ha => ⟨ha, rfl⟩, F.bisim⟩⟩
  have wfp : WFWorld wp := by have := P.wf wf hl; rwa [hpl] at this
  have hn' : how.kept = true → ∀ wd b, scanApply J.arrays J.split fuel o j l
      (withOut out fun ctx c x l w => (body ctx c x).plain J [l] w) c xs ctx w = (wd, .ok b) → NodeWrites w wd l := by
    intro hk wd b h
    rw [hpl] at h
    cases h
    exact hn hk b rfl
  have T : Through (Reaches w.heap l) l w how.kept id (wp, rp) (wt, rt) := by
    rw [← ht, ← hpl]
    cases how with
    | direct => exact absurd rfl hh
    | jit stateful j' t => exact (jit_through wf B hr P hF stateful j' t hn').1
    | remat j' => exact (remat_through wf B hr P hF j' (hn' rfl)).1
  have ct := T.confined (Reaches w.heap l) B.closed hr
  refine ⟨?_, ?_, ct.same, ct.wf, T.keeps.jax, T.keeps.stack⟩
  · have := T.out
    simp only at this
    rw [this]
    cases rp <;> rfl
  · intro b h
    have Bt := T.bisim b h
    have wfk : WFWorld (if how.kept then wp else w) := wf_if wf wfp
    exact ⟨fun a ha => (Bt.iso ha).sameGraph wfk.heap (Bt.lt ha).1, fun a a' q ha ha' => Bt.walk_iff ha ha' rfl rfl q⟩

/-! ### An example -/

/-- jax for arrays with at most one axis; gradients are not used. -/
def arrJax : Jax Arr Nat Int := ⟨fun _ _ => ⟨[]⟩, arrOps, fun k n i => k * 100 + n * 10 + i⟩

theorem arrJax_law : GradLaw arrJax.gradOf := ⟨fun _ _ _ _ => rfl, fun _ _ _ _ h => by cases h⟩

/-- The number in an attribute. -/
def seenNum : Seen Arr → Int
  | .attr x => numOf x
  | _ => 0

/-- `m.s = m.s + m.w * m.b + x; m.w = m.w + 1; m.n = (m.n if there, else 0) + 1; return c * 2 + m.w` -/
def exInner (c : Int) (x : Option Int) : Routine Arr Nat Int Int :=
  .op (.get 0 (py! "w")) fun w => .op (.get 0 (py! "s")) fun s => .op (.get 0 (py! "b")) fun b => .op (.get 0 (py! "n")) fun n =>
  .op (.set 0 (py! "s") (.data cArray (.num (seenNum s + seenNum w * seenNum b + x.getD 0)))) fun _ =>
  .op (.set 0 (py! "w") (.data cArray (.num (seenNum w + 1)))) fun _ =>
  .op (.set 0 (py! "n") (.data cArray (.num (seenNum n + 1)))) fun _ =>
  .ret (c * 2 + seenNum w)

/-- The body of the scan calls the function through `remat`. -/
def exStep (_ : Option (PureContext Nat)) (c : Int) (x : Option Int) : Routine Arr Nat Int Int := .call (.remat 4) 0 (exInner c x) .ret

theorem exInner_good (c : Int) (x : Option Int) : (exInner c x).Good := by
  have hn : ∀ s ∈ [py! "w", py! "s", py! "n"], GoodName s := by
    intro s hs
    simp only [List.mem_cons, List.not_mem_nil, or_false] at hs
    rcases hs with rfl | rfl | rfl <;> exact ⟨by unfold NoSlash; decide, by decide⟩
  exact ⟨trivial, fun _ _ => ⟨trivial, fun _ _ => ⟨trivial, fun _ _ => ⟨trivial, fun _ _ => ⟨⟨hn _ (by simp), .inl trivial⟩, fun _ _ =>
    ⟨⟨hn _ (by simp), .inl trivial⟩, fun _ _ => ⟨⟨hn _ (by simp), .inl trivial⟩, fun _ _ => trivial⟩⟩⟩⟩⟩⟩⟩

theorem exStep_good (ctx : Option (PureContext Nat)) (c : Int) (x : Option Int) : (exStep ctx c x).Good := ⟨exInner_good c x, fun _ => trivial⟩

/-- Whether only node writes are made. -/
def nodeCheck (w w' : World Arr) : Bool :=
  decide (∀ a < w.heap.length, ∀ o ∈ w.heap[a]?, ∀ o' ∈ w'.heap[a]?, ∀ n ∈ dkeys o.attrs ++ dkeys o'.attrs,
    okWrite (dget o.attrs n) (dget o'.attrs n) = true) && decide (w.heap.length ≤ w'.heap.length)

/-- The function, which raises `e` where it makes other writes. -/
def checkedStep (e : Err) (_ : Option (PureContext Nat)) (c : Int) (x : Option Int) (l : Loc) (w : World Arr) : World Arr × Except Err Int :=
  if nodeCheck w ((exInner c x).plain arrJax [l] w).1 then (exInner c x).plain arrJax [l] w else (w, .error e)

theorem exInner_carried (c : Int) (x : Option Int) (K : List Loc) (w : World Arr) : (exInner c x).Carried arrJax K w :=
  fun _ _ _ _ _ _ _ _ _ _ _ _ _ _ _ _ _ _ _ _ _ _ _ _ _ _ _ _ => trivial

theorem exChecked : (scanApply arrJax.arrays arrJax.split 3 exOpts 7 0 (withOut (fun b => (b, b + 1000)) (checkedStep .typeError)) 1
    (some [100, 200, 300]) none exLayers).2 = .ok (47, [1007, 1020, 1047]) := by decide +kernel

theorem exPlain : (scanApply arrJax.arrays arrJax.split 3 exOpts 7 0
    (withOut (fun b => (b, b + 1000)) fun ctx c x l w => (exStep ctx c x).plain arrJax [l] w) 1 (some [100, 200, 300]) none exLayers).2 =
      .ok (47, [1007, 1020, 1047]) := by decide +kernel

/-- The condition of the theorems: all steps make node writes. -/
theorem exStep_called : WheneverCalled arrJax 3 7 exOpts (fun b => (b, b + 1000)) 1 (some [100, 200, 300]) none
    (fun ctx c x l w => (exStep ctx c x).Carried arrJax [l] w) (fun ctx c x l w => (exStep ctx c x).plain arrJax [l] w) 0 exLayers := by
  refine WheneverCalled.mono (P := fun _ c x l w => nodeCheck w ((exInner c x).plain arrJax [l] w).1 = true) ?_ ?_
  · refine WheneverCalled.of_one (e := .typeError) ?_ (by rw [exPlain]; simp)
    have h : (withOut (fun b => (b, b + 1000)) fun ctx c x => guarded (fun l w => nodeCheck w ((exInner c x).plain arrJax [l] w).1 = true) .typeError
        fun l w => (exStep ctx c x).plain arrJax [l] w) = withOut (fun b : Int => (b, b + 1000)) (checkedStep .typeError) := by
      funext ctx c x l w
      have hp : (exStep ctx c x).plain arrJax [l] w = (exInner c x).plain arrJax [l] w := by
        simp only [exStep, Routine.plain, List.getElem?_cons_zero]
        generalize (exInner c x).plain arrJax [l] w = r
        obtain ⟨_, _ | _⟩ := r <;> rfl
      simp only [withOut, guarded, checkedStep, hp]
    rw [h]
    exact exChecked.trans exPlain.symm
  · intro ctx c x l w h l' hl'
    cases hl'
    simp only [nodeCheck, Bool.and_eq_true, decide_eq_true_eq] at h
    refine ⟨exInner_carried _ _ _ _, ?_⟩
    intro w' b hb
    rw [hb] at h
    exact ⟨fun _ _ => nodeWrites_of_check h.1 h.2, trivial⟩

/-- `nnx.scan(nnx.remat(f))`: all three layers are updated as by `nnx.scan(f)`. -/
example : ∃ wt wp, scanApply arrJax.arrays arrJax.split 3 exOpts 7 0 (withOut (fun b => (b, b + 1000)) fun ctx c x l w => (exStep ctx c x).run arrJax [l] w) 1
      (some [100, 200, 300]) none exLayers = (wt, .ok (47, [1007, 1020, 1047])) ∧
    scanApply arrJax.arrays arrJax.split 3 exOpts 7 0 (withOut (fun b => (b, b + 1000)) fun _ c x l w => (exInner c x).plain arrJax [l] w) 1
      (some [100, 200, 300]) none exLayers = (wp, .ok (47, [1007, 1020, 1047])) ∧
    (∀ n ∈ [py! "w", py! "s", py! "n", py! "b"], observe wt.heap 0 [n] = observe wp.heap 0 [n]) ∧
    observe wt.heap 0 [py! "w"] = some (.value (exVar cParam (.vec [6, 7, 8]))) := ⟨_, _, rfl, rfl, by decide, by decide⟩

/-- `nnx.jit(nnx.scan(nnx.remat(f)))` -/
def exJitScan : Routine Arr Nat Int Int :=
  .call (.jit true 5 6) 0 (.scan 3 7 exOpts (fun b => (b, b + 1000)) 0 1 (some [100, 200, 300]) none exStep fun c ys => .ret (c + ys.sum)) .ret

theorem exJitScan_good : exJitScan.Good := ⟨⟨exStep_good, fun _ _ => trivial⟩, fun _ => trivial⟩

/-- The hypothesis of C90 and C91 holds for it. -/
theorem exJitScan_carried : exJitScan.Carried arrJax [0] exLayers := by
  intro l hl
  cases hl
  refine ⟨?_, ?_⟩
  · intro l hl
    cases hl
    exact ⟨exStep_called, fun _ _ _ _ => trivial⟩
  · intro w' b h
    cases h
    exact ⟨fun _ _ => nodeWrites_of_check (by decide) (by decide), trivial⟩

example : ∃ wt, exJitScan.run arrJax [0] exLayers = (wt, .ok 3121) ∧
    observe wt.heap 0 [py! "w"] = some (.value (exVar cParam (.vec [6, 7, 8]))) := ⟨_, rfl, by decide⟩

end Nnx
