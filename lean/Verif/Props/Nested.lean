import Verif.Proofs.NestedRun
/-
C90: transforms nested in any way have the effect of the function without transforms.
-/
namespace Nnx
variable {α κ L β : Type}

/-- The Modules that can be reached from one that may be modified correspond to themselves. -/
theorem bisim_self {w : World α} (wf : WFWorld w) {l : Loc} (hv : AllValid w l) :
    Bisim (Reaches w.heap l) id w w := by
  refine ⟨fun _ _ _ _ e => e, ?_, ?_⟩
  · rintro a ⟨q, hq⟩
    have hlt := hq.lt
    have ho : w.heap[a]? = some w.heap[a] := List.getElem?_eq_getElem hlt
    refine ⟨w.heap[a], w.heap[a], ho, ho, rfl, rfl, hv a _ ⟨q, hq⟩ ho, hv a _ ⟨q, hq⟩ ho, ?_⟩
    intro n
    cases dget w.heap[a].attrs n with
    | none => rfl
    | some x => simp only [Option.map_some, Attr.redirect_id]
  · rintro a n b ⟨q, hq⟩ e
    exact ⟨_, hq.snoc e (wf.heap.refs _ _ _ e)⟩

/-- Paths between Modules that correspond to themselves. -/
theorem Bisim.walk_iff {S : Loc → Prop} {f : Loc → Loc} {w w' : World α} (B : Bisim S f w w') {a b : Loc} (ha : S a) (hb : S b)
    (ea : f a = a) (eb : f b = b) (p : List Str) : Walk w.heap a p b ↔ Walk w'.heap a p b := by
  have h1 : ∀ {x y : Loc} {p : List Str}, Walk w.heap x p y → S x → Walk w'.heap (f x) p (f y) := by
    intro x y p h
    induction h with
    | here _ => exact fun hx => .here (B.lt hx).2
    | step e _ ih =>
      intro hx
      have := B.attr hx _ ▸ congrArg (Option.map (Attr.redirect f)) e
      exact .step this (ih (B.closed _ _ _ hx e))
  constructor
  · intro h
    have := h1 h ha
    rwa [ea, eb] at this
  · intro h
    obtain ⟨g, B', hg⟩ := B.symm
    have h2 : ∀ {x y : Loc} {p : List Str}, Walk w'.heap x p y → (∃ a, S a ∧ f a = x) → Walk w.heap (g x) p (g y) := by
      intro x y p h
      induction h with
      | here _ => exact fun hx => .here (B'.lt hx).2
      | step e _ ih =>
        intro hx
        have := B'.attr hx _ ▸ congrArg (Option.map (Attr.redirect g)) e
        exact .step this (ih (B'.closed _ _ _ hx e))
    have := h2 h ⟨a, ha, ea⟩
    have ga : g a = a := by have := hg a ha; rwa [ea] at this
    have gb : g b = b := by have := hg b hb; rwa [eb] at this
    rwa [ga, gb] at this

variable [DecidableEq α] {J : Jax α κ L}

/-- **C90.** A function `p` that calls other functions on its Modules through `jit`, `remat`, `grad` and `scan`, nested in any way,
returns or raises what it would return or raise if it called these functions directly (with `grad` being the gradient of the
direct call), provided the effects of the functions that are called through stateful transforms are node
writes. If it returns, all Modules that could be reached from its argument have the same graphs as after the direct calls and are at the same
places. All other Modules, and the traces, are as before in any case. -/
theorem C90_nested (hlaw : GradLaw J.gradOf) {w : World α} (wf : WFWorld w) {l : Loc} (hl : l < w.heap.length) (hv : AllValid w l)
    {p : Routine α κ L β} (hp : p.Good) (hc : p.Carried J [l] w) {wt wp : World α} {rt rp : Except Err β}
    (ht : p.run J [l] w = (wt, rt)) (hpl : p.plain J [l] w = (wp, rp)) :
    rt = rp ∧
    (∀ b, rt = .ok b → (∀ a, Reaches w.heap l a → SameGraph wp.heap a wt.heap a) ∧
      ∀ a a' q, Reaches w.heap l a → Reaches w.heap l a' → (Walk wp.heap a q a' ↔ Walk wt.heap a q a')) ∧
    (∀ a : Loc, a < w.heap.length → ¬ Reaches w.heap l a → wt.heap[a]? = w.heap[a]?) ∧
    WFWorld wt ∧ wt.jaxTrace = w.jaxTrace ∧ wt.nnxStack = w.nnxStack := by
  have hr : Reaches w.heap l l := ⟨[], .here hl⟩
  have B := bisim_self wf hv
  have F := Routine.run_follows hlaw p hp _ [l] w wf B (by simpa using hr) hc
  have c := F.confined (Reaches w.heap l) B.closed (by simpa using hr)
  have wfp := (hp.parametric hlaw).wf wf hl
  simp only [ht, hpl] at F c wfp
  refine ⟨F.out, ?_, c.same, c.wf, F.keeps.jax, F.keeps.stack⟩
  intro b hb
  obtain ⟨S, f, hS, B'⟩ := F.bisim b (F.out ▸ hb)
  refine ⟨?_, ?_⟩
  · intro a ha
    have := (B'.iso (hS a ha).1).sameGraph wfp.heap (B'.lt (hS a ha).1).1
    rwa [(hS a ha).2] at this
  · intro a a' q ha ha'
    exact B'.walk_iff (hS a ha).1 (hS a' ha').1 (hS a ha).2 (hS a' ha').2 q

/-- **C90, recursion limit.** When such a function is called through a transform, the outcome is the same for every recursion limit
that is large enough. -/
theorem C90_budget (hlaw : GradLaw J.gradOf) {w : World α} (wf : WFWorld w) {l : Loc} (hl : l < w.heap.length) (hv : AllValid w l)
    {p : Routine α κ L β} (hp : p.Good) (hc : p.Carried J [l] w) {wp : World α} {rp : Except Err β}
    (hpl : p.plain J [l] w = (wp, rp)) (hn : ∀ b, rp = .ok b → NodeWrites w wp l) (stateful : Bool) (j t : Nat) :
    (∃ limit, ∀ fuel, limit < fuel → jitCall fuel stateful j t l (fun l w => p.run J [l] w) w =
      (How.jit stateful j t).call l (fun l w => p.run J [l] w) w) ∧
    (∃ limit, ∀ fuel, limit < fuel → rematCall fuel j l (fun l w => p.run J [l] w) w =
      (How.remat j).call l (fun l w => p.run J [l] w) w) := by
  have hr : Reaches w.heap l l := ⟨[], .here hl⟩
  have B := bisim_self wf hv
  have P := hp.parametric hlaw
  have hF := followsAt hlaw hp (Routine.run_follows hlaw p hp) wf hl hc
  have hn' : ∀ wd b, p.plain J [l] w = (wd, .ok b) → NodeWrites w wd l := by
    intro wd b h
    rw [hpl] at h
    cases h
    exact hn b rfl
  exact ⟨(jit_through wf B hr P hF stateful j t fun _ => hn').2, (remat_through wf B hr P hF j hn').2⟩

/-- **C90, recursion limit of grad.** -/
theorem C90_budget_grad (hlaw : GradLaw J.gradOf) {w : World α} (wf : WFWorld w) {l : Loc} (hl : l < w.heap.length) (hv : AllValid w l)
    {p : Routine α κ L β} (hp : p.Good) (hc : p.Carried J [l] w) {wrt : Filter α} (hw : wrt.WellFormed)
    (hcx : ∀ x wx, LikeState (selected wrt l w) x → updateState (w.heap.length + 1) l [x] w = (wx, none) → p.Carried J [l] wx)
    {wp : World α} {rp : Except Err β} (hpl : p.plain J [l] w = (wp, rp)) (hn : ∀ b, rp = .ok b → NodeWrites w wp l)
    (loss : β → L) (stateful : Bool) (j t : Nat) :
    ∃ limit, ∀ fuel, limit < fuel →
      gradCall fuel stateful j t wrt J.gradOf l (withLoss loss fun l w => p.run J [l] w) w =
        unlimited (fun fuel => gradCall fuel stateful j t wrt J.gradOf l (withLoss loss fun l w => p.run J [l] w)) w := by
  have hr : Reaches w.heap l l := ⟨[], .here hl⟩
  have B := bisim_self wf hv
  have P := hp.parametric hlaw
  have hF := followsAt hlaw hp (Routine.run_follows hlaw p hp) wf hl hc
  refine (grad_through hlaw wf B hr (P.withLoss loss) (hF.withLoss loss) stateful j t hw ?_ ?_).2
  · intro x wx hx hux
    obtain ⟨_, s, d, nondiff, _, hpart, _, hcn, e1, e2⟩ := selected_spec wf hl hw
    obtain ⟨hdef, hs, _⟩ := hpart _ (Nat.lt_succ_self _)
    obtain ⟨wy, sy, _, _, hu, wfy, hly, _⟩ := like_pieces wf hl hv hs hdef hcn e1 e2 hx (Nat.lt_succ_self _)
    rw [hux] at hu
    cases hu
    exact (followsAt hlaw hp (Routine.run_follows hlaw p hp) wfy (by rw [hly]; exact hl) (hcx x wx hx hux)).withLoss loss
  · intro _ wd b hwd
    simp only [withLoss, hpl, Prod.mk.injEq] at hwd
    cases rp with
    | error e => cases hwd.2
    | ok c => rw [← hwd.1]; exact hn c rfl

/-! ### Leaving out transforms -/

omit [DecidableEq α] in
theorem Routine.Good.removed {p : Routine α κ L β} : p.Good → p.removed.Good := by
  induction p with
  | ret b => exact id
  | fail e => exact id
  | op o k ih => exact fun h => ⟨h.1, fun x hx => ih x (h.2 x hx)⟩
  | call how m body k ihb ih => exact fun h => ⟨ihb h.1, fun b => ih b (h.2 b)⟩
  | grad stateful j t wrt loss m body k ihb ih => exact fun h => ⟨h.1, ihb h.2.1, fun g b hg => ih g b (h.2.2 g b hg)⟩
  | scan fuel j o out m c xs ctx body k ihb ih => exact fun h => ⟨fun ctx c x => ihb ctx c x (h.1 ctx c x), fun c ys => ih c ys (h.2 c ys)⟩

theorem How.removed_kept (how : How) : how.removed.kept = how.kept := by
  cases how with
  | jit stateful j t => cases stateful <;> rfl
  | _ => rfl

theorem How.removed_direct {how : How} (h : how.removed ≠ .direct) : how ≠ .direct := by
  rintro rfl
  exact h rfl

theorem Routine.plain_removed (p : Routine α κ L β) : ∀ (K : List Loc) (w : World α), p.removed.plain J K w = p.plain J K w := by
  induction p with
  | ret b => exact fun _ _ => rfl
  | fail e => exact fun _ _ => rfl
  | op o k ih => intro K w; simp only [Routine.removed, Routine.plain, ih]
  | call how m body k ihb ih => intro K w; simp only [Routine.removed, Routine.plain, ih, ihb, How.removed_kept]
  | grad stateful j t wrt loss m body k ihb ih => intro K w; simp only [Routine.removed, Routine.plain, ih, ihb]
  | scan fuel j o out m c xs ctx body k ihb ih => intro K w; simp only [Routine.removed, Routine.plain, ih, ihb]

theorem Routine.Carried.removed (p : Routine α κ L β) : ∀ (K : List Loc) (w : World α), p.Carried J K w → p.removed.Carried J K w := by
  induction p with
  | ret b => exact fun _ _ => id
  | fail e => exact fun _ _ => id
  | op o k ih => exact fun K w h x K' w' e => ih x _ _ (h x K' w' e)
  | call how m body k ihb ih =>
    intro K w h l hl
    obtain ⟨h1, h2⟩ := h l hl
    refine ⟨ihb _ _ h1, ?_⟩
    intro w' b hb
    rw [Routine.plain_removed] at hb
    obtain ⟨h3, h4⟩ := h2 w' b hb
    rw [How.removed_kept]
    exact ⟨fun hd hk => h3 (How.removed_direct hd) hk, ih b _ _ h4⟩
  | grad stateful j t wrt loss m body k ihb ih =>
    intro K w h l hl
    obtain ⟨h1, h2, h3⟩ := h l hl
    refine ⟨ihb _ _ h1, fun x wx hx hu => ihb _ _ (h2 x wx hx hu), ?_⟩
    intro w' b hb
    simp only [Routine.plain_removed] at hb ⊢
    obtain ⟨h4, h5⟩ := h3 w' b hb
    exact ⟨h4, ih _ b _ _ h5⟩
  | scan fuel j o out m c xs ctx body k ihb ih =>
    intro K w h l hl
    obtain ⟨h1, h2⟩ := h l hl
    simp only [Routine.plain_removed]
    exact ⟨h1.mono fun ctx c x l w h => ihb ctx c x _ _ h, fun w' c' ys e => ih c' ys _ _ (h2 w' c' ys e)⟩

/-- **C90, transforms can be left out.** Leaving out all uses of stateful `jit` and `remat` (also inside functions that are differentiated) changes
neither what the function returns or raises, nor the graphs of the Modules if it returns. -/
theorem C90_removed (hlaw : GradLaw J.gradOf) {w : World α} (wf : WFWorld w) {l : Loc} (hl : l < w.heap.length) (hv : AllValid w l)
    {p : Routine α κ L β} (hp : p.Good) (hc : p.Carried J [l] w) :
    (p.removed.run J [l] w).2 = (p.run J [l] w).2 ∧
    ∀ b, (p.run J [l] w).2 = .ok b → ∀ a, Reaches w.heap l a →
      SameGraph (p.removed.run J [l] w).1.heap a (p.run J [l] w).1.heap a := by
  obtain ⟨h1, h2, _⟩ := C90_nested hlaw wf hl hv hp hc rfl rfl
  obtain ⟨k1, k2, _⟩ := C90_nested hlaw wf hl hv hp.removed (Routine.Carried.removed p [l] w hc) rfl rfl
  rw [Routine.plain_removed] at k1 k2
  refine ⟨k1.trans h1.symm, ?_⟩
  intro b hb a ha
  have g1 := (h2 b hb).1 a ha
  have g2 := (k2 b (k1.trans (h1.symm.trans hb))).1 a ha
  exact ⟨fun q => (g1.1 q).trans (g2.1 q).symm, fun q q' => (g1.2 q q').trans (g2.2 q q').symm⟩

/-! ### An example -/

/-- Whether all entries are `Param`s. -/
def onlyParams (x : State (PyVal Nat)) : Bool :=
  decide (x.mapping.Pairwise fun a b => strLe a.1 b.1 = true ∧ a.1 ≠ b.1) &&
    x.items.all fun kv => match kv.2 with
      | .cont _ (.data _ n) _ => decide (kv.2 = exParam n)
      | _ => false

/-- A stand-in for `jax.grad`: the function is evaluated once, and every entry of the result is its value. -/
def exDiff (F : State (PyVal Nat) → Option Nat) (x : State (PyVal Nat)) : State (PyVal Nat) :=
  if onlyParams x then exGrad F x else ⟨[]⟩

theorem exDiff_law : GradLaw exDiff := by
  constructor
  · intro F G x h
    unfold exDiff
    split
    · next hx =>
      simp only [onlyParams, Bool.and_eq_true, decide_eq_true_eq] at hx
      have : LikeState x x := by
        refine ⟨hx.1, fun _ => rfl, ?_⟩
        intro k u v hu hv
        rw [hu] at hv
        cases hv
        have hm := List.all_eq_true.1 hx.2 (k, u) (dget_mem hu)
        simp only at hm
        split at hm
        · next n _ =>
          rw [decide_eq_true_eq] at hm
          rw [hm]
          refine ⟨.inr (exParam_wf n), rfl, ?_⟩
          intro c y m e
          cases e
          exact ⟨_, rfl⟩
        · cases hm
      rw [exGrad, exGrad, h x this]
    · rfl
  · intro F x k v hv
    unfold exDiff at hv
    split at hv
    · have hm := lastOf_mem ((State.new_get _ k).symm.trans hv)
      obtain ⟨kv, _, e⟩ := List.mem_map.1 hm
      cases e
      exact .inl trivial
    · cases hv

/-- These functions of jax; there are no array operations. -/
def exJax : Jax Nat Nat Nat := ⟨exDiff, ⟨fun _ _ => none, fun _ _ _ => none, fun _ _ => none⟩, fun k n i => k * 100 + n * 10 + i⟩

/-- The content of a container. -/
def contentOf : Seen Nat → Nat
  | .attr (some (.value (.cont _ (.data _ n) _))) => n
  | _ => 0

/-- A step along a gradient. -/
def stepAlong (g : State (PyVal Nat)) : PyVal Nat :=
  match g.get (py! "w") with
  | some (.data _ n) => .data cArray (n + 1)
  | _ => .none

/-- The loss: reads `m.w` inside a stateless jit, and counts in the statistics of the block. -/
def exLossT : Routine Nat Nat Nat Nat :=
  .call (.jit false 13 14) 0 (.op (.get 0 (py! "w")) fun x => .ret (contentOf x)) fun n =>
  .op (.get 0 (py! "a")) fun _ =>
  .op (.set 1 (py! "s") (.data cArray (n + 9))) fun _ =>
  .ret n

/-- A training step inside `jit`: takes the gradient of the loss, updates `m.w`, and calls a function on the block through `remat`. -/
def exTrain : Routine Nat Nat Nat Nat :=
  .call (.jit true 5 6) 0
    (.grad true 7 8 (.ofType cParam) id 0 exLossT fun g b =>
      .op (.set 0 (py! "w") (stepAlong g)) fun _ =>
      .op (.get 0 (py! "a")) fun _ =>
      .call (.remat 9) 1 (.op (.set 0 (py! "extra") (.data cArray 2)) fun _ => .ret 0) fun _ =>
      .ret b)
    fun b => .ret b

theorem exTrain_good : exTrain.Good := by
  have hn : ∀ s ∈ [py! "w", py! "s", py! "extra"], GoodName s := by
    intro s hs
    simp only [List.mem_cons, List.not_mem_nil, or_false] at hs
    rcases hs with rfl | rfl | rfl <;> exact ⟨by unfold NoSlash; decide, by decide⟩
  have hs : ∀ g, WFVal (stepAlong g) := by
    intro g
    unfold stepAlong
    split <;> exact .inl trivial
  refine ⟨⟨trivial, ⟨⟨trivial, fun _ _ => trivial⟩, fun n => ⟨trivial, fun _ _ => ⟨⟨hn _ (by simp), .inl trivial⟩, fun _ _ => trivial⟩⟩⟩, ?_⟩,
    fun _ => trivial⟩
  intro g b _
  exact ⟨⟨hn _ (by simp), hs g⟩, fun _ _ => ⟨trivial, fun _ _ =>
    ⟨⟨⟨hn _ (by simp), .inl trivial⟩, fun _ _ => trivial⟩, fun _ => trivial⟩⟩⟩

theorem exLossT_carried (w : World Nat) : exLossT.Carried exJax [0] w := by
  intro l _
  exact ⟨fun _ _ _ _ => trivial, fun _ _ _ => ⟨fun _ h => (Bool.noConfusion h), fun _ _ _ _ _ _ _ _ => trivial⟩⟩

theorem exTrain_carried : exTrain.Carried exJax [0] exWorld := by
  intro l hl
  cases hl
  refine ⟨?_, ?_⟩
  · intro l hl
    cases hl
    refine ⟨exLossT_carried _, fun _ _ _ _ => exLossT_carried _, ?_⟩
    intro w' b h
    cases h
    refine ⟨fun _ => nodeWrites_of_check (by decide) (by decide), ?_⟩
    intro x K' w' h
    cases h
    intro x K' w' h
    cases h
    intro l hl
    cases hl
    refine ⟨fun _ _ _ _ => trivial, ?_⟩
    intro w' b h
    cases h
    exact ⟨fun _ _ => nodeWrites_of_check (by decide) (by decide), trivial⟩
  · intro w' b h
    cases h
    exact ⟨fun _ _ => nodeWrites_of_check (by decide) (by decide), trivial⟩

/-- With its transforms the step returns the loss and changes the parameter, the statistics and the block. -/
example : ∃ wt, exTrain.run exJax [0] exWorld = (wt, .ok 1) ∧
    observe wt.heap 0 [py! "w"] = some (.value (exParam 2)) ∧
    observe wt.heap 0 [py! "b", py! "s"] = some (.value (exStat 10)) ∧
    observe wt.heap 0 [py! "b", py! "extra"] = some (.value (.data cArray 2)) := ⟨_, rfl, by decide, by decide, by decide⟩

end Nnx
