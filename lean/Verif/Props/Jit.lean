import Verif.Proofs.Transforms
import Verif.Proofs.DefEq
/-
C49 (jit has the effect of a direct call), C50 (stateless jit), C75 (the compilation cache).
-/
namespace Nnx
variable {α β : Type} [DecidableEq α]

/-! ### Running on a merged copy -/

/-- A module whose own state is split in pieces, merged inside a trace and run, in a world `u`: same outcome as a direct call
in the world `w` of the module, and the existing Modules are untouched. -/
theorem run_copy_in {w u : World α} (wf : WFWorld w) (wfu : WFWorld u) {l : Loc} (hl : l < w.heap.length) (hv : AllValid w l)
    {F : Loc → World α → World α × Except Err β} (hF : Parametric F) {f1 f2 : Nat} {d : ModuleDef α}
    (hd : getModuleDef f1 w.heap l = some d)
    {s : State (PyVal α)} (hs : getState f2 w.heap l = some s) {ss : List (State (PyVal α))} (hpc : Pieces s ss)
    (j : Nat) (t : Option Nat) :
    ∃ u3, insideTrace j t (mergeAndRun d ss F) u = (u3, (F l w).2.map fun out => (u.heap.length, out)) ∧
      CopyRun w u l F u3 u.heap.length ∧ u3.jaxTrace = u.jaxTrace ∧ u3.nnxStack = u.nnxStack := by
  obtain ⟨w2, hm, he, pr, _⟩ := copyRun wf wfu hl hv hF hd hs hpc j t
  refine ⟨_, ?_, pr, rfl, rfl⟩
  have hm' : mergeDef d ss { u with jaxTrace := j, nnxStack := u.nnxStack ++ t.toList } = (w2, .ok u.heap.length) := hm
  simp only [insideTrace, mergeAndRun, hm']
  have hrun : F u.heap.length w2 = ((F u.heap.length w2).1, (F l w).2) := by
    rw [← he]
  rw [hrun]
  cases (F l w).2 <;> rfl

/-- The case where both worlds are the same. -/
theorem run_copy {w : World α} (wf : WFWorld w) {l : Loc} (hl : l < w.heap.length) (hv : AllValid w l)
    {F : Loc → World α → World α × Except Err β} (hF : Parametric F) {f1 f2 : Nat} {d : ModuleDef α}
    (hd : getModuleDef f1 w.heap l = some d)
    {s : State (PyVal α)} (hs : getState f2 w.heap l = some s) {ss : List (State (PyVal α))} (hpc : Pieces s ss)
    (j : Nat) (t : Option Nat) :
    ∃ w3, insideTrace j t (mergeAndRun d ss F) w = (w3, (F l w).2.map fun out => (w.heap.length, out)) ∧
      PureRun w l F w3 w.heap.length ∧ w3.jaxTrace = w.jaxTrace ∧ w3.nnxStack = w.nnxStack :=
  run_copy_in wf wf hl hv hF hd hs hpc j t

omit [DecidableEq α] in
/-- Node writes made by a direct call are seen as node writes from any world that has the same old Modules. -/
theorem NodeWrites.transfer {w u w' : World α} (wf : WFHeap w.heap) {l : Loc} (hl : l < w.heap.length)
    (hn : NodeWrites w w' l) (hlen : w.heap.length ≤ u.heap.length)
    (hold : ∀ a : Loc, a < w.heap.length → u.heap[a]? = w.heap[a]?) :
    (∀ p b, Walk u.heap l p b ↔ Walk w.heap l p b) ∧ NodeWrites u w' l := by
  have hwalk : ∀ p b, Walk u.heap l p b ↔ Walk w.heap l p b := fun p b =>
    walk_same (B := fun _ => True) (fun _ _ _ _ _ => trivial) hlen (fun a _ ha => hold a ha) trivial hl wf.refs
  refine ⟨hwalk, ?_⟩
  rintro a n ⟨p, hp⟩
  have hp' := (hwalk p a).1 hp
  have : attrAt u.heap a n = attrAt w.heap a n := by simp only [attrAt, hold a hp'.lt]
  rw [this]
  exact hn a n ⟨p, hp'⟩

/-- After a run on a copy, writing its state back gives the modules the attributes of a direct call. -/
theorem write_copy {w w3 : World α} (wf : WFWorld w) {l : Loc} (hl : l < w.heap.length) (hv : AllValid w l)
    {F : Loc → World α → World α × Except Err β} (hF : Parametric F) (pr : PureRun w l F w3 w.heap.length)
    (hj : w3.jaxTrace = w.jaxTrace)
    (hst : w3.nnxStack = w.nnxStack) (hn : NodeWrites w (F l w).1 l) {s : State (PyVal α)} {k : Nat}
    (hs : getState k (F l w).1.heap l = some s) {fuel : Nat} (hf : w3.heap.length < fuel) :
    ∃ w4, updateState fuel l [s] w3 = (w4, none) ∧ AgreeOn w.heap.length (F l w).1 w4 ∧
      w4.jaxTrace = w.jaxTrace ∧ w4.nnxStack = w.nnxStack ∧ SameObjects w3 w4 := by
  obtain ⟨hwalk, hn3⟩ := hn.transfer wf.heap hl pr.len pr.old
  have hlen3 : l < w3.heap.length := Nat.lt_of_lt_of_le hl pr.len
  have hkeep := hF.keeps l w wf hl
  obtain ⟨w4, hu, so, h1, h2⟩ := update_from pr.wf pr.wfd hlen3 pr.ltd
    (fun q b => (hn.walk hkeep.len wf.heap ⟨[], .here hl⟩).trans (hwalk q b).symm) (by
      rintro a o ⟨q, hq⟩ ho
      have hq' := (hwalk q a).1 hq
      rw [pr.old a hq'.lt] at ho
      have := hv a o ⟨q, hq'⟩ ho
      rw [traceValid_eq] at this ⊢
      rw [this]
      simp only [World.curTrace, hj, hst]) hn3 hs hf
  refine ⟨w4, hu, ?_, so.jax.trans hj, so.stack.trans hst, so⟩
  intro a ha
  constructor
  · intro n
    by_cases hr : Reaches w.heap l a
    · obtain ⟨q, hq⟩ := hr
      exact h1 a n ⟨q, (hwalk q a).2 hq⟩
    · rw [h2 a n (fun ⟨q, hq⟩ => hr ⟨q, (hwalk q a).1 hq⟩)]
      have := (hF.confined (Reaches w.heap l) l w wf (by
        rintro x n y ⟨q, hq⟩ e
        exact ⟨_, hq.snoc e (wf.heap.refs _ _ _ e)⟩) ⟨[], Walk.here hl⟩ hl).same a ha hr
      simp only [attrAt, pr.old a ha, this]
  · have hi := hkeep.info a ha
    have ho : w3.heap[a]? = some w.heap[a] := by rw [pr.old a ha, List.getElem?_eq_getElem ha]
    have ha4 : a < w4.heap.length := by rw [so.len]; exact Nat.lt_of_lt_of_le ha pr.len
    have ho4 : w4.heap[a]? = some w4.heap[a] := List.getElem?_eq_getElem ha4
    obtain ⟨e1, e2, e3, e4⟩ := so.obj a _ _ ho ho4
    refine Eq.trans ?_ hi.symm
    simp only [objInfo, ho4, List.getElem?_eq_getElem ha, Option.map_some, e1, e2, e3, e4]

omit [DecidableEq α] in
/-- The outcome of partitioning does not depend on the budget. -/
theorem partition_budget {w : World α} (wf : WFWorld w) {l : Loc} (hl : l < w.heap.length) :
    ∃ s d, ∀ fuel, w.heap.length < fuel → partitionModule fuel w.heap l [] = .ok ([s], d) ∧
      getModuleDef fuel w.heap l = some d ∧ getState fuel w.heap l = some s := by
  have hg : SameGraph w.heap l w.heap l := ⟨fun _ => rfl, fun _ _ => Iff.rfl⟩
  obtain ⟨s, d, h1, _⟩ := C24_partition_canonical wf.heap wf.heap hl hl hg (Nat.lt_succ_self _) (Nat.lt_succ_self _)
  refine ⟨s, d, ?_⟩
  intro fuel hf
  obtain ⟨s', d', h2, h3⟩ := C24_partition_canonical wf.heap wf.heap hl hl hg (Nat.lt_succ_self _) hf
  rw [h1] at h2
  cases h2
  refine ⟨h3, ?_⟩
  simp only [partitionModule] at h3
  split at h3
  · next hd hs => cases h3; exact ⟨hd, hs⟩
  · cases h3

omit [DecidableEq α] in
/-- The state does not depend on the budget. -/
theorem getState_budget {w : World α} (wf : WFWorld w) {l : Loc} (hl : l < w.heap.length) {k k' : Nat} (hk : w.heap.length < k)
    (hk' : w.heap.length < k') : getState k w.heap l = getState k' w.heap l := by
  obtain ⟨s, d, h⟩ := partition_budget wf hl
  rw [(h k hk).2.2, (h k' hk').2.2]

/-- Nor does an update. -/
theorem updateState_budget {w : World α} (wf : WFWorld w) {l : Loc} (hl : l < w.heap.length) {k k' : Nat}
    (hk : w.heap.length < k) (hk' : w.heap.length < k') (us : List (State (PyVal α))) :
    updateState k l us w = updateState k' l us w := by
  unfold updateState
  rw [getState_budget wf hl hk hk']

/-- After a run on a copy, `writeBack` gives the modules the attributes of a direct call. -/
theorem copy_back {w w3 wd : World α} (wf : WFWorld w) {l : Loc} (hl : l < w.heap.length) (hv : AllValid w l)
    {F : Loc → World α → World α × Except Err β} (hF : Parametric F) (pr : PureRun w l F w3 w.heap.length)
    (hj : w3.jaxTrace = w.jaxTrace)
    (hst : w3.nnxStack = w.nnxStack) {out : β} (hd : F l w = (wd, .ok out)) (hn : NodeWrites w wd l) :
    ∃ w4, AgreeOn w.heap.length wd w4 ∧ SameGraph wd.heap l w4.heap l ∧ w4.jaxTrace = w.jaxTrace ∧ w4.nnxStack = w.nnxStack ∧
      SameObjects w3 w4 ∧
      ∀ fuel, w3.heap.length < fuel → writeBack fuel w.heap.length l w3 = (w4, none) ∧
        (∃ s d, partitionModule fuel w3.heap w.heap.length [] = .ok ([s], d) ∧ updateState fuel l [s] w3 = (w4, none)) := by
  have hwd : (F l w).1 = wd := by rw [hd]
  obtain ⟨s', d', _, _, hsd, _⟩ := pr.part _ _ (Nat.lt_succ_self _) (Nat.lt_succ_self _)
  have hn' : NodeWrites w (F l w).1 l := by rw [hd]; exact hn
  obtain ⟨w4, hu, hag, h1, h2, so⟩ := write_copy wf hl hv hF pr hj hst hn' hsd (Nat.lt_succ_self _)
  rw [hd] at hag
  refine ⟨w4, hag, ?_, h1, h2, so, ?_⟩
  · have hkeep := hF.keeps l w wf hl
    rw [hwd] at hkeep
    have hlt : ∀ a, Reaches wd.heap l a → a < w.heap.length := by
      rintro a ⟨q, hq⟩
      exact ((hn.walk hkeep.len wf.heap ⟨[], .here hl⟩).1 hq).lt
    have wfd : WFWorld wd := hwd ▸ pr.wfd
    have iso : GraphIso wd.heap l w4.heap l id := by
      refine ⟨rfl, fun _ _ _ _ h => h, ?_, ?_⟩
      · intro a o hr ho
        have := (hag a (hlt a hr)).2
        rw [ho] at this
        cases ho4 : w4.heap[a]? with
        | none => rw [ho4] at this; cases this
        | some o' =>
          rw [ho4] at this
          simp only [Option.map_some, Option.some.injEq, Prod.mk.injEq] at this
          exact ⟨o', ho4, this.1, this.2.2.1⟩
      · intro a hr n
        rw [id, (hag a (hlt a hr)).1 n]
        cases attrAt wd.heap a n with
        | none => rfl
        | some x => cases x <;> rfl
    exact iso.sameGraph wfd.heap (Nat.lt_of_lt_of_le hl hkeep.len)
  · intro fuel hf3
    obtain ⟨s2, d2, _, hp3, hsd2, hs3⟩ := pr.part _ fuel (Nat.lt_succ_self _) hf3
    rw [hsd] at hsd2
    cases hsd2
    rw [updateState_budget pr.wf (Nat.lt_of_lt_of_le hl pr.len) (Nat.lt_succ_self _) hf3] at hu
    exact ⟨by simp only [writeBack, hs3, hu], s', d2, hp3, hu⟩

/-! ### C49 -/

/-- **C49, same effect.** If a direct call `f(m)` returns `out` and its net effect on the module graph is node
writes, then `nnx.jit(f)(m)` returns `out` and leaves every Module that existed with the same attributes as the direct call
does (and the traces as they were). `f` is any program; the recursion limit must be large enough. -/
theorem C49_same_effect {w wd : World α} (wf : WFWorld w) {l : Loc} (hl : l < w.heap.length) (hv : AllValid w l)
    {f : Prog α β} (hf : f.Good) {out : β} (hd : f.call l w = (wd, .ok out)) (hn : NodeWrites w wd l) (j t : Nat) :
    ∃ limit, ∀ fuel, limit < fuel → ∃ wj, jitCall fuel true j t l f.call w = (wj, .ok out) ∧
      AgreeOn w.heap.length wd wj ∧ SameGraph wd.heap l wj.heap l ∧
      wj.jaxTrace = w.jaxTrace ∧ wj.nnxStack = w.nnxStack := by
  obtain ⟨s, d, hpart⟩ := partition_budget wf hl
  obtain ⟨_, hdef, hs⟩ := hpart _ (Nat.lt_succ_self _)
  obtain ⟨w3, hr, pr, hj, hst⟩ := run_copy wf hl hv hf.parametric hdef hs (pieces_self (getState_canonical hs)) j (some t)
  obtain ⟨w4, hag, hsg, h1, h2, _, hb⟩ := copy_back wf hl hv hf.parametric pr hj hst hd hn
  refine ⟨w3.heap.length, ?_⟩
  intro fuel hfuel
  obtain ⟨hp1, _, _⟩ := hpart fuel (Nat.lt_of_le_of_lt pr.len hfuel)
  obtain ⟨hw, _⟩ := hb fuel hfuel
  rw [hd] at hr
  refine ⟨w4, ?_, hag, hsg, h1, h2⟩
  simp only [jitCall, hp1, hr, Except.map, if_true, hw]

/-- **C49, exceptions.** If a direct call raises `e`, then `nnx.jit(f)(m)` raises `e` and leaves every existing
Module exactly as it was (a direct call may have changed some before raising). -/
theorem C49_raises {w wd : World α} (wf : WFWorld w) {l : Loc} (hl : l < w.heap.length) (hv : AllValid w l)
    {f : Prog α β} (hf : f.Good) {e : Err} (hd : f.call l w = (wd, .error e)) (stateful : Bool) (j t : Nat) :
    ∃ limit, ∀ fuel, limit < fuel → ∃ wj, jitCall fuel stateful j t l f.call w = (wj, .error e) ∧
      (∀ a : Loc, a < w.heap.length → wj.heap[a]? = w.heap[a]?) ∧
      wj.jaxTrace = w.jaxTrace ∧ wj.nnxStack = w.nnxStack := by
  obtain ⟨s, d, hpart⟩ := partition_budget wf hl
  obtain ⟨_, hdef, hs⟩ := hpart _ (Nat.lt_succ_self _)
  obtain ⟨w3, hr, pr, hj, hst⟩ := run_copy wf hl hv hf.parametric hdef hs (pieces_self (getState_canonical hs)) j (some t)
  refine ⟨w.heap.length, ?_⟩
  intro fuel hfuel
  obtain ⟨hp1, _, _⟩ := hpart fuel hfuel
  rw [hd] at hr
  exact ⟨w3, by simp only [jitCall, hp1, hr, Except.map], pr.old, hj, hst⟩

/-! ### C50 -/

/-- **C50.** With `stateful=False`, `nnx.jit(f)(m)` has the outcome (output or exception) of a direct call, and
leaves every existing Module exactly as it was, whatever `f` does. -/
theorem C50_stateless {w : World α} (wf : WFWorld w) {l : Loc} (hl : l < w.heap.length) (hv : AllValid w l)
    {f : Prog α β} (hf : f.Good) (j t : Nat) :
    ∃ limit, ∀ fuel, limit < fuel → ∃ wj, jitCall fuel false j t l f.call w = (wj, (f.call l w).2) ∧
      (∀ a : Loc, a < w.heap.length → wj.heap[a]? = w.heap[a]?) ∧
      wj.jaxTrace = w.jaxTrace ∧ wj.nnxStack = w.nnxStack := by
  obtain ⟨s, d, hpart⟩ := partition_budget wf hl
  obtain ⟨_, hdef, hs⟩ := hpart _ (Nat.lt_succ_self _)
  obtain ⟨w3, hr, pr, hj, hst⟩ := run_copy wf hl hv hf.parametric hdef hs (pieces_self (getState_canonical hs)) j (some t)
  refine ⟨w.heap.length, ?_⟩
  intro fuel hfuel
  obtain ⟨hp1, _, _⟩ := hpart fuel hfuel
  refine ⟨w3, ?_, pr.old, hj, hst⟩
  simp only [jitCall, hp1, hr]
  cases (f.call l w).2 <;> rfl

/-! ### Examples for C49 and C50 -/

/-- Whether one attribute was left alone or given a node value of the same kind. -/
def okWrite (old new : Option (Attr α)) : Bool :=
  decide (new = old) ||
  match old, new with
  | some (.ref _), _ => false
  | some (.val (.cont c _ m)), some (.val (.cont c' y m')) =>
    decide (c = c') && decide (m = m') && (PyVal.cont c' y m').isNode
  | some (.val (.cont _ _ _)), _ => false
  | _, some (.val v) => v.isNode
  | _, _ => false

theorem nodeWrites_of_check {w w' : World α} {root : Loc}
    (h : ∀ a < w.heap.length, ∀ o ∈ w.heap[a]?, ∀ o' ∈ w'.heap[a]?, ∀ n ∈ dkeys o.attrs ++ dkeys o'.attrs,
      okWrite (dget o.attrs n) (dget o'.attrs n) = true)
    (hlen : w.heap.length ≤ w'.heap.length) : NodeWrites w w' root := by
  rintro a n ⟨p, hp⟩
  have ha := hp.lt
  have ho : w.heap[a]? = some w.heap[a] := List.getElem?_eq_getElem ha
  have ho' : w'.heap[a]? = some (w'.heap[a]'(Nat.lt_of_lt_of_le ha hlen)) := List.getElem?_eq_getElem _
  simp only [attrAt, ho, ho']
  generalize w.heap[a] = o at *
  generalize w'.heap[a]'(Nat.lt_of_lt_of_le ha hlen) = o' at *
  by_cases hn : n ∈ dkeys o.attrs ++ dkeys o'.attrs
  · have := h a ha o (by simp [ho]) o' (by simp [ho']) n hn
    revert this
    generalize dget o.attrs n = x
    generalize dget o'.attrs n = y
    intro hk
    simp only [okWrite, Bool.or_eq_true, decide_eq_true_eq] at hk
    rcases hk with hk | hk
    · exact .inl hk
    · right
      cases x with
      | none =>
        cases y with
        | none => cases hk
        | some y =>
          cases y with
          | ref b => cases hk
          | val v => exact ⟨v, rfl, hk, nofun, nofun⟩
      | some x =>
        cases x with
        | ref b => cases hk
        | val u =>
          cases y with
          | none => cases u <;> cases hk
          | some y =>
            cases y with
            | ref b => cases u <;> cases hk
            | val v =>
              cases u with
              | cont c x m =>
                cases v with
                | cont c' y m' =>
                  simp only [Bool.and_eq_true, decide_eq_true_eq] at hk
                  obtain ⟨⟨rfl, rfl⟩, hk⟩ := hk
                  refine ⟨_, rfl, hk, nofun, ?_⟩
                  intro c'' x' m'' e
                  cases e
                  exact ⟨y, rfl⟩
                | _ => cases hk
              | _ => exact ⟨v, rfl, hk, nofun, nofun⟩
  · have h1 : n ∉ dkeys o.attrs := fun h => hn (List.mem_append_left _ h)
    have h2 : n ∉ dkeys o'.attrs := fun h => hn (List.mem_append_right _ h)
    left
    rw [dget_eq_none.2 h1, dget_eq_none.2 h2]

/-- What a program that copies a container does with what it has read. -/
def onlyContainer : Option (Shown Nat) → PyVal Nat
  | some (.value (.cont c v m)) => .cont c v m
  | _ => .none

/-- Reads `m.a.w`, puts what it has read into `m.w`, writes `m.b.s`, adds an array to the shared block, makes a Module it does
not keep, and returns whether `m.a is m.b`. -/
def exProg : Prog Nat Bool :=
  .get 0 (py! "a") fun _ =>
  .get 1 (py! "w") fun x =>
  .set 0 (py! "w") (onlyContainer x) fun _ =>
  .get 0 (py! "b") fun _ =>
  .set 2 (py! "s") (.data cArray 9) fun _ =>
  .set 1 (py! "extra") (.data cArray 8) fun _ =>
  .new (exCls (py! "Tmp")) <|
  .same 1 2 fun b =>
  .ret b

theorem exProg_good : exProg.Good := by
  have hn : ∀ s ∈ [py! "w", py! "s", py! "extra"], GoodName s := by
    intro s hs
    simp only [List.mem_cons, List.not_mem_nil, or_false] at hs
    rcases hs with rfl | rfl | rfl <;> exact ⟨by unfold NoSlash; decide, by decide⟩
  intro _ _ x hx
  refine ⟨hn _ (by simp), ?_, fun _ _ _ => ⟨hn _ (by simp), .inl trivial, fun _ => ⟨hn _ (by simp), .inl trivial, fun _ => ?_⟩⟩⟩
  · rcases x with _ | ⟨_ | v⟩
    · exact .inl trivial
    · exact .inl trivial
    · cases v <;> first | exact .inl trivial | exact .inr (hx _ _ _ rfl)
  · intro b; trivial

theorem exWorld_valid : AllValid exWorld 0 := by
  rintro l o ⟨p, hp⟩ ho
  have := List.mem_of_getElem? ho
  simp only [exWorld, exHeap, List.mem_cons, List.not_mem_nil, or_false] at this
  rcases this with rfl | rfl <;> decide

/-- The hypotheses of C49 hold for this program, which changes the shared block through both of its names. -/
example : ∃ wd, exProg.call 0 exWorld = (wd, .ok true) ∧ NodeWrites exWorld wd 0 ∧
    observe wd.heap 0 [py! "w"] = some (.value (exParam 5)) ∧
    observe wd.heap 0 [py! "a", py! "s"] = some (.value (exStat 9)) ∧
    observe wd.heap 0 [py! "b", py! "extra"] = some (.value (.data cArray 8)) := by
  refine ⟨_, rfl, nodeWrites_of_check (by decide) (by decide), by decide, by decide, by decide⟩

example : ∃ wj, jitCall 6 true 5 6 0 exProg.call exWorld = (wj, .ok true) ∧
    observe wj.heap 0 [py! "w"] = some (.value (exParam 5)) ∧
    observe wj.heap 0 [py! "a", py! "s"] = some (.value (exStat 9)) ∧
    observe wj.heap 0 [py! "b", py! "extra"] = some (.value (.data cArray 8)) := ⟨_, rfl, by decide, by decide, by decide⟩

example : ∃ wj, jitCall 6 false 5 6 0 exProg.call exWorld = (wj, .ok true) ∧
    observe wj.heap 0 [py! "w"] = some (.value (exParam 1)) ∧
    observe wj.heap 0 [py! "b", py! "extra"] = none := ⟨_, rfl, by decide, by decide⟩

/-- **C49, static attributes are not written back.** A jitted function that sets a static attribute returns the
same output as a direct call, but the module keeps the old value. -/
theorem C49_static_change_lost : ∃ (f : Prog Nat Unit) (wd wj : World Nat), f.Good ∧
    f.call 0 exWorld = (wd, .ok ()) ∧ jitCall 6 true 5 6 0 f.call exWorld = (wj, .ok ()) ∧
    observe wd.heap 0 [py! "name"] = some (.value (.str (py! "new"))) ∧
    observe wj.heap 0 [py! "name"] = some (.value (.str (py! "net"))) :=
  ⟨.set 0 (py! "name") (.str (py! "new")) fun _ => .ret (), _, _,
    ⟨⟨by unfold NoSlash; decide, by decide⟩, .inl trivial, fun _ => trivial⟩, rfl, rfl, by decide, by decide⟩

/-- **C49, deletions are not written back.** -/
theorem C49_deletion_lost : ∃ (f : Prog Nat Unit) (wd wj : World Nat), f.Good ∧
    f.call 0 exWorld = (wd, .ok ()) ∧ jitCall 6 true 5 6 0 f.call exWorld = (wj, .ok ()) ∧
    observe wd.heap 0 [py! "w"] = none ∧ observe wj.heap 0 [py! "w"] = some (.value (exParam 1)) :=
  ⟨.del 0 (py! "w") fun _ => .ret (), _, _, fun _ => trivial, rfl, rfl, by decide, by decide⟩

/-- **C49, new submodules.** A jitted function that adds a submodule holding a Variable succeeds when called
directly, but `nnx.jit` of it raises KeyError. -/
theorem C49_new_submodule_raises : ∃ (f : Prog Nat Unit) (wd wj : World Nat), f.Good ∧
    f.call 0 exWorld = (wd, .ok ()) ∧ jitCall 9 true 5 6 0 f.call exWorld = (wj, .error .keyError) :=
  ⟨.new (exCls (py! "Block")) (.set 1 (py! "w") (.data cArray 1) fun _ => .link 0 (py! "c") 1 fun _ => .ret ()), _, _,
    ⟨⟨by unfold NoSlash; decide, by decide⟩, .inl trivial, fun _ => ⟨⟨by unfold NoSlash; decide, by decide⟩, fun _ => trivial⟩⟩,
    rfl, rfl⟩

/-- An exception after an assignment: the direct call has changed the module, the jitted one has not. -/
example : ∃ (f : Prog Nat Unit) (wd wj : World Nat), f.Good ∧
    f.call 0 exWorld = (wd, .error .valueError) ∧ jitCall 6 true 5 6 0 f.call exWorld = (wj, .error .valueError) ∧
    observe wd.heap 0 [py! "w"] = some (.value (exParam 2)) ∧ observe wj.heap 0 [py! "w"] = some (.value (exParam 1)) :=
  ⟨.set 0 (py! "w") (.data cArray 2) fun _ => .fail .valueError, _, _,
    ⟨⟨by unfold NoSlash; decide, by decide⟩, .inl trivial, fun _ => trivial⟩, rfl, rfl, by decide, by decide⟩

/-! ### C75 -/

/-- The `is_initializing` flags of the submodules in a definition, in order. -/
def Subs.flags : Subs α → List Bool
  | .nil => []
  | .ref _ _ r => r.flags
  | .sub _ _ _ s _ b r => b :: (s.flags ++ r.flags)

omit [DecidableEq α] in
theorem Subs.flags_length {s t : Subs α} : s.noFlags = t.noFlags → s.flags.length = t.flags.length := by
  induction s generalizing t with
  | nil => intro h; cases t <;> simp [Subs.noFlags] at h; rfl
  | ref n i r ih =>
    intro h
    cases t <;> simp [Subs.noFlags] at h
    obtain ⟨_, _, h⟩ := h
    simp only [Subs.flags, ih h]
  | sub n c i s st b r ihs ihr =>
    intro h
    cases t <;> simp [Subs.noFlags] at h
    obtain ⟨_, _, _, h1, _, h2⟩ := h
    simp only [Subs.flags, List.length_cons, List.length_append, ihs h1, ihr h2]

theorem Subs.eq_of_flags {s t : Subs α} : s.noFlags = t.noFlags → s.flags = t.flags → s = t := by
  induction s generalizing t with
  | nil => intro h _; cases t <;> simp [Subs.noFlags] at h; rfl
  | ref n i r ih =>
    intro h e
    cases t <;> simp [Subs.noFlags] at h
    obtain ⟨rfl, rfl, h⟩ := h
    rw [ih h e]
  | sub n c i s st b r ihs ihr =>
    intro h e
    cases t <;> simp [Subs.noFlags] at h
    obtain ⟨rfl, rfl, rfl, h1, rfl, h2⟩ := h
    simp only [Subs.flags, List.cons.injEq] at e
    obtain ⟨rfl, e⟩ := e
    obtain ⟨e1, e2⟩ := List.append_inj e (Subs.flags_length h1)
    rw [ihs h1 e1, ihr h2 e2]

/-- A ModuleDef that some module has. -/
def ModuleDef.OfModule (d : ModuleDef α) : Prop := ∃ (h : Heap α) (l : Loc) (fuel : Nat), getModuleDef fuel h l = some d

/-- **C75 (partial).** If the ModuleDefs of earlier calls that are equal to that of this call also agree with it in
the `is_initializing` flags of submodules, then a call that may use the compilation cache does the same as one that
compiles anew. Missing: without the condition on the flags the claim is false (`C75_stale_flags`). -/
theorem C75_cache_transparent_partial {w : World α} {l : Loc} {cache : List (ModuleDef α)}
    (hc : ∀ e ∈ cache, e.OfModule) {fuel : Nat}
    (hfl : ∀ e ∈ cache, ∀ d, getModuleDef fuel w.heap l = some d → e.auxEqv d = true → e.subs.flags = d.subs.flags)
    (stateful : Bool) (j t : Nat) (body : Loc → World α → World α × Except Err β) :
    (jitCachedCall fuel stateful j t cache l body w).1 = jitCall fuel stateful j t l body w ∧
    ∀ e ∈ (jitCachedCall fuel stateful j t cache l body w).2, e.OfModule := by
  simp only [jitCachedCall, jitCall]
  cases hp : partitionModule fuel w.heap l [] with
  | error e => exact ⟨rfl, hc⟩
  | ok r =>
    obtain ⟨ss, d⟩ := r
    have hd : getModuleDef fuel w.heap l = some d := by
      simp only [partitionModule] at hp
      split at hp
      · next h1 _ => cases hp; exact h1
      · cases hp
    have hdd : (cache.find? fun c => c.auxEqv d).getD d = d := by
      cases hf : cache.find? fun c => c.auxEqv d with
      | none => rfl
      | some e =>
        have he := List.find?_some hf
        have hm := List.mem_of_find?_eq_some hf
        have hflags := hfl e hm d hd he
        obtain ⟨h, l0, f0, h0⟩ := hc e hm
        simp only [ModuleDef.auxEqv, Bool.and_eq_true, decide_eq_true_eq] at he
        obtain ⟨⟨⟨⟨h1, h2⟩, h3⟩, h4⟩, h5⟩ := he
        have hn := ModuleDef.noFlags_eq h0 hd (by simp [ModuleDef.eqv, h1, h3, h4])
        have hs : e.subs = d.subs := Subs.eq_of_flags (by simpa [ModuleDef.noFlags] using congrArg ModuleDef.subs hn) hflags
        cases e; cases d
        simp_all
    dsimp only
    rw [hdd]
    have hcache : ∀ e ∈ (if cache.any (fun c => c.auxEqv d) then cache else cache ++ [d]), e.OfModule := by
      intro e he
      split at he
      · exact hc e he
      · rcases List.mem_append.1 he with he | he
        · exact hc e he
        · rw [List.mem_singleton.1 he]; exact ⟨_, _, _, hd⟩
    cases hr : insideTrace j (some t) (mergeAndRun d ss body) w with
    | mk w1 r =>
      cases r with
      | error e => exact ⟨rfl, hc⟩
      | ok lo =>
        obtain ⟨l', out⟩ := lo
        dsimp only
        cases stateful with
        | false => exact ⟨rfl, hcache⟩
        | true =>
          simp only [if_true]
          cases hw : writeBack fuel l' l w1 with
          | mk w2 r2 =>
            cases r2 with
            | none => exact ⟨rfl, hcache⟩
            | some e => exact ⟨rfl, hcache⟩

/-- Returns the `is_initializing` flag of `m.a`. -/
def exFlagProg : Prog Nat Bool :=
  .get 0 (py! "a") fun x => .ret (match x with | some (.module _ b) => b | _ => false)

/-- The world of `exWorld` with the flag of the block cleared. -/
def exWorldQuiet : World Nat := (setIsInit false 1 exWorld).1

/-- **C75 is false in general.** Flags of submodules do not take part in the cache key, so a function compiled
while a submodule is being initialized keeps seeing the flag. -/
theorem C75_stale_flags : ∃ (cache : List (ModuleDef Nat)) (w1 w2 : World Nat),
    jitCachedCall 6 true 5 6 [] 0 exFlagProg.call exWorld = ((w1, .ok true), cache) ∧
    exFlagProg.call 0 exWorldQuiet = (exWorldQuiet, .ok false) ∧
    (jitCachedCall 6 true 5 6 cache 0 exFlagProg.call exWorldQuiet).1 = (w2, .ok true) := ⟨_, _, _, rfl, rfl, rfl⟩

/-- Two calls on the same module: the second one uses the cache, and the condition on the flags holds. -/
example : ∃ (cache : List (ModuleDef Nat)) (w1 : World Nat) (d : ModuleDef Nat),
    jitCachedCall 6 true 5 6 [] 0 exProg.call exWorld = ((w1, .ok true), cache) ∧ cache = [d] ∧
    getModuleDef 9 w1.heap 0 = some d := ⟨_, _, _, rfl, rfl, by decide⟩

end Nnx
