import Verif.Proofs.GoodStates
/-
scan of two functions that have the same outcome on corresponding Modules, at corresponding Modules.
-/
namespace Nnx
variable {α κ A B C γ : Type}

/-! ### Worlds with new Modules -/

theorem Added.refl {u : World α} (wf : WFWorld u) : Added u u :=
  ⟨wf, Nat.le_refl _, fun _ _ => rfl, rfl, rfl, fun _ _ _ hx e => absurd (attrAt_some_lt e) (Nat.not_lt.2 hx)⟩

theorem Added.trans {u v z : World α} (h : Added u v) (h' : Added v z) : Added u z := by
  refine ⟨h'.wf, Nat.le_trans h.len h'.len, fun a ha => (h'.old a (Nat.lt_of_lt_of_le ha h.len)).trans (h.old a ha),
    h'.jax.trans h.jax, h'.stack.trans h.stack, ?_⟩
  intro x n y hx e
  by_cases hv : v.heap.length ≤ x
  · exact Nat.le_trans h.len (h'.closed x n y hv e)
  · rw [attrAt, h'.old x (Nat.lt_of_not_le hv)] at e
    exact h.closed x n y hx e

theorem Added.keeps {u v : World α} (h : Added u v) : Keeps u v :=
  ⟨h.jax, h.stack, h.len, fun a ha => by simp only [objInfo, h.old a ha]⟩

theorem Added.confined {u v : World α} (h : Added u v) {A : Loc → Prop} (hA : Closed u.heap A) : Confined A u v :=
  (grown h.wf h.len h.old h.jax h.stack h.closed).2.1 A hA

/-- What corresponds still corresponds after Modules have been added. -/
theorem Bisim.added {S : Loc → Prop} {f : Loc → Loc} {w w' u u' : World α} (B : Bisim S f w w') (h : Added w u) (h' : Added w' u') :
    Bisim S f u u' := by
  refine ⟨B.inj, ?_, ?_⟩
  · intro a ha
    obtain ⟨o, o', h1, h2, h3, h4, h5, h6, h7⟩ := B.obj a ha
    refine ⟨o, o', ?_, ?_, h3, h4, ?_, ?_, h7⟩
    · rw [← h1]; exact h.old _ (B.lt ha).1
    · rw [← h2]; exact h'.old _ (B.lt ha).2
    · rw [traceValid_of h.jax h.stack]; exact h5
    · rw [traceValid_of h'.jax h'.stack]; exact h6
  · intro a n b ha e
    rw [attrAt, h.old _ (B.lt ha).1] at e
    exact B.closed a n b ha e

/-- Running a function on the new Modules of an inner trace, and leaving the trace. -/
theorem Added.inner {u v z : World α} {j : Nat} {t : Option Nat} (h : Added (u.entered j t) v)
    (c : Confined (fun x => u.heap.length ≤ x) v z) : Added u (u.left z) := by
  refine ⟨wfWorld_traces c.wf, Nat.le_trans h.len c.len, ?_, rfl, rfl, ?_⟩
  · intro a ha
    exact (c.same a (Nat.lt_of_lt_of_le ha h.len) (Nat.not_le.2 ha)).trans (h.old a ha)
  · intro x n y hx e
    rcases c.closed x n y (.inl hx) e with h' | h'
    · exact h'
    · exact Nat.le_trans h.len h'

/-! ### Calls -/

/-- The outcomes `r` and `r'` of two calls, on the Module `l` of `u` and the Module `l'` of `u'`, correspond. -/
structure CallSim (l l' : Loc) (u u' : World α) (r r' : World α × Except Err γ) : Prop where
  out : r'.2 = r.2
  confined : ∀ A, Closed u.heap A → A l → Confined A u r.1
  confined' : ∀ A, Closed u'.heap A → A l' → Confined A u' r'.1
  bisim : ∀ b, r.2 = .ok b → ∃ S h, S l ∧ h l = l' ∧ Bisim S h r.1 r'.1

/-- The outcome is an exception about which nothing is claimed. -/
def Escapes (X : Err → Prop) (r : World α × Except Err γ) : Prop := ∃ e, X e ∧ r.2 = .error e

/-- The two functions have corresponding outcomes on all corresponding Modules, unless the first raises an exception in `X`. -/
def BodySim (X : Err → Prop) (F G : Loc → World α → World α × Except Err γ) : Prop :=
  ∀ (S : Loc → Prop) (h : Loc → Loc) (l : Loc) (u u' : World α), Bisim S h u u' → WFWorld u → WFWorld u' → S l →
    Escapes X (F l u) ∨ CallSim l (h l) u u' (F l u) (G (h l) u')

theorem Parametric.bodySim {F : Loc → World α → World α × Except Err γ} (hF : Parametric F) (X : Err → Prop) : BodySim X F F := by
  intro S h l u u' B wf wf' hl
  obtain ⟨S', h', h1, h2, h3⟩ := hF.bisim S h l u u' B wf wf' hl
  exact .inr ⟨h3.symm, fun A hA hAl => hF.confined A l u wf hA hAl (B.lt hl).1, fun A hA hAl => hF.confined A _ u' wf' hA hAl (B.lt hl).2,
    fun _ _ => ⟨S', h', (h1 l hl).1, (h1 l hl).2, h2⟩⟩

variable [DecidableEq α]

/-- What is known of a function run on a merged copy in the worlds `u` and `u'`. -/
structure CopySim (u u' : World α) (r r' : World α × Except Err (Loc × γ)) : Prop where
  added : Added u r.1
  added' : Added u' r'.1
  out : (∃ e, r.2 = .error e ∧ r'.2 = .error e) ∨
    ∃ b, r.2 = .ok (u.heap.length, b) ∧ r'.2 = .ok (u'.heap.length, b) ∧
      u.heap.length < r.1.heap.length ∧ u'.heap.length < r'.1.heap.length ∧
      ∀ fuel fs, partitionModule fuel r'.1.heap u'.heap.length fs = partitionModule fuel r.1.heap u.heap.length fs

theorem copy_sim {h : Heap α} (wf : WFHeap h) {root : Loc} (hroot : root < h.length) {k : Nat} {d : ModuleDef α}
    (hd : getModuleDef k h root = some d) {ss : List (State (PyVal α))} (hg : GoodUpdates ss)
    {F G : Loc → World α → World α × Except Err γ} {X : Err → Prop} (hFG : BodySim X F G) (j : Nat) (t : Option Nat) {u u' : World α}
    (wfu : WFWorld u) (wfu' : WFWorld u') :
    Escapes X (insideTrace j t (mergeAndRun d ss F) u) ∨
      CopySim u u' (insideTrace j t (mergeAndRun d ss F) u) (insideTrace j t (mergeAndRun d ss G) u') := by
  have we : WFWorld (u.entered j t) := wfWorld_traces wfu
  have we' : WFWorld (u'.entered j t) := wfWorld_traces wfu'
  obtain ⟨A1, lt1, ok1⟩ := mergeDef_added wf hroot hd hg we
  obtain ⟨A1', lt1', ok1'⟩ := mergeDef_added wf hroot hd hg we'
  obtain ⟨g, S, hgl, hS, Bs, hout⟩ := mergeDef_bisim wf hroot hd ss (u.entered j t) (u'.entered j t)
  have e1 : insideTrace j t (mergeAndRun d ss F) u =
      (u.left (mergeAndRun d ss F (u.entered j t)).1, (mergeAndRun d ss F (u.entered j t)).2) := rfl
  have e1' : insideTrace j t (mergeAndRun d ss G) u' =
      (u'.left (mergeAndRun d ss G (u'.entered j t)).1, (mergeAndRun d ss G (u'.entered j t)).2) := rfl
  rw [e1, e1']
  have hw : mergeDef d ss (u.entered j t) = ((mergeDef d ss (u.entered j t)).1, (mergeDef d ss (u.entered j t)).2) := rfl
  generalize hv : (mergeDef d ss (u.entered j t)).1 = v at *
  generalize hv' : (mergeDef d ss (u'.entered j t)).1 = v' at *
  have hm' : mergeDef d ss (u'.entered j t) = (v', (mergeDef d ss (u'.entered j t)).2) := by rw [← hv']
  rcases hout with ⟨h1, h2⟩ | ⟨e, h1, h2⟩
  · rw [h1] at hw
    rw [h2] at hm'
    rcases hFG S g _ v v' Bs A1.wf A1'.wf hS with ⟨e, he, hr⟩ | c
    · left
      refine ⟨e, he, ?_⟩
      simp only [mergeAndRun, hw]
      generalize F (u.entered j t).heap.length v = r at hr
      obtain ⟨r1, r2⟩ := r
      simp only at hr
      subst hr
      rfl
    right
    rw [hgl] at c
    have cl : Closed v.heap (fun x => u.heap.length ≤ x) := A1.closed
    have cl' : Closed v'.heap (fun x => u'.heap.length ≤ x) := A1'.closed
    have hu : (u.entered j t).heap.length = u.heap.length := rfl
    have hu' : (u'.entered j t).heap.length = u'.heap.length := rfl
    rw [hu] at lt1 h1 hw c hS hgl
    rw [hu'] at lt1' h2 hm' c hgl
    have cf := c.confined _ cl (Nat.le_refl _)
    have cf' := c.confined' _ cl' (Nat.le_refl _)
    have hsim := c.bisim
    have ho := c.out
    simp only [mergeAndRun, hw, hm']
    generalize F u.heap.length v = r at cf hsim ho
    generalize G u'.heap.length v' = r' at cf' hsim ho
    obtain ⟨r1, r2⟩ := r
    obtain ⟨r1', r2'⟩ := r'
    simp only at ho cf cf'
    subst ho
    cases r2' with
    | error e => exact ⟨A1.inner cf, A1'.inner cf', .inl ⟨e, rfl, rfl⟩⟩
    | ok b =>
      refine ⟨A1.inner cf, A1'.inner cf', .inr ⟨b, rfl, rfl, Nat.lt_of_lt_of_le lt1 cf.len, Nat.lt_of_lt_of_le lt1' cf'.len, ?_⟩⟩
      obtain ⟨S2, h2, hS2, hl2, B2⟩ := hsim b rfl
      intro fuel fs
      have := B2.partition_same cf.wf.heap cf'.wf.heap hS2 fuel fs
      rw [hl2] at this
      exact this
  · right
    rw [h1] at hw
    rw [h2] at hm'
    simp only [mergeAndRun, hw, hm']
    exact ⟨A1.inner (.refl A1.wf A1.closed), A1'.inner (.refl A1'.wf A1'.closed), .inl ⟨e, rfl, rfl⟩⟩

/-! ### The steps -/

/-- All States of the output of a step are good. -/
structure GoodOut (y : StepOut α B) : Prop where
  axes : ∀ t ∈ y.axes, GoodState t
  bcastNew : GoodState y.bcastNew
  carryNew : GoodState y.carryNew

omit [DecidableEq α] in
/-- `partition` gives good States. -/
theorem partition_good {h : Heap α} (wf : WFHeap h) {l : Loc} (hl : l < h.length) {k : Nat} {fs : List (Filter α)}
    {ss : List (State (PyVal α))} {d : ModuleDef α} (hp : partitionModule k h l fs = .ok (ss, d)) :
    (∀ t ∈ ss, GoodState t) ∧ getModuleDef k h l = some d := by
  unfold partitionModule at hp
  split at hp
  · next d' s hd hs =>
    have hg : GoodState s := getState_good wf hl hs
    split at hp
    · cases hp
      exact ⟨by simpa using hg, hd⟩
    · split at hp
      · cases hp
      · next ss' hss =>
        cases hp
        exact ⟨hg.partition hss, hd⟩
  · cases hp

omit [DecidableEq α] in
theorem splitGroups_good {n : Nat} {ss axes : List (State (PyVal α))} {b c : State (PyVal α)} (hs : ∀ t ∈ ss, GoodState t)
    (h : splitGroups n ss = some (axes, b, c)) : (∀ t ∈ axes, GoodState t) ∧ GoodState b ∧ GoodState c := by
  unfold splitGroups at h
  split at h
  · next h1 h2 =>
    cases h
    exact ⟨fun t ht => hs t (List.mem_of_mem_take ht), hs _ (List.mem_of_getElem? h1), hs _ (List.mem_of_getElem? h2)⟩
  · cases h

/-- The outcomes of a step (or of some steps): Modules have been added, the results are equal and good. -/
structure StepSim' {Z : Type} (Q : Z → Prop) (u u' : World α) (r r' : World α × Except Err Z) : Prop where
  out : r'.2 = r.2
  added : Added u r.1
  added' : Added u' r'.1
  good : ∀ x, r.2 = .ok x → Q x

/-- The same, unless the first outcome is an exception in `X`. -/
def StepSim {Z : Type} (X : Err → Prop) (Q : Z → Prop) (u u' : World α) (r r' : World α × Except Err Z) : Prop :=
  Escapes X r ∨ StepSim' Q u u' r r'

omit [DecidableEq α] in
theorem StepSim.error {Z : Type} {X : Err → Prop} {Q : Z → Prop} {u u' v v' : World α} (h : Added u v) (h' : Added u' v') (e : Err) :
    StepSim X Q u u' (v, (.error e : Except Err Z)) (v', .error e) := .inr ⟨rfl, h, h', fun _ h => by cases h⟩

omit [DecidableEq α] in
theorem StepSim.resolve {Z : Type} {Q : Z → Prop} {u u' : World α} {r r' : World α × Except Err Z} (s : StepSim (fun _ => False) Q u u' r r') :
    StepSim' Q u u' r r' := s.resolve_left fun h => h.choose_spec.1

variable {fuel : Nat} {o : ScanOptions α} {j : Nat} {d : ModuleDef α} {bcast : State (PyVal α)}
  {X : Err → Prop} {F G : Option (PureContext κ) → C → Option A → Loc → World α → World α × Except Err (C × B)}

theorem scanFn_sim {h : Heap α} (wf : WFHeap h) {root : Loc} (hroot : root < h.length) {k : Nat}
    (hd : getModuleDef k h root = some d) (hFG : ∀ ctx c x, BodySim X (F ctx c x) (G ctx c x)) (hb : GoodState bcast)
    {carry : State (PyVal α) × C} (hc : GoodState carry.1) {x : StepIn α κ A} (hx : ∀ t ∈ x.axes, GoodState t) {u u' : World α}
    (wfu : WFWorld u) (wfu' : WFWorld u') :
    StepSim X (fun y : (State (PyVal α) × C) × StepOut α B => GoodState y.1.1 ∧ GoodOut y.2) u u'
      (scanFn fuel o j d bcast F carry x u) (scanFn fuel o j d bcast G carry x u') := by
  unfold scanFn
  cases ha : onAxes removeAxis o x.axes with
  | error e => exact .error (.refl wfu) (.refl wfu') e
  | ok axes =>
    have hgood : GoodUpdates (axes ++ [bcast, carry.1]) := by
      intro t ht
      rcases List.mem_append.1 ht with ht | ht
      · exact goodStates_onAxes (fun _ _ _ _ hs e => hs.removeAxis e) hx ha t ht
      · simp only [List.mem_cons, List.not_mem_nil, or_false] at ht
        rcases ht with rfl | rfl
        · exact hb
        · exact hc
    simp only
    rcases copy_sim wf hroot hd hgood (hFG x.ctx carry.2 x.arg) j none wfu wfu' with ⟨e, he, hr⟩ | cs
    · left
      refine ⟨e, he, ?_⟩
      generalize insideTrace j none (mergeAndRun d (axes ++ [bcast, carry.1]) (F x.ctx carry.2 x.arg)) u = r at hr
      obtain ⟨r1, r2⟩ := r
      simp only at hr
      subst hr
      rfl
    generalize insideTrace j none (mergeAndRun d (axes ++ [bcast, carry.1]) (F x.ctx carry.2 x.arg)) u = r at cs
    generalize insideTrace j none (mergeAndRun d (axes ++ [bcast, carry.1]) (G x.ctx carry.2 x.arg)) u' = r' at cs
    obtain ⟨v, r⟩ := r
    obtain ⟨v', r'⟩ := r'
    obtain ⟨a, a', ho⟩ := cs
    simp only at a a' ho
    rcases ho with ⟨e, rfl, rfl⟩ | ⟨⟨c, y⟩, rfl, rfl, h1, h2, hpart⟩
    · exact .error a a' e
    simp only [hpart fuel o.filters]
    cases hp : partitionModule fuel v.heap u.heap.length o.filters with
    | error e => exact .error a a' e
    | ok sd =>
      obtain ⟨ss, d'⟩ := sd
      obtain ⟨hss, _⟩ := partition_good a.wf.heap h1 hp
      simp only
      cases hg : splitGroups o.variableAxes.length ss with
      | none => exact .error a a' _
      | some g =>
        obtain ⟨axesOut, bcastOut, carryOut⟩ := g
        obtain ⟨g1, g2, g3⟩ := splitGroups_good hss hg
        simp only
        cases hax : onAxes addAxis o axesOut with
        | error e => exact .error a a' _
        | ok axesOut' =>
          refine .inr ⟨rfl, a, a', fun x hx => ?_⟩
          cases hx
          exact ⟨g3.sub _, ⟨goodStates_onAxes (fun _ _ _ _ hs e => hs.addAxis e) g1 hax, hb.sub _, g3.sub _⟩⟩

theorem laxScan_sim {h : Heap α} (wf : WFHeap h) {root : Loc} (hroot : root < h.length) {k : Nat}
    (hd : getModuleDef k h root = some d) (hFG : ∀ ctx c x, BodySim X (F ctx c x) (G ctx c x)) (hb : GoodState bcast) :
    ∀ (xs : List (StepIn α κ A)) (carry : State (PyVal α) × C), GoodState carry.1 → (∀ x ∈ xs, ∀ t ∈ x.axes, GoodState t) →
    ∀ (u u' : World α), WFWorld u → WFWorld u' →
    StepSim X (fun y : (State (PyVal α) × C) × List (StepOut α B) => GoodState y.1.1 ∧ ∀ z ∈ y.2, GoodOut z) u u'
      (laxScan (scanFn fuel o j d bcast F) carry xs u) (laxScan (scanFn fuel o j d bcast G) carry xs u') := by
  intro xs
  induction xs with
  | nil =>
    intro carry hc _ u u' wfu wfu'
    exact .inr ⟨rfl, .refl wfu, .refl wfu', fun x hx => by cases hx; exact ⟨hc, fun _ h => by cases h⟩⟩
  | cons x xs ih =>
    intro carry hc hx u u' wfu wfu'
    simp only [laxScan]
    rcases scanFn_sim (fuel := fuel) (o := o) (j := j) wf hroot hd hFG hb hc (hx x List.mem_cons_self) wfu wfu' with ⟨e, he, hr⟩ | s
    · left
      refine ⟨e, he, ?_⟩
      generalize scanFn fuel o j d bcast F carry x u = r at hr
      obtain ⟨r1, r2⟩ := r
      simp only at hr
      subst hr
      rfl
    generalize scanFn fuel o j d bcast F carry x u = r at s
    generalize scanFn fuel o j d bcast G carry x u' = r' at s
    obtain ⟨v, r⟩ := r
    obtain ⟨v', r'⟩ := r'
    obtain ⟨ho, a, a', hq⟩ := s
    simp only at ho a a' hq
    subst ho
    cases r' with
    | error e => exact .error a a' e
    | ok y =>
      obtain ⟨c, y⟩ := y
      obtain ⟨hq1, hq2⟩ := hq _ rfl
      simp only
      by_cases hs : sameTrees carry.1 c.1 = true
      · simp only [hs, if_true]
        rcases ih c hq1 (fun x hm => hx x (List.mem_cons_of_mem _ hm)) v v' a.wf a'.wf with ⟨e, he, hr⟩ | s'
        · left
          refine ⟨e, he, ?_⟩
          generalize laxScan (scanFn fuel o j d bcast F) c xs v = r at hr
          obtain ⟨r1, r2⟩ := r
          simp only at hr
          subst hr
          rfl
        generalize laxScan (scanFn fuel o j d bcast F) c xs v = r at s'
        generalize laxScan (scanFn fuel o j d bcast G) c xs v' = r' at s'
        obtain ⟨z, r⟩ := r
        obtain ⟨z', r'⟩ := r'
        obtain ⟨ho, b, b', hq⟩ := s'
        simp only at ho b b' hq
        subst ho
        cases r' with
        | error e => exact .error (a.trans b) (a'.trans b') e
        | ok ys =>
          obtain ⟨c', ys⟩ := ys
          obtain ⟨hq3, hq4⟩ := hq _ rfl
          refine .inr ⟨rfl, a.trans b, a'.trans b', fun x hx => ?_⟩
          cases hx
          refine ⟨hq3, fun z hz => ?_⟩
          rcases List.mem_cons.1 hz with rfl | hz
          · exact hq2
          · exact hq4 z hz
      · simp only [hs]
        exact .error a a' _

theorem laxScanDir_sim {h : Heap α} (wf : WFHeap h) {root : Loc} (hroot : root < h.length) {k : Nat}
    (hd : getModuleDef k h root = some d) (hFG : ∀ ctx c x, BodySim X (F ctx c x) (G ctx c x)) (hb : GoodState bcast)
    (rev : Bool) {xs : List (StepIn α κ A)} {carry : State (PyVal α) × C} (hc : GoodState carry.1) (hx : ∀ x ∈ xs, ∀ t ∈ x.axes, GoodState t)
    {u u' : World α} (wfu : WFWorld u) (wfu' : WFWorld u') :
    StepSim X (fun y : (State (PyVal α) × C) × List (StepOut α B) => GoodState y.1.1 ∧ ∀ z ∈ y.2, GoodOut z) u u'
      (laxScanDir rev (scanFn fuel o j d bcast F) carry xs u) (laxScanDir rev (scanFn fuel o j d bcast G) carry xs u') := by
  unfold laxScanDir
  cases rev with
  | false => exact laxScan_sim wf hroot hd hFG hb xs carry hc hx u u' wfu wfu'
  | true =>
    simp only [if_true]
    rcases laxScan_sim (fuel := fuel) (o := o) (j := j) wf hroot hd hFG hb xs.reverse carry hc (fun x h => hx x (List.mem_reverse.1 h)) u u'
      wfu wfu' with ⟨e, he, hr⟩ | s
    · left
      refine ⟨e, he, ?_⟩
      generalize laxScan (scanFn fuel o j d bcast F) carry xs.reverse u = r at hr
      obtain ⟨r1, r2⟩ := r
      simp only at hr
      subst hr
      rfl
    generalize laxScan (scanFn fuel o j d bcast F) carry xs.reverse u = r at s
    generalize laxScan (scanFn fuel o j d bcast G) carry xs.reverse u' = r' at s
    obtain ⟨v, r⟩ := r
    obtain ⟨v', r'⟩ := r'
    obtain ⟨ho, a, a', hq⟩ := s
    simp only at ho a a' hq
    subst ho
    cases r' with
    | error e => exact .error a a' e
    | ok y =>
      obtain ⟨c, ys⟩ := y
      obtain ⟨hq1, hq2⟩ := hq _ rfl
      refine .inr ⟨rfl, a, a', fun x hx => ?_⟩
      cases hx
      exact ⟨hq1, fun z hz => hq2 z (List.mem_reverse.1 hz)⟩

/-! ### The whole scan -/

/-- The outcomes of two scans, of the Module `l` of `w` and the Module `f l` of `w'`: what corresponded still does. -/
structure ScanSim {Z : Type} (S : Loc → Prop) (f : Loc → Loc) (l : Loc) (w w' : World α) (r r' : World α × Except Err Z) : Prop where
  out : r'.2 = r.2
  bisim : Bisim S f r.1 r'.1
  keeps : Keeps w r.1
  keeps' : Keeps w' r'.1
  confined : ∀ A, Closed w.heap A → A l → Confined A w r.1
  confined' : ∀ A, Closed w'.heap A → A (f l) → Confined A w' r'.1

omit [DecidableEq α] in
theorem ScanSim.of_added {Z : Type} {S : Loc → Prop} {f : Loc → Loc} {l : Loc} {w w' v v' : World α} (B : Bisim S f w w')
    (a : Added w v) (a' : Added w' v') (x : Except Err Z) : ScanSim S f l w w' (v, x) (v', x) :=
  ⟨rfl, B.added a a', a.keeps, a'.keeps, fun _ hA _ => a.confined hA, fun _ hA _ => a'.confined hA⟩

theorem stackAxes_good {R : Arrays α} {ys : List (StepOut α B)} (hy : ∀ y ∈ ys, GoodOut y) {axes : List (State (PyVal α))}
    (h : stackAxes R o ys = some axes) : ∀ t ∈ axes, GoodState t := by
  intro t ht
  obtain ⟨fa, _, h1⟩ := mem_of_allSome h ht
  refine goodState_stack ?_ h1
  intro s hs
  obtain ⟨y, hy', h2⟩ := List.mem_filterMap.1 hs
  exact (hy y hy').axes s (List.mem_of_getElem? h2)

theorem scanEnd_good {R : Arrays α} {carry : State (PyVal α) × C} (hc : GoodState carry.1) {ys ysNew : List (StepOut α B)}
    (hy : ∀ y ∈ ys, GoodOut y) (hn : ∀ y ∈ ysNew, GoodOut y) {axes : List (State (PyVal α))} {bn cn : State (PyVal α)}
    (h1 : stackAxes R o ys = some axes) (h2 : stackStates R 0 (ysNew.map (·.bcastNew)) = some bn)
    (h3 : stackStates R 0 (ysNew.map (·.carryNew)) = some cn) : GoodUpdates (axes ++ [carry.1, bn, cn]) := by
  intro t ht
  rcases List.mem_append.1 ht with ht | ht
  · exact stackAxes_good hy h1 t ht
  · simp only [List.mem_cons, List.not_mem_nil, or_false] at ht
    rcases ht with rfl | rfl | rfl
    · exact hc
    · refine goodState_stack ?_ h2
      intro s hs
      obtain ⟨y, hy', rfl⟩ := List.mem_map.1 hs
      exact (hn y hy').bcastNew
    · refine goodState_stack ?_ h3
      intro s hs
      obtain ⟨y, hy', rfl⟩ := List.mem_map.1 hs
      exact (hn y hy').carryNew

theorem scanEnd_sim {R : Arrays α} {S : Loc → Prop} {f : Loc → Loc} {l : Loc} {w w' : World α} (Bs : Bisim S f w w') (hl : S l)
    {carry : State (PyVal α) × C} (hc : GoodState carry.1) {ys ysNew : List (StepOut α B)} (hy : ∀ y ∈ ys, GoodOut y)
    (hn : ∀ y ∈ ysNew, GoodOut y) {v v' : World α} (a : Added w v) (a' : Added w' v') :
    ScanSim S f l w w' (scanEnd R fuel o l carry ys ysNew v) (scanEnd R fuel o (f l) carry ys ysNew v') := by
  unfold scanEnd
  cases h1 : stackAxes R o ys with
  | none => exact .of_added Bs a a' _
  | some axes =>
    cases h2 : stackStates R 0 (ysNew.map (·.bcastNew)) with
    | none => exact .of_added Bs a a' _
    | some bn =>
      cases h3 : stackStates R 0 (ysNew.map (·.carryNew)) with
      | none => exact .of_added Bs a a' _
      | some cn =>
        have hg : GoodUpdates (axes ++ [carry.1, bn, cn]) := scanEnd_good hc hy hn h1 h2 h3
        have B1 := Bs.added a a'
        have hlt := (Bs.lt hl).1
        have hlt' := (Bs.lt hl).2
        obtain ⟨B2, ho⟩ := B1.updateState a.wf.heap a'.wf.heap hl fuel (axes ++ [carry.1, bn, cn])
        have k1 := updateState_keeps fuel l (axes ++ [carry.1, bn, cn]) v
        have k2 := updateState_keeps fuel (f l) (axes ++ [carry.1, bn, cn]) v'
        have c1 : ∀ A, Closed w.heap A → A l → Confined A w (updateState fuel l (axes ++ [carry.1, bn, cn]) v).1 := by
          intro A hA hAl
          have c := a.confined hA
          exact c.trans (confined_updateState a.wf c.closed (.inl hAl) (Nat.lt_of_lt_of_le hlt a.len) hg rfl).1
        have c2 : ∀ A, Closed w'.heap A → A (f l) → Confined A w' (updateState fuel (f l) (axes ++ [carry.1, bn, cn]) v').1 := by
          intro A hA hAl
          have c := a'.confined hA
          exact c.trans (confined_updateState a'.wf c.closed (.inl hAl) (Nat.lt_of_lt_of_le hlt' a'.len) hg rfl).1
        simp only
        generalize updateState fuel l (axes ++ [carry.1, bn, cn]) v = r at *
        generalize updateState fuel (f l) (axes ++ [carry.1, bn, cn]) v' = r' at *
        obtain ⟨r1, r2⟩ := r
        obtain ⟨r1', r2'⟩ := r'
        simp only at ho
        subst ho
        cases r2' with
        | none => exact ⟨rfl, B2, a.keeps.trans k1, a'.keeps.trans k2, c1, c2⟩
        | some e => exact ⟨rfl, B2, a.keeps.trans k1, a'.keeps.trans k2, c1, c2⟩

theorem scanRun_sim {R : Arrays α} {S : Loc → Prop} {f : Loc → Loc} {l : Loc} {w w' : World α} (Bs : Bisim S f w w') (hl : S l)
    (wf : WFWorld w) (wf' : WFWorld w') {k : Nat}
    (hd : getModuleDef k w.heap l = some d) (hFG : ∀ ctx c x, BodySim X (F ctx c x) (G ctx c x)) (hb : GoodState bcast)
    {carry : State (PyVal α) × C} (hc : GoodState carry.1) {xs : List (StepIn α κ A)} (hx : ∀ x ∈ xs, ∀ t ∈ x.axes, GoodState t) :
    Escapes X (scanRun R fuel o j d bcast l F carry xs w) ∨ ScanSim S f l w w' (scanRun R fuel o j d bcast l F carry xs w)
      (scanRun R fuel o j d bcast (f l) G carry xs w') := by
  have hlt := (Bs.lt hl).1
  unfold scanRun
  cases hxx : (if o.reverse then xs.getLast? else xs.head?) with
  | none => exact .inr (.of_added Bs (.refl wf) (.refl wf') _)
  | some x =>
    have hmem : x ∈ xs := by
      split at hxx
      · exact List.mem_of_getLast? hxx
      · exact List.mem_of_mem_head? hxx
    simp only
    rcases scanFn_sim (fuel := fuel) (o := o) (j := j) wf.heap hlt hd hFG hb hc (hx x hmem) wf wf' with ⟨e, he, hr⟩ | s
    · left
      refine ⟨e, he, ?_⟩
      generalize scanFn fuel o j d bcast F carry x w = r at hr
      obtain ⟨r1, r2⟩ := r
      simp only at hr
      subst hr
      rfl
    generalize scanFn fuel o j d bcast F carry x w = r at s
    generalize scanFn fuel o j d bcast G carry x w' = r' at s
    obtain ⟨v, r⟩ := r
    obtain ⟨v', r'⟩ := r'
    obtain ⟨ho, a, a', hq⟩ := s
    simp only at ho a a' hq
    subst ho
    cases r' with
    | error e => exact .inr (.of_added Bs (.refl wf) (.refl wf') _)
    | ok y =>
      obtain ⟨c, y⟩ := y
      obtain ⟨hq1, hq2⟩ := hq _ rfl
      clear a a' hq
      simp only
      split
      · rcases laxScanDir_sim (fuel := fuel) (o := o) (j := j) wf.heap hlt hd hFG hb o.reverse (xs := xs.take 1) hc
          (fun x h => hx x (List.mem_of_mem_take h)) wf wf' with ⟨e, he, hr⟩ | s
        · left
          refine ⟨e, he, ?_⟩
          generalize laxScanDir o.reverse (scanFn fuel o j d bcast F) carry (xs.take 1) w = r at hr
          obtain ⟨r1, r2⟩ := r
          simp only at hr
          subst hr
          rfl
        generalize laxScanDir o.reverse (scanFn fuel o j d bcast F) carry (xs.take 1) w = r at s
        generalize laxScanDir o.reverse (scanFn fuel o j d bcast G) carry (xs.take 1) w' = r' at s
        obtain ⟨v, r⟩ := r
        obtain ⟨v', r'⟩ := r'
        obtain ⟨ho, a, a', hq⟩ := s
        simp only at ho a a' hq
        subst ho
        cases r' with
        | error e => exact .inr (.of_added Bs a a' _)
        | ok y =>
          obtain ⟨c1, ys1⟩ := y
          obtain ⟨hq1, hq2⟩ := hq _ rfl
          match ys1, hq2 with
          | [], _ => exact .inr (.of_added Bs a a' _)
          | y1 :: y2 :: ys, _ => exact .inr (.of_added Bs a a' _)
          | [y1], hq2 =>
            have hy1 := hq2 y1 List.mem_cons_self
            simp only
            rcases laxScanDir_sim (fuel := fuel) (o := o) (j := j) (bcast := bcast.merge [y1.bcastNew])
              (carry := (c1.1.merge [y1.carryNew], c1.2)) (xs := xs.drop 1) wf.heap hlt hd hFG
              (hb.merge (by simpa using hy1.bcastNew)) o.reverse (hq1.merge (by simpa using hy1.carryNew))
              (fun x h => hx x (List.mem_of_mem_drop h)) a.wf a'.wf with ⟨e, he, hr⟩ | s
            · left
              refine ⟨e, he, ?_⟩
              generalize laxScanDir o.reverse (scanFn fuel o j d (bcast.merge [y1.bcastNew]) F) (c1.1.merge [y1.carryNew], c1.2) (xs.drop 1) v = r at hr
              obtain ⟨r1, r2⟩ := r
              simp only at hr
              subst hr
              rfl
            generalize laxScanDir o.reverse (scanFn fuel o j d (bcast.merge [y1.bcastNew]) F) (c1.1.merge [y1.carryNew], c1.2) (xs.drop 1) v = r at s
            generalize laxScanDir o.reverse (scanFn fuel o j d (bcast.merge [y1.bcastNew]) G) (c1.1.merge [y1.carryNew], c1.2) (xs.drop 1) v' = r' at s
            obtain ⟨z, r⟩ := r
            obtain ⟨z', r'⟩ := r'
            obtain ⟨ho, b, b', hq⟩ := s
            simp only at ho b b' hq
            subst ho
            cases r' with
            | error e => exact .inr (.of_added Bs (a.trans b) (a'.trans b') _)
            | ok y =>
              obtain ⟨c2, ys2⟩ := y
              obtain ⟨hq3, hq4⟩ := hq _ rfl
              refine .inr (scanEnd_sim Bs hl hq3 ?_ hq4 (a.trans b) (a'.trans b'))
              intro y hy
              rcases List.mem_append.1 hy with h | h
              · exact hq2 y h
              · exact hq4 y h
      · rcases laxScanDir_sim (fuel := fuel) (o := o) (j := j) wf.heap hlt hd hFG hb o.reverse (xs := xs) hc hx wf wf' with ⟨e, he, hr⟩ | s
        · left
          refine ⟨e, he, ?_⟩
          generalize laxScanDir o.reverse (scanFn fuel o j d bcast F) carry xs w = r at hr
          obtain ⟨r1, r2⟩ := r
          simp only at hr
          subst hr
          rfl
        generalize laxScanDir o.reverse (scanFn fuel o j d bcast F) carry xs w = r at s
        generalize laxScanDir o.reverse (scanFn fuel o j d bcast G) carry xs w' = r' at s
        obtain ⟨v, r⟩ := r
        obtain ⟨v', r'⟩ := r'
        obtain ⟨ho, a, a', hq⟩ := s
        simp only at ho a a' hq
        subst ho
        cases r' with
        | error e => exact .inr (.of_added Bs a a' _)
        | ok y =>
          obtain ⟨c1, ys1⟩ := y
          obtain ⟨hq1, hq2⟩ := hq _ rfl
          exact .inr (scanEnd_sim Bs hl hq1 hq2 hq2 a a')

omit [DecidableEq α] in
theorem stepIns_good {R : Arrays α} {axes : List (State (PyVal α))} (g1 : ∀ t ∈ axes, GoodState t) {xs : Option (List A)}
    {cs : Nat → Option (PureContext κ)} {n : Nat} {ins : List (StepIn α κ A)}
    (hins : allSome ((List.range n).map (stepIn R o axes xs cs)) = some ins) : ∀ x ∈ ins, ∀ t ∈ x.axes, GoodState t := by
  intro x hx t ht
  obtain ⟨i, _, hi⟩ := mem_of_allSome hins hx
  unfold stepIn at hi
  split at hi
  · cases hi
  · next ss' hs' =>
    have : x.axes = ss' := by
      split at hi
      · cases hi; rfl
      · simp only [Option.map_eq_some_iff] at hi
        obtain ⟨_, _, rfl⟩ := hi
        rfl
    rw [this] at ht
    obtain ⟨sa, h1, h2⟩ := mem_of_allSome hs' ht
    exact (g1 _ (List.of_mem_zip h1).1).slice h2

/-- **scan does not distinguish corresponding Modules**, nor functions with the same outcomes on corresponding Modules. -/
theorem scanApply_sim {R : Arrays α} {split : κ → Nat → Nat → κ} {S : Loc → Prop} {f : Loc → Loc} {l : Loc} {w w' : World α}
    (Bs : Bisim S f w w') (hl : S l) (wf : WFWorld w) (wf' : WFWorld w')
    (hFG : ∀ ctx c x, BodySim X (F ctx c x) (G ctx c x))
    (c : C) (xs : Option (List A)) (ctx : Option (PureContext κ)) :
    Escapes X (scanApply R split fuel o j l F c xs ctx w) ∨ ScanSim S f l w w' (scanApply R split fuel o j l F c xs ctx w)
      (scanApply R split fuel o j (f l) G c xs ctx w') := by
  unfold scanApply
  rw [Bs.partition_same wf.heap wf'.heap hl fuel o.filters]
  cases hp : partitionModule fuel w.heap l o.filters with
  | error e => exact .inr (.of_added Bs (.refl wf) (.refl wf') _)
  | ok sd =>
    obtain ⟨ss, d⟩ := sd
    obtain ⟨hss, hd⟩ := partition_good wf.heap (Bs.lt hl).1 hp
    simp only
    cases hg : splitGroups o.variableAxes.length ss with
    | none => exact .inr (.of_added Bs (.refl wf) (.refl wf') _)
    | some g =>
      obtain ⟨axes, bcast, carry⟩ := g
      obtain ⟨g1, g2, g3⟩ := splitGroups_good hss hg
      simp only
      split
      · exact .inr (.of_added Bs (.refl wf) (.refl wf') _)
      · split
        · exact .inr (.of_added Bs (.refl wf) (.refl wf') _)
        · split
          · exact .inr (.of_added Bs (.refl wf) (.refl wf') _)
          · split
            · exact .inr (.of_added Bs (.refl wf) (.refl wf') _)
            · next ins hins =>
              exact scanRun_sim Bs hl wf wf' hd hFG g2 g3 (stepIns_good g1 hins)

/-! ### What a scan may change -/

theorem scanEnd_confined {R : Arrays α} {l : Loc} {w : World α} (hlt : l < w.heap.length)
    {carry : State (PyVal α) × C} (hc : GoodState carry.1) {ys ysNew : List (StepOut α B)} (hy : ∀ y ∈ ys, GoodOut y)
    (hn : ∀ y ∈ ysNew, GoodOut y) {v : World α} (a : Added w v) :
    Keeps w (scanEnd R fuel o l carry ys ysNew v).1 ∧
      ∀ A, Closed w.heap A → A l → Confined A w (scanEnd R fuel o l carry ys ysNew v).1 := by
  unfold scanEnd
  split
  · next axes bn cn h1 h2 h3 =>
    have hg : GoodUpdates (axes ++ [carry.1, bn, cn]) := scanEnd_good hc hy hn h1 h2 h3
    have k1 := updateState_keeps fuel l (axes ++ [carry.1, bn, cn]) v
    have c1 : ∀ A, Closed w.heap A → A l → Confined A w (updateState fuel l (axes ++ [carry.1, bn, cn]) v).1 := by
      intro A hA hAl
      have c := a.confined hA
      exact c.trans (confined_updateState a.wf c.closed (.inl hAl) (Nat.lt_of_lt_of_le hlt a.len) hg rfl).1
    generalize updateState fuel l (axes ++ [carry.1, bn, cn]) v = r at *
    obtain ⟨r1, _ | e⟩ := r
    · exact ⟨a.keeps.trans k1, c1⟩
    · exact ⟨a.keeps.trans k1, c1⟩
  · exact ⟨a.keeps, fun _ hA _ => a.confined hA⟩

theorem scanRun_confined {R : Arrays α} {l : Loc} {w : World α} (hlt : l < w.heap.length) (wf : WFWorld w) {k : Nat}
    (hd : getModuleDef k w.heap l = some d) (hF : ∀ ctx c x, BodySim (fun _ => False) (F ctx c x) (F ctx c x)) (hb : GoodState bcast)
    {carry : State (PyVal α) × C} (hc : GoodState carry.1) {xs : List (StepIn α κ A)} (hx : ∀ x ∈ xs, ∀ t ∈ x.axes, GoodState t) :
    Keeps w (scanRun R fuel o j d bcast l F carry xs w).1 ∧
      ∀ A, Closed w.heap A → A l → Confined A w (scanRun R fuel o j d bcast l F carry xs w).1 := by
  have done : ∀ {v : World α}, Added w v → Keeps w v ∧ ∀ A, Closed w.heap A → A l → Confined A w v :=
    fun a => ⟨a.keeps, fun _ hA _ => a.confined hA⟩
  unfold scanRun
  split
  · exact done (.refl wf)
  next x _ =>
  split
  · exact done (.refl wf)
  · split
    · have s := laxScanDir_sim (fuel := fuel) (o := o) (j := j) wf.heap hlt hd hF hb o.reverse (xs := xs.take 1) hc
        (fun x h => hx x (List.mem_of_mem_take h)) wf wf
      have s := s.resolve
      split
      · next v e hr => rw [hr] at s; exact done s.added
      · next v c1 ys1 hr =>
        rw [hr] at s
        obtain ⟨hq1, hq2⟩ := s.good _ rfl
        split
        · next y1 =>
          have hy1 := hq2 y1 List.mem_cons_self
          have s' := laxScanDir_sim (fuel := fuel) (o := o) (j := j) (bcast := bcast.merge [y1.bcastNew])
            (carry := (c1.1.merge [y1.carryNew], c1.2)) (xs := xs.drop 1) wf.heap hlt hd hF
            (hb.merge (by simpa using hy1.bcastNew)) o.reverse (hq1.merge (by simpa using hy1.carryNew))
            (fun x h => hx x (List.mem_of_mem_drop h)) s.added.wf s.added.wf
          have s' := s'.resolve
          simp only
          split
          · next z e hr' => rw [hr'] at s'; exact done (s.added.trans s'.added)
          · next z c2 ys2 hr' =>
            rw [hr'] at s'
            obtain ⟨hq3, hq4⟩ := s'.good _ rfl
            refine scanEnd_confined hlt hq3 ?_ hq4 (s.added.trans s'.added)
            intro y hy
            rcases List.mem_append.1 hy with h | h
            · exact hq2 y h
            · exact hq4 y h
        · exact done s.added
    · have s := laxScanDir_sim (fuel := fuel) (o := o) (j := j) wf.heap hlt hd hF hb o.reverse (xs := xs) hc hx wf wf
      have s := s.resolve
      split
      · next v e hr => rw [hr] at s; exact done s.added
      · next v c1 ys1 hr =>
        rw [hr] at s
        obtain ⟨hq1, hq2⟩ := s.good _ rfl
        exact scanEnd_confined hlt hq1 hq2 hq2 s.added

theorem scanApply_confined {R : Arrays α} {split : κ → Nat → Nat → κ} {l : Loc} {w : World α} (hlt : l < w.heap.length) (wf : WFWorld w)
    (hF : ∀ ctx c x, BodySim (fun _ => False) (F ctx c x) (F ctx c x))
    (c : C) (xs : Option (List A)) (ctx : Option (PureContext κ)) :
    Keeps w (scanApply R split fuel o j l F c xs ctx w).1 ∧
      ∀ A, Closed w.heap A → A l → Confined A w (scanApply R split fuel o j l F c xs ctx w).1 := by
  have done : Keeps w w ∧ ∀ A, Closed w.heap A → A l → Confined A w w := ⟨.refl w, fun _ hA _ => .refl wf hA⟩
  unfold scanApply
  split
  · exact done
  next ss d hp =>
  obtain ⟨hss, hd⟩ := partition_good wf.heap hlt hp
  split
  · exact done
  next axes bcast carry hg =>
  obtain ⟨g1, g2, g3⟩ := splitGroups_good hss hg
  split
  · exact done
  · split
    · exact done
    · split
      · exact done
      · split
        · exact done
        · next ins hins => exact scanRun_confined hlt wf hd hF g2 g3 (stepIns_good g1 hins)

/-- scan of a function that cannot tell corresponding Modules apart is such a function. -/
theorem scanApply_parametric {R : Arrays α} {split : κ → Nat → Nat → κ} (hF : ∀ ctx c x, Parametric (F ctx c x))
    (c : C) (xs : Option (List A)) (ctx : Option (PureContext κ)) :
    Parametric (fun l w => scanApply R split fuel o j l F c xs ctx w) := by
  refine ⟨?_, ?_, ?_⟩
  · intro S f l w w' Bs wf wf' hl
    have s := scanApply_sim (R := R) (split := split) (fuel := fuel) (o := o) (j := j) Bs hl wf wf'
      (fun ctx c x => (hF ctx c x).bodySim (fun _ => False)) c xs ctx
    have s := s.resolve_left (fun h => h.choose_spec.1)
    exact ⟨S, f, fun a ha => ⟨ha, rfl⟩, s.bisim, s.out.symm⟩
  · intro A l w wf hA hl hlt
    exact (scanApply_confined hlt wf (fun ctx c x => (hF ctx c x).bodySim (fun _ => False)) c xs ctx).2 A hA hl
  · intro l w wf hlt
    exact (scanApply_confined hlt wf (fun ctx c x => (hF ctx c x).bodySim (fun _ => False)) c xs ctx).1

end Nnx
