import Verif.Proofs.NestedRun
import Verif.Proofs.ScanLoop
import Verif.Spec.NestedLoop
/-
Functions without any transforms: runs of loops instead of scans.
-/
namespace Nnx
variable {α κ L β A B C X : Type}

/-! ### References -/

/-- Existing Modules have got no new references to Modules. -/
def NoNewRefs (w w' : World α) : Prop :=
  ∀ (a : Loc) n b, a < w.heap.length → attrAt w'.heap a n = some (.ref b) → attrAt w.heap a n = some (.ref b)

theorem NoNewRefs.trans {w w1 w2 : World α} (hlen : w.heap.length ≤ w1.heap.length) (h : NoNewRefs w w1) (h' : NoNewRefs w1 w2) :
    NoNewRefs w w2 :=
  fun a n b ha e => h a n b ha (h' a n b (Nat.lt_of_lt_of_le ha hlen) e)

theorem storedAttr_notRef [DecidableEq α] {x : Option (Attr α)} {v : PyVal α} {y : Attr α} (h : storedAttr x (.val v) = .ok y) (b : Loc) : y ≠ .ref b := by
  rintro rfl
  unfold storedAttr at h
  have hm : ∀ {r : Except Err (PyVal α)}, r.map Attr.val ≠ .ok (.ref b) := by
    intro r h
    cases r <;> cases h
  split at h <;> first | exact hm h | cases h

theorem setAttr_noNewRefs [DecidableEq α] {w w' : World α} {l : Loc} {n : Str} {v : PyVal α} (h : setAttr w l n (.val v) = .ok w') : NoNewRefs w w' := by
  unfold setAttr at h
  split at h
  · cases h
  next o ho =>
  split at h
  · cases h
  split at h
  · cases h
  split at h
  · cases h
  next x hx =>
  cases h
  intro a m b _ e
  rw [attrAt_setAttrs ho] at e
  split at e
  · cases e; exact absurd rfl (storedAttr_notRef hx b)
  · exact e

theorem setValueAtPath_noNewRefs [DecidableEq α] (v : PyVal α) : ∀ (p : List Str) (x : Attr α) {w w' : World α},
    setValueAtPath w x p v = .ok w' → NoNewRefs w w' := by
  intro p
  induction p with
  | nil => intro x w w' e; cases x <;> cases e
  | cons n p ih =>
    intro x w w' e
    cases x with
    | val y => cases p <;> cases e
    | ref b =>
      cases p with
      | nil => exact setAttr_noNewRefs e
      | cons m p =>
        simp only [setValueAtPath] at e
        split at e
        · cases e
        · exact ih _ e

theorem assignAll_noNewRefs [DecidableEq α] (root : Loc) : ∀ (es : List (Str × PyVal α)) (w : World α), NoNewRefs w (assignAll root es w).1 := by
  intro es
  induction es with
  | nil => exact fun w _ _ _ _ h => h
  | cons e es ih =>
    intro w
    obtain ⟨p, v⟩ := e
    simp only [assignAll]
    split
    · exact fun _ _ _ _ h => h
    · next h => exact (setValueAtPath_noNewRefs v _ _ h).trans (setValueAtPath_keeps v _ _ h).len (ih _)

theorem updateState_noNewRefs [DecidableEq α] {k : Nat} {l : Loc} {us : List (State (PyVal α))} {w w' : World α} {r : Option Err}
    (h : updateState k l us w = (w', r)) : NoNewRefs w w' := by
  unfold updateState at h
  split at h
  · cases h; exact fun _ _ _ _ h => h
  · unfold updateModule at h
    intro a n b ha e
    obtain rfl : _ = w' := congrArg Prod.fst h
    exact assignAll_noNewRefs l _ w a n b ha e

theorem reaches_closed {w : World α} (wf : WFWorld w) (l : Loc) : Closed w.heap (Reaches w.heap l) := by
  rintro x n y ⟨q, hq⟩ e
  exact ⟨_, hq.snoc e (wf.heap.refs _ _ _ e)⟩

theorem NodesOnly.noNewRefs {w w' : World α} {l : Loc} (hn : NodesOnly w w' l) (c : Confined (Reaches w.heap l) w w') : NoNewRefs w w' := by
  intro a n b ha e
  by_cases hr : Reaches w.heap l a
  · rcases hn a n hr with h | ⟨v, h, _⟩
    · rwa [h] at e
    · rw [h] at e; cases e
  · rwa [attrAt, c.same a ha hr] at e

/-! ### Conditions at corresponding Modules -/

/-- A net effect on nodes is one on nodes of the corresponding Modules. -/
theorem NodesOnly.corresponding {S S' : Loc → Prop} {f f' : Loc → Loc} {w w' wd wd' : World α} (B : Bisim S f w w')
    (B' : Bisim S' f' wd wd') (hS : ∀ a, S a → S' a ∧ f' a = f a) {l : Loc} (hl : S l) (hn : NodesOnly w wd l) :
    NodesOnly w' wd' (f l) := by
  have hreach : ∀ {a b : Loc} {p : List Str}, Walk w'.heap a p b → ∀ a0, S a0 → f a0 = a → ∃ b0, Reaches w.heap a0 b0 ∧ S b0 ∧ f b0 = b := by
    intro a b p hw
    induction hw with
    | here _ => intro a0 ha0 e; exact ⟨a0, ⟨[], .here (B.lt ha0).1⟩, ha0, e⟩
    | step e _ ih =>
      intro a0 ha0 h0
      subst h0
      rw [B.attr ha0] at e
      cases hx : attrAt w.heap a0 _ with
      | none => rw [hx] at e; cases e
      | some x =>
        rw [hx] at e
        cases x with
        | val v => cases e
        | ref c =>
          cases e
          obtain ⟨b0, ⟨q, hq⟩, h1, h2⟩ := ih c (B.closed _ _ _ ha0 hx) rfl
          exact ⟨b0, ⟨_, .step hx hq⟩, h1, h2⟩
  rintro a' n ⟨p, hp⟩
  obtain ⟨a, hr, ha, rfl⟩ := hreach hp l hl rfl
  have e1 := B.attr ha n
  have e2 := B'.attr (hS a ha).1 n
  rw [(hS a ha).2] at e2
  rw [e1, e2]
  rcases hn a n hr with h | ⟨v, h1, h2, h3⟩
  · left
    rw [h]
    cases hx : attrAt w.heap a n with
    | none => rfl
    | some x =>
      cases x with
      | val v => rfl
      | ref b => simp only [Option.map_some, Attr.redirect, (hS b (B.closed a n b ha hx)).2]
  · right
    refine ⟨v, by rw [h1]; rfl, h2, ?_⟩
    intro x hx
    cases hy : attrAt w.heap a n with
    | none => rw [hy] at hx; cases hx
    | some y =>
      obtain ⟨u, rfl, h4⟩ := h3 y hy
      rw [hy] at hx
      cases hx
      exact ⟨u, rfl, h4⟩

/-- The target of a correspondence can be replaced by a world that agrees with it on the Modules that correspond. -/
theorem Bisim.agree {S : Loc → Prop} {f : Loc → Loc} {w u u' : World α} (B : Bisim S f w u) {n : Nat} (hlt : ∀ a, S a → f a < n)
    (ha : AgreeOn n u u') (hj : u'.jaxTrace = u.jaxTrace) (hst : u'.nnxStack = u.nnxStack) : Bisim S f w u' := by
  refine ⟨B.inj, ?_, B.closed⟩
  intro a hS
  obtain ⟨o, o', h1, h2, h3, h4, h5, h6, h7⟩ := B.obj a hS
  obtain ⟨hat, hi⟩ := ha (f a) (hlt a hS)
  rw [h2] at hi
  cases h8 : u'.heap[f a]? with
  | none => rw [h8] at hi; cases hi
  | some o'' =>
    rw [h8] at hi
    simp only [Option.map_some, Option.some.injEq, Prod.mk.injEq] at hi
    obtain ⟨i1, i2, i3, i4⟩ := hi
    refine ⟨o, o'', h1, rfl, i1.trans h3, i3.trans h4, h5, by rw [traceValid_of hj hst, i4]; exact h6, ?_⟩
    intro m
    have := hat m
    simp only [attrAt, h8, h2] at this
    rw [this, h7 m]

/-- Part of a correspondence. -/
theorem Bisim.restrict {S T : Loc → Prop} {f g : Loc → Loc} {w u : World α} (B : Bisim T g w u) (h : ∀ a, S a → T a ∧ g a = f a)
    (hc : ∀ a n b, S a → attrAt w.heap a n = some (.ref b) → S b) : Bisim S f w u := by
  have B' : Bisim S g w u := ⟨fun a b ha hb => B.inj a b (h a ha).1 (h b hb).1, fun a ha => B.obj a (h a ha).1, hc⟩
  exact B'.congr fun a ha => (h a ha).2

variable [DecidableEq α]

/-- Updates of corresponding Modules. -/
theorem Bisim.update {S : Loc → Prop} {f : Loc → Loc} {w u : World α} (B : Bisim S f w u) (wf : WFWorld w) (wf' : WFWorld u) {l : Loc}
    (hl : S l) {us : List (State (PyVal α))} {w1 : World α} (h : Nnx.updateState (w.heap.length + 1) l us w = (w1, none)) :
    ∃ u1, Nnx.updateState (u.heap.length + 1) (f l) us u = (u1, none) ∧ Bisim S f w1 u1 := by
  obtain ⟨s, d, _, _, h1, h2⟩ := B.getState wf.heap wf'.heap hl (Nat.lt_succ_self _) (Nat.lt_succ_self _)
  have hu : Nnx.updateState (u.heap.length + 1) (f l) us u = Nnx.updateState (w.heap.length + 1) (f l) us u := by
    have h3 := (B.getState_same wf.heap wf'.heap hl (w.heap.length + 1)).trans h1
    simp only [Nnx.updateState, h2, h3]
  obtain ⟨B1, he⟩ := B.updateState wf.heap wf'.heap hl (w.heap.length + 1) us
  rw [h] at B1 he
  rw [hu]
  exact ⟨_, Prod.ext rfl he, B1⟩

/-! ### Loops in both directions -/

section
variable {w : World α} {l : Loc} {o : ScanOptions α} {fuel : Nat} {s0 : State (PyVal α)} {R : Arrays α}

/-- `scan_is_loop` for both directions. -/
theorem scan_is_loop_order (wf : WFWorld w) (hl : l < w.heap.length) (hv : AllValid w l)
    (hs : getState fuel w.heap l = some s0) {ss} (hp : s0.partition o.filters = .ok ss)
    (hname : dhas o.metadata kPartitionName = false)
    {xs : Option (List A)} {n : Nat} (hlen : HasLength R o s0 xs n) (hn : 0 < n)
    {split : κ → Nat → Nat → κ} {p : Str → Bool} {ctx : Option (PureContext κ)}
    (hsel : ctx.isSome = true → toRngPredicate o.splitRngs = .ok p) {ins}
    (hins : LoopInputs R o s0 xs (fun i => ctx.map (stepCtx split p n i)) n ins)
    {body : Option (PureContext κ) × Option A → C → Loc → World α → World α × Except Err (C × B)} (hb : ∀ x c, Parametric (body x c))
    {c c' : C} {vl : World α} {outs} (run : LoopRun body l w c (o.order ins) vl c' outs) (hun : Uniform o s0 (outs.map (·.1)))
    (hno : o.reverse = true → ∀ t ∈ outs, ∀ k, s0.get k = none → t.1.get k = none)
    {fin} (hfin : IsStacked R o s0 (o.order (outs.map (·.1))) fin) (j : Nat) :
    ∃ wd ws, updateState (vl.heap.length + 1) l [fin] vl = (wd, none) ∧
      scanApply R split fuel o j l (scanBody body) c xs ctx w = (ws, .ok (c', o.order (outs.map (·.2)))) ∧
      AgreeOn w.heap.length wd ws ∧ SameGraph wd.heap l ws.heap l ∧ ws.jaxTrace = w.jaxTrace ∧ ws.nnxStack = w.nnxStack := by
  cases hrev : o.reverse with
  | false =>
    simp only [ScanOptions.order, hrev, Bool.false_eq_true, if_false] at run hfin ⊢
    exact scan_is_loop wf hl hv hs hp hname hrev hlen hn hsel hins hb run hun hfin j
  | true =>
    simp only [ScanOptions.order, hrev, if_true] at run hfin ⊢
    obtain ⟨d, b, c0, S, hsp, hpm⟩ := scan_setup wf hl hv hs hp hname
    obtain ⟨xsS, hm, heq⟩ := scanApply_eq (B := B) (C := C) S hsp hpm hlen hsel hins
    obtain ⟨wd, hu, _, hr⟩ := run_nonew S hb j run (by
        intro h
        rw [List.reverse_eq_nil_iff] at h
        rw [h] at hins
        rw [← hins.1] at hn; exact Nat.lt_irrefl _ hn) (xs := xsS)
      (by rw [hrev]; exact List.rel_reverse hm) hun (hno hrev) (fin := fin) (by rw [hrev, if_pos rfl, List.map_reverse]; exact hfin)
    simp only [hrev, if_true] at hr
    obtain ⟨ws, h1, h2⟩ := hr fuel (by rw [hs]; rfl)
    refine ⟨wd, ws, hu, ?_, h2⟩
    rw [heq fuel j _ c hs, ← List.map_reverse]
    exact h1

/-- `scan_raises` for both directions. -/
theorem scan_raises_order (wf : WFWorld w) (hl : l < w.heap.length) (hv : AllValid w l)
    (hs : getState fuel w.heap l = some s0) {ss} (hp : s0.partition o.filters = .ok ss)
    (hname : dhas o.metadata kPartitionName = false)
    {xs : Option (List A)} {n : Nat} (hlen : HasLength R o s0 xs n)
    {split : κ → Nat → Nat → κ} {p : Str → Bool} {ctx : Option (PureContext κ)}
    (hsel : ctx.isSome = true → toRngPredicate o.splitRngs = .ok p) {ins i inp x rest}
    (hins : LoopInputs R o s0 xs (fun i => ctx.map (stepCtx split p n i)) n ins) (hi : o.order ins = i ++ (inp, x) :: rest)
    {body : Option (PureContext κ) × Option A → C → Loc → World α → World α × Except Err (C × B)} (hb : ∀ x c, Parametric (body x c))
    {c c1 : C} {v v1 v2 : World α} {outs} (run : LoopRun body l w c i v c1 outs) (hun : Uniform o s0 (outs.map (·.1)))
    (hno : o.reverse = true → ∀ t ∈ outs, ∀ k, s0.get k = none → t.1.get k = none)
    (hu : updateState (v.heap.length + 1) l [inp] v = (v1, none)) {e : Err} (hc : body x c1 l v1 = (v2, .error e)) (j : Nat) :
    ∃ ws, scanApply R split fuel o j l (scanBody body) c xs ctx w = (ws, .error e) := by
  obtain ⟨d, b, c0, S, hsp, hpm⟩ := scan_setup wf hl hv hs hp hname
  obtain ⟨xsS, hm, heq⟩ := scanApply_eq (B := B) (C := C) S hsp hpm hlen hsel hins
  have hm' : List.Forall₂ (Matched R o s0 ss) (i ++ (inp, x) :: rest) (if o.reverse then xsS.reverse else xsS) := by
    rw [← hi]
    cases hrev : o.reverse with
    | false => simpa only [ScanOptions.order, hrev, Bool.false_eq_true, if_false] using hm
    | true => simpa only [ScanOptions.order, hrev, if_true] using List.rel_reverse hm
  obtain ⟨ws, h1, h2⟩ := run_raises S hb j run hu hc (xs := xsS) hm' hun hno fuel hs
  exact ⟨ws, by rw [heq fuel j _ c hs]; exact h1⟩

omit [DecidableEq α] in
theorem mem_order {γ : Type} {xs : List γ} {x : γ} : x ∈ o.order xs ↔ x ∈ xs := by
  unfold ScanOptions.order
  split
  · exact List.mem_reverse
  · rfl

/-! ### What the module is updated with -/

omit [DecidableEq α] in
/-- Good updates are those whose values are well formed and whose names occur in the state of a Module. -/
theorem goodUpdates_like (wf : WFWorld w) (hl : l < w.heap.length) (hs : getState fuel w.heap l = some s0) {inp : State (PyVal α)}
    (hc : inp.Canonical) (h : ∀ k y, inp.get k = some y → (s0.get k).isSome ∧ WFVal y) : GoodUpdates [inp] := by
  intro t ht k y hk
  rw [List.mem_singleton.1 ht] at hk
  obtain ⟨h1, h2⟩ := h k y (mem_dget (StrictSorted.nodup hc) hk)
  obtain ⟨x, hx⟩ := Option.isSome_iff_exists.1 h1
  exact ⟨h2, (getState_good wf.heap hl hs k x (dget_mem hx)).2⟩

omit [DecidableEq α] in
theorem IsSlice.good (wf : WFWorld w) (hl : l < w.heap.length) (hs : getState fuel w.heap l = some s0) {i : Nat} {inp : State (PyVal α)}
    (h : IsSlice R o s0 i inp) : GoodUpdates [inp] := by
  refine goodUpdates_like wf hl hs h.sorted ?_
  intro k y hk
  obtain ⟨x, g, hx, hfm, hg⟩ := h.only k y hk
  refine ⟨by rw [hx]; rfl, ?_⟩
  have hw := (getState_good wf.heap hl hs k x (dget_mem hx)).1
  rcases Nat.lt_or_eq_of_le hg with hlt | heq
  · have hge : o.variableAxes[g]? = some o.variableAxes[g] := List.getElem?_eq_getElem hlt
    obtain ⟨y', hy', hk'⟩ := h.axes' k x g o.variableAxes[g].1 o.variableAxes[g].2 hx hge hfm
    rw [hk] at hk'; cases hk'
    exact mapLeaves_wf hy' hw
  · rw [heq] at hfm
    have := h.broadcast k x hx hfm
    rw [hk] at this; cases this
    exact hw

theorem IsStacked.good (wf : WFWorld w) (hl : l < w.heap.length) (hs : getState fuel w.heap l = some s0) {after : List (State (PyVal α))}
    {fin : State (PyVal α)} (h : IsStacked R o s0 after fin) (ha : ∀ t ∈ after, ∀ k x, t.get k = some x → WFVal x ∧ x.isNode = true) :
    GoodUpdates [fin] := by
  refine goodUpdates_like wf hl hs h.sorted ?_
  intro k y hk
  obtain ⟨x, g, hx, hfm, hg⟩ := h.only k y hk
  refine ⟨by rw [hx]; rfl, ?_⟩
  have hw := (getState_good wf.heap hl hs k x (dget_mem hx)).1
  rcases Nat.lt_or_eq_of_le hg with hlt | heq
  · have hge : o.variableAxes[g]? = some o.variableAxes[g] := List.getElem?_eq_getElem hlt
    obtain ⟨y', hy', hk'⟩ := h.axes' k x g o.variableAxes[g].1 o.variableAxes[g].2 hx hge hfm
    rw [hk] at hk'; cases hk'
    cases hm : after.filterMap fun t => t.get k with
    | nil => rw [hm] at hy'; cases hy'
    | cons z zs =>
      have : z ∈ after.filterMap fun t => t.get k := by rw [hm]; exact List.mem_cons_self
      obtain ⟨t, ht, hz⟩ := List.mem_filterMap.1 this
      obtain ⟨h1, h2⟩ := ha t ht k z hz
      rw [hm] at hy'
      exact (stackVals_like hy' h1 h2).1
  · rw [heq] at hfm
    have := h.broadcast k x hx hfm
    rw [hk] at this; cases this
    exact hw
end

/-! ### Simulation -/

omit [DecidableEq α] in
/-- The runs of the body on `l` change only what can be reached from `l`. -/
def RunsLocal (l : Loc) (runs : X → C → World α → World α → Except Err (C × B) → Prop) : Prop :=
  ∀ x c w w' r, runs x c w w' r → WFWorld w → l < w.heap.length → Keeps w w' ∧ ∀ A, Closed w.heap A → A l → Confined A w w'

omit [DecidableEq α] in
/-- At Modules that correspond to `l`, `F` does what the runs do. -/
def Simulates (l : Loc) (runs : X → C → World α → World α → Except Err (C × B) → Prop) (F : X → C → Loc → World α → World α × Except Err (C × B)) :
    Prop :=
  ∀ (S : Loc → Prop) f w u x c w' r, Bisim S f w u → WFWorld w → WFWorld u → S l → runs x c w w' r →
    ∃ u', F x c (f l) u = (u', r) ∧ ∀ b, r = .ok b → ∃ S' f', (∀ a, S a → S' a ∧ f' a = f a) ∧ Bisim S' f' w' u'

variable {l : Loc} {runs : X → C → World α → World α → Except Err (C × B) → Prop}
  {F : X → C → Loc → World α → World α × Except Err (C × B)}

/-- What a loop leaves behind. -/
structure LoopEnd (l : Loc) (w vl : World α) (outs : List (State (PyVal α) × B)) : Prop where
  keeps : Keeps w vl
  confined : ∀ A, Closed w.heap A → A l → Confined A w vl
  refs : NoNewRefs w vl
  values : ∀ t ∈ outs, ∀ k x, t.1.get k = some x → WFVal x ∧ x.isNode = true

omit [DecidableEq α] in
theorem Confined.lift {A' : Loc → Prop} {w w1 w2 : World α} (c : Confined A' w w1) (h : ∀ A, Closed w1.heap A → A l → Confined A w1 w2)
    (hl : A' l) : Confined A' w w2 := c.trans (h _ c.closed (.inl hl))

theorem update_end {w w1 : World α} (wf : WFWorld w) (hl : l < w.heap.length) {inp : State (PyVal α)} (hg : GoodUpdates [inp])
    (h : updateState (w.heap.length + 1) l [inp] w = (w1, none)) : LoopEnd l w w1 ([] : List (State (PyVal α) × B)) := by
  refine ⟨?_, fun A hA hl' => (confined_updateState wf hA hl' hl hg h).1, updateState_noNewRefs h, nofun⟩
  have := updateState_keeps (w.heap.length + 1) l [inp] w
  rwa [h] at this

omit [DecidableEq α] in
theorem LoopEnd.trans {B' : Type} {w w1 w2 : World α} {outs : List (State (PyVal α) × B)} {outs' : List (State (PyVal α) × B')}
    (h : LoopEnd l w w1 outs') (h' : LoopEnd l w1 w2 outs) : LoopEnd l w w2 outs :=
  ⟨h.keeps.trans h'.keeps, fun A hA hl => (h.confined A hA hl).lift h'.confined hl, h.refs.trans h.keeps.len h'.refs, h'.values⟩

omit [DecidableEq α] in
theorem LoopEnd.wf {w w1 : World α} {outs : List (State (PyVal α) × B)} (h : LoopEnd l w w1 outs) : WFWorld w1 :=
  (h.confined (fun _ => True) (fun _ _ _ _ _ => trivial) trivial).wf

theorem LoopOf.end (hR : RunsLocal l runs) {w vl : World α} {c c' : C} {ins outs} (run : LoopOf runs l w c ins vl c' outs) :
    WFWorld w → l < w.heap.length → (∀ t ∈ ins, GoodUpdates [t.1]) → LoopEnd l w vl outs := by
  induction run with
  | done => exact fun wf _ _ => ⟨.refl _, fun A hA _ => .refl wf hA, fun _ _ _ _ e => e, nofun⟩
  | @next w w1 w2 w' c c' c'' inp s x y ins outs hu hr hn hs _ ih =>
    intro wf hl hg
    have e1 := update_end (B := B) wf hl (hg _ List.mem_cons_self) hu
    have hl1 := Nat.lt_of_lt_of_le hl e1.keeps.len
    obtain ⟨k2, c2⟩ := hR _ _ _ _ _ hr e1.wf hl1
    have e2 : LoopEnd l w1 w2 ([] : List (State (PyVal α) × B)) :=
      ⟨k2, c2, hn.noNewRefs (c2 _ (reaches_closed e1.wf l) ⟨[], .here hl1⟩), nofun⟩
    have hl2 := Nat.lt_of_lt_of_le hl1 k2.len
    have e3 := ih e2.wf hl2 fun t ht => hg t (List.mem_cons_of_mem _ ht)
    have e := (e1.trans e2).trans e3
    refine ⟨e.keeps, e.confined, e.refs, ?_⟩
    intro t ht
    rcases List.mem_cons.1 ht with rfl | ht
    · intro k x hk
      exact ⟨(getState_good e2.wf.heap hl2 hs k x (dget_mem hk)).1, ((state_paths e2.wf.heap hl2 hs).1 k x hk).choose_spec.choose_spec.2.2⟩
    · exact e3.values t ht

theorem LoopOf.sim (hR : RunsLocal l runs) (hF : ∀ x c, Parametric (F x c)) (hs : Simulates l runs F) {w vl : World α} {c c' : C} {ins outs}
    (run : LoopOf runs l w c ins vl c' outs) : ∀ (S : Loc → Prop) f u, Bisim S f w u → WFWorld w → WFWorld u → S l →
    (∀ t ∈ ins, GoodUpdates [t.1]) →
    ∃ S' f' u', (∀ a, S a → S' a ∧ f' a = f a) ∧ Bisim S' f' vl u' ∧ LoopRun F (f l) u c ins u' c' outs ∧ WFWorld u' ∧ Keeps u u' := by
  induction run with
  | done => exact fun S f u Bi _ wf' _ _ => ⟨S, f, u, fun a ha => ⟨ha, rfl⟩, Bi, .done, wf', .refl u⟩
  | @next w w1 w2 w' c c' c'' inp s x y ins outs hu hr hn hst _ ih =>
    intro S f u Bi wf wf' hl hg
    have hg0 := hg _ List.mem_cons_self
    have e1 := update_end (B := B) wf (Bi.lt hl).1 hg0 hu
    obtain ⟨u1, hu1, B1⟩ := Bi.update wf wf' hl hu
    have e1' := update_end (B := B) wf' (Bi.lt hl).2 hg0 hu1
    obtain ⟨u2, hF2, hB2⟩ := hs S f w1 u1 x c w2 _ B1 e1.wf e1'.wf hl hr
    obtain ⟨S2, f2, hS2, B2⟩ := hB2 _ rfl
    have wf2 : WFWorld w2 := ((hR _ _ _ _ _ hr e1.wf (B1.lt hl).1).2 (fun _ => True) (fun _ _ _ _ _ => trivial) trivial).wf
    have k2' : Keeps u1 u2 := by
      have := (hF x c).keeps (f l) u1 e1'.wf (B1.lt hl).2
      rwa [hF2] at this
    have wf2' : WFWorld u2 := by
      have := (hF x c).wf e1'.wf (B1.lt hl).2
      rwa [hF2] at this
    obtain ⟨S3, f3, u3, hS3, B3, run3, wf3, k3⟩ := ih S2 f2 u2 B2 wf2 wf2' (hS2 l hl).1 fun t ht => hg t (List.mem_cons_of_mem _ ht)
    rw [(hS2 l hl).2] at run3
    obtain ⟨s', d, _, _, h1, h2⟩ := B2.getState wf2.heap wf2'.heap (hS2 l hl).1 (Nat.lt_succ_self _) (Nat.lt_succ_self _)
    rw [hst] at h1
    cases h1
    rw [(hS2 l hl).2] at h2
    exact ⟨S3, f3, u3, fun a ha => ⟨(hS3 a (hS2 a ha).1).1, (hS3 a (hS2 a ha).1).2.trans (hS2 a ha).2⟩, B3,
      .next hu1 hF2 (hn.corresponding B1 B2 hS2 hl) h2 run3, wf3, (e1'.keeps.trans k2').trans k3⟩

/-! ### Scans as loops -/

section
variable {J : Jax α κ L} {fuel : Nat} {o : ScanOptions α} {xs : Option (List β)} {ctx : Option (PureContext κ)}
  {runs : Option (PureContext κ) × Option β → β → World α → World α → Except Err (β × β) → Prop}
  {F : Option (PureContext κ) × Option β → β → Loc → World α → World α × Except Err (β × β)}

omit [DecidableEq α] in
theorem LoopInputs.good {R : Arrays α} {s0 : State (PyVal α)} {n : Nat} {ctxs : Nat → Option (PureContext κ)} {ins}
    (hins : LoopInputs R o s0 xs ctxs n ins) {w : World α} (wf : WFWorld w) (hl : l < w.heap.length)
    (hs : getState fuel w.heap l = some s0) : ∀ t ∈ ins, GoodUpdates [t.1] := by
  intro t ht
  obtain ⟨i, hi⟩ := List.mem_iff_getElem?.1 ht
  exact (hins.2 i t.1 t.2 hi).1.good wf hl hs

theorem ScanLoop.end (hR : RunsLocal l runs) {w w' : World α} {c : β} {r : Except Err (β × List β)}
    (h : ScanLoop J fuel o l xs ctx runs w c w' r) (wf : WFWorld w) (hl : l < w.heap.length) :
    LoopEnd l w w' ([] : List (State (PyVal α) × β)) := by
  have same : LoopEnd l w w ([] : List (State (PyVal α) × β)) := ⟨.refl _, fun A hA _ => .refl wf hA, fun _ _ _ _ e => e, nofun⟩
  cases h with
  | done hs hp hname hlen hn hsel hins run hun hno hfin hu =>
    have hg := hins.good wf hl hs
    have e1 := run.end hR wf hl fun t ht => hg t (mem_order.1 ht)
    exact e1.trans (update_end e1.wf (Nat.lt_of_lt_of_le hl e1.keeps.len) (hfin.good wf hl hs fun t ht => by
      obtain ⟨q, hq, rfl⟩ := List.mem_map.1 (mem_order.1 ht)
      exact e1.values q hq) hu)
  | raises => exact same
  | filters => exact same
  | length => exact same

/-- **Scans are loops**, at corresponding Modules. -/
theorem ScanLoop.sim (hR : RunsLocal l runs) (hF : ∀ x c, Parametric (F x c)) (hsim : Simulates l runs F) {w w' : World α} {c : β}
    {r : Except Err (β × List β)} (h : ScanLoop J fuel o l xs ctx runs w c w' r) {S : Loc → Prop} {f : Loc → Loc} {u : World α}
    (Bi : Bisim S f w u) (wf : WFWorld w) (wf' : WFWorld u) (hl : S l) (j : Nat) :
    ∃ u', scanApply J.arrays J.split fuel o j (f l) (scanBody F) c xs ctx u = (u', r) ∧ ∀ b, r = .ok b → Bisim S f w' u' := by
  have hlw := (Bi.lt hl).1
  have hlu := (Bi.lt hl).2
  have hv : AllValid u (f l) := Bi.right.valid ⟨l, hl, rfl⟩
  have hst : ∀ {s0}, getState fuel w.heap l = some s0 → getState fuel u.heap (f l) = some s0 := fun hs =>
    (Bi.getState_same wf.heap wf'.heap hl fuel).trans hs
  have he := h.end hR wf hlw
  cases h with
  | @done s0 ss n p ins vl c' outs fin w' hs hp hname hlen hn hsel hins run hun hno hfin hu =>
    have hg := hins.good wf hlw hs
    obtain ⟨S1, f1, ul, hS1, B1, run1, wfl, kl⟩ := run.sim hR hF hsim S f u Bi wf wf' hl fun t ht => hg t (mem_order.1 ht)
    obtain ⟨ud, us, hud, hsc, hag, _, hj, hst'⟩ := scan_is_loop_order wf' hlu hv (hst hs) hp hname hlen hn hsel hins hF run1 hun hno hfin j
    refine ⟨us, hsc, fun b _ => ?_⟩
    have e1 := run.end hR wf hlw fun t ht => hg t (mem_order.1 ht)
    obtain ⟨ud', hud', B2⟩ := B1.update e1.wf wfl (hS1 l hl).1 hu
    rw [(hS1 l hl).2, hud] at hud'
    cases hud'
    have B3 : Bisim S f w' ud := B2.restrict hS1 fun a n b ha e => Bi.closed a n b ha (he.refs a n b (Bi.lt ha).1 e)
    have hk : Keeps u ud := by
      have := updateState_keeps (ul.heap.length + 1) (f l) [fin] ul
      rw [hud] at this
      exact kl.trans this
    exact B3.agree (fun a ha => (Bi.lt ha).2) hag (hj.trans hk.jax.symm) (hst'.trans hk.stack.symm)
  | @raises s0 ss n p ins i inp x rest v v1 v2 c1 outs e hs hp hname hlen hsel hins hi run hun hno hu hr =>
    have hg := hins.good wf hlw hs
    have hgi : ∀ t ∈ i ++ (inp, x) :: rest, GoodUpdates [t.1] := fun t ht => hg t (mem_order.1 (hi ▸ ht))
    have hg1 : ∀ t ∈ i, GoodUpdates [t.1] := fun t ht => hgi t (by simp [ht])
    have hg2 : GoodUpdates [inp] := hgi (inp, x) (by simp)
    obtain ⟨S1, f1, ul, hS1, B1, run1, wfl, kl⟩ := run.sim hR hF hsim S f u Bi wf wf' hl hg1
    have e1 := run.end hR wf hlw hg1
    obtain ⟨u1, hu1, B2⟩ := B1.update e1.wf wfl (hS1 l hl).1 hu
    have e2 := update_end (B := β) e1.wf (B1.lt (hS1 l hl).1).1 hg2 hu
    have e2' := update_end (B := β) wfl (B1.lt (hS1 l hl).1).2 hg2 hu1
    obtain ⟨u2, hF2, _⟩ := hsim S1 f1 v1 u1 x c1 v2 _ B2 e2.wf e2'.wf (hS1 l hl).1 hr
    rw [(hS1 l hl).2] at hu1 hF2
    obtain ⟨us, hsc⟩ := scan_raises_order wf' hlu hv (hst hs) hp hname hlen hsel hins hi hF run1 hun hno hu1 hF2 j
    exact ⟨us, hsc, nofun⟩
  | @filters s0 e hs hp => exact ⟨u, scan_bad_filters (hst hs) hp _ _ _ _ _ _ _, nofun⟩
  | @length s0 ss hs hp hname harr hlen => exact ⟨u, scan_bad_length wf' hlu hv (hst hs) hp hname harr hlen _ _ _ _ _, nofun⟩
end

/-! ### Functions -/

variable {J : Jax α κ L}

theorem runs_local {body : Option (PureContext κ) → β → Option β → Routine α κ L β} {out : β → β × β}
    (h : ∀ ctx c x w w' r, (body ctx c x).Direct J [l] w w' r → WFWorld w → l < w.heap.length →
      Keeps w w' ∧ ∀ A, Closed w.heap A → A l → Confined A w w') :
    RunsLocal l (fun (x : Option (PureContext κ) × Option β) c w w' (r : Except Err (β × β)) =>
      ∃ b, (body x.1 c x.2).Direct J [l] w w' b ∧ r = b.map out) := by
  rintro x c w w' r ⟨b, hb, _⟩ wf hl
  exact h _ _ _ _ _ _ hb wf hl

/-- Functions without transforms change only what they can reach. -/
theorem Routine.Direct.local_ (hlaw : GradLaw J.gradOf) (p : Routine α κ L β) : p.Good → ∀ (K : List Loc) (w w' : World α) (r : Except Err β),
    p.Direct J K w w' r → WFWorld w → (∀ k ∈ K, k < w.heap.length) →
    Keeps w w' ∧ ∀ A, Closed w.heap A → (∀ k ∈ K, A k) → Confined A w w' := by
  induction p with
  | ret b => rintro _ K w _ _ ⟨rfl, rfl⟩ wf _; exact ⟨.refl _, fun A hA _ => .refl wf hA⟩
  | fail e => rintro _ K w _ _ ⟨rfl, rfl⟩ wf _; exact ⟨.refl _, fun A hA _ => .refl wf hA⟩
  | op o k ih =>
    rintro hg K w w' r (⟨e, _, rfl, rfl⟩ | ⟨x, K1, w1, ho, h⟩) wf hK
    · exact ⟨.refl _, fun A hA _ => .refl wf hA⟩
    · obtain ⟨c0, hK0, hk0, hx⟩ := Op.confined hg.1 wf (A := fun _ => True) (fun _ _ _ _ _ => trivial) (fun k hk => ⟨hK k hk, trivial⟩) ho
      obtain ⟨hk1, hc1⟩ := ih x (hg.2 x hx) K1 w1 w' r h c0.wf fun k hk => (hK0 k hk).1
      refine ⟨hk0.trans hk1, ?_⟩
      intro A hA hKA
      obtain ⟨c, hK1, _, _⟩ := Op.confined hg.1 wf hA (fun k hk => ⟨hK k hk, hKA k hk⟩) ho
      exact c.trans (hc1 _ c.closed fun k hk => (hK1 k hk).2)
  | call how m body k ihb ih =>
    rintro hg K w w' r ⟨l, hl, ⟨e, hb, rfl⟩ | ⟨w1, b, hb, _, h⟩⟩ wf hK
    · have hlm := List.mem_of_getElem? hl
      obtain ⟨hk, hc⟩ := ihb hg.1 [l] w w' _ hb wf (by simpa using hK l hlm)
      exact ⟨hk, fun A hA hKA => hc A hA (by simpa using hKA l hlm)⟩
    · have hlm := List.mem_of_getElem? hl
      obtain ⟨hk, hc⟩ := ihb hg.1 [l] w w1 _ hb wf (by simpa using hK l hlm)
      have hk' := keeps_if (b := how.kept) hk
      have c0 := confined_if (b := how.kept) wf (fun _ _ _ _ _ => trivial) (hc (fun _ => True) (fun _ _ _ _ _ => trivial) (by simp))
      obtain ⟨hk2, hc2⟩ := ih b (hg.2 b) K _ w' r h c0.wf fun k hk => Nat.lt_of_lt_of_le (hK k hk) hk'.len
      refine ⟨hk'.trans hk2, ?_⟩
      intro A hA hKA
      have c := confined_if (b := how.kept) wf hA (hc A hA (by simpa using hKA l hlm))
      exact c.trans (hc2 _ c.closed fun k hk => .inl (hKA k hk))
  | grad stateful j t wrt loss m body k ihb ih =>
    rintro hg K w w' r ⟨l, F, hl, _, ⟨e, hb, rfl⟩ | ⟨w1, b, hb, _, h⟩⟩ wf hK
    · have hlm := List.mem_of_getElem? hl
      obtain ⟨hk, hc⟩ := ihb hg.2.1 [l] w w' _ hb wf (by simpa using hK l hlm)
      exact ⟨hk, fun A hA hKA => hc A hA (by simpa using hKA l hlm)⟩
    · have hlm := List.mem_of_getElem? hl
      obtain ⟨hk, hc⟩ := ihb hg.2.1 [l] w w1 _ hb wf (by simpa using hK l hlm)
      have hk' := keeps_if (b := stateful) hk
      have c0 := confined_if (b := stateful) wf (fun _ _ _ _ _ => trivial) (hc (fun _ => True) (fun _ _ _ _ _ => trivial) (by simp))
      obtain ⟨hk2, hc2⟩ := ih _ b (hg.2.2 _ b (hlaw.good _ _)) K _ w' r h c0.wf fun k hk => Nat.lt_of_lt_of_le (hK k hk) hk'.len
      refine ⟨hk'.trans hk2, ?_⟩
      intro A hA hKA
      have c := confined_if (b := stateful) wf hA (hc A hA (by simpa using hKA l hlm))
      exact c.trans (hc2 _ c.closed fun k hk => .inl (hKA k hk))
  | scan fuel j o out m c xs ctx body k ihb ih =>
    rintro hg K w w' r ⟨l, hl, hd⟩ wf hK
    have hlm := List.mem_of_getElem? hl
    have hR : RunsLocal l _ := runs_local (J := J) (out := out) (body := body) fun ctx c x w w' r h wf hl => by
      obtain ⟨hk, hc⟩ := ihb ctx c x (hg.1 ctx c x) [l] w w' r h wf (by simpa using hl)
      exact ⟨hk, fun A hA hl => hc A hA (by simpa using hl)⟩
    rcases hd with ⟨e, hb, rfl⟩ | ⟨w1, c', ys, hb, h⟩
    · have he := hb.end hR wf (hK l hlm)
      exact ⟨he.keeps, fun A hA hKA => he.confined A hA (hKA l hlm)⟩
    · have he := hb.end hR wf (hK l hlm)
      obtain ⟨hk2, hc2⟩ := ih c' ys (hg.2 c' ys) K _ w' r h he.wf fun k hk => Nat.lt_of_lt_of_le (hK k hk) he.keeps.len
      refine ⟨he.keeps.trans hk2, ?_⟩
      intro A hA hKA
      have c := he.confined A hA (hKA l hlm)
      exact c.trans (hc2 _ c.closed fun k hk => .inl (hKA k hk))

theorem Routine.Direct.wf (hlaw : GradLaw J.gradOf) {p : Routine α κ L β} (hp : p.Good) {l : Loc} {w w' : World α} {r : Except Err β}
    (h : p.Direct J [l] w w' r) (wf : WFWorld w) (hl : l < w.heap.length) : WFWorld w' :=
  ((Routine.Direct.local_ hlaw p hp [l] w w' r h wf (by simpa using hl)).2 (fun _ => True) (fun _ _ _ _ _ => trivial) (by simp)).wf

/-- Updates of the selected entries succeed at corresponding Modules, and lead to corresponding Modules. -/
theorem like_update {S : Loc → Prop} {f : Loc → Loc} {w u : World α} (B : Bisim S f w u) (wf : WFWorld w) (wf' : WFWorld u) {l : Loc} (hl : S l)
    {wrt : Filter α} (hw : wrt.WellFormed) {x : State (PyVal α)} (hx : LikeState (selected wrt l w) x) :
    ∃ wx ux, updateState (w.heap.length + 1) l [x] w = (wx, none) ∧ updateState (u.heap.length + 1) (f l) [x] u = (ux, none) ∧
      Bisim S f wx ux ∧ WFWorld wx ∧ WFWorld ux := by
  have hsel := selected_bisim B wf wf' hl wrt
  obtain ⟨p, s1, d1, n1, _, hb1, hpc1, hc1, e1, e2⟩ := selected_spec wf (B.lt hl).1 hw
  obtain ⟨p', s2, d2, n2, hp', hb2, hpc2, hc2, e1', e2'⟩ := selected_spec wf' (B.lt hl).2 hw
  obtain ⟨hd1, hs1, _⟩ := hb1 _ (Nat.lt_succ_self _)
  obtain ⟨hd2, hs2, _⟩ := hb2 _ (Nat.lt_succ_self _)
  obtain ⟨wx, sx, _, _, hu, wfx, _⟩ := like_pieces wf (B.lt hl).1 (B.valid hl) hs1 hd1 hc1 e1 e2 hx (Nat.lt_succ_self _)
  obtain ⟨wy, sy, _, _, hu', wfy, _⟩ :=
    like_pieces wf' (B.lt hl).2 (B.right.valid ⟨l, hl, rfl⟩) hs2 hd2 hc2 e1' e2' (hsel ▸ hx) (Nat.lt_succ_self _)
  obtain ⟨u1, hu1, B1⟩ := B.update wf wf' hl hu
  rw [hu'] at hu1
  cases hu1
  exact ⟨wx, wy, hu, hu', B1, wfx, wfy⟩

/-- **Functions do without transforms what they do with loops as scans**, at corresponding Modules. -/
theorem Routine.Direct.sim (hlaw : GradLaw J.gradOf) (p : Routine α κ L β) : p.Good → ∀ (S : Loc → Prop) (f : Loc → Loc)
    (K : List Loc) (w u w' : World α) (r : Except Err β), Bisim S f w u → WFWorld w → WFWorld u → (∀ k ∈ K, S k) →
    p.Direct J K w w' r → p.Carried J (K.map f) u ∧ ∃ u', p.plain J (K.map f) u = (u', r) ∧
      ∀ b, r = .ok b → ∃ S' f', (∀ a, S a → S' a ∧ f' a = f a) ∧ Bisim S' f' w' u' := by
  induction p with
  | ret b =>
    rintro _ S f K w u _ _ B wf wf' hK ⟨rfl, rfl⟩
    exact ⟨trivial, u, rfl, fun _ _ => ⟨S, f, fun a ha => ⟨ha, rfl⟩, B⟩⟩
  | fail e =>
    rintro _ S f K w u _ _ B wf wf' hK ⟨rfl, rfl⟩
    exact ⟨trivial, u, rfl, fun _ _ => ⟨S, f, fun a ha => ⟨ha, rfl⟩, B⟩⟩
  | op o k ih =>
    rintro hg S f K w u w' r B wf wf' hK h
    simp only [Routine.Carried, Routine.plain]
    rcases Op.bisim hg.1 B wf wf' hK with ⟨e, h1, h2⟩ | ⟨y, K1, w1, u1, S1, f1, h1, h2, B1, hS, hK1, wf1, wf1', hx⟩
    · rcases h with ⟨e', he, rfl, rfl⟩ | ⟨x, K1, w1, ho, h⟩
      · rw [h1] at he
        cases he
        simp only [h2]
        exact ⟨fun _ _ _ h => (by cases h), u, rfl, fun _ h => (by cases h)⟩
      · rw [h1] at ho; cases ho
    · rcases h with ⟨e', he, rfl, rfl⟩ | ⟨x, K1, w1, ho, h⟩
      · rw [h1] at he; cases he
      · rw [h1] at ho
        cases ho
        obtain ⟨hc, u', hu', hb⟩ := ih _ (hg.2 _ hx) S1 f1 K1 w1 u1 w' r B1 wf1 wf1' hK1 h
        simp only [h2]
        refine ⟨?_, u', hu', ?_⟩
        · rintro _ _ _ ⟨⟩; exact hc
        · intro b hr
          obtain ⟨S2, f2, hS2, B2⟩ := hb b hr
          exact ⟨S2, f2, fun a ha => ⟨(hS2 a (hS a ha).1).1, (hS2 a (hS a ha).1).2.trans (hS a ha).2⟩, B2⟩
  | call how m body k ihb ih =>
    rintro hg S f K w u w' r B wf wf' hK ⟨l, hl, hd⟩
    have hSl := hK l (List.mem_of_getElem? hl)
    have hl' : (K.map f)[m]? = some (f l) := by rw [List.getElem?_map, hl]; rfl
    have P := hg.1.parametric hlaw
    simp only [Routine.Carried, Routine.plain, hl']
    rcases hd with ⟨e, hb, rfl⟩ | ⟨w1, b, hb, hn, h⟩
    · obtain ⟨hc, u', hu', _⟩ := ihb hg.1 S f [l] w u w' _ B wf wf' (by simpa using hSl) hb
      rw [List.map_singleton] at hc hu'
      simp only [hu']
      refine ⟨?_, u', rfl, fun _ h => nomatch h⟩
      rintro _ ⟨⟩
      refine ⟨hc, fun w'' b h => ?_⟩
      rw [hu'] at h; cases h
    · obtain ⟨hc, u1, hu1, hb1⟩ := ihb hg.1 S f [l] w u w1 _ B wf wf' (by simpa using hSl) hb
      rw [List.map_singleton] at hc hu1
      obtain ⟨S1, f1, hS1, B1⟩ := hb1 b rfl
      have wf1 := Routine.Direct.wf hlaw hg.1 hb wf (B.lt hSl).1
      have wf1' := P.wf wf' (B.lt hSl).2
      simp only [hu1] at wf1'
      obtain ⟨S2, f2, B2, hS2⟩ := bisim_if (b := how.kept) B B1 hS1
      obtain ⟨hc2, u', hu', hb2⟩ := ih b (hg.2 b) S2 f2 K _ _ w' r B2 (wf_if wf wf1) (wf_if wf' wf1') (fun k hk => (hS2 k (hK k hk)).1) h
      rw [List.map_congr_left fun k hk => (hS2 k (hK k hk)).2] at hc2 hu'
      simp only [hu1]
      refine ⟨?_, u', hu', ?_⟩
      · rintro _ ⟨⟩
        refine ⟨hc, fun w'' b h => ?_⟩
        rw [hu1] at h
        cases h
        exact ⟨fun h1 h2 => (hn h1 h2).corresponding B B1 hS1 hSl, hc2⟩
      · intro b hr
        obtain ⟨S3, f3, hS3, B3⟩ := hb2 b hr
        exact ⟨S3, f3, fun a ha => ⟨(hS3 a (hS2 a ha).1).1, (hS3 a (hS2 a ha).1).2.trans (hS2 a ha).2⟩, B3⟩
  | grad stateful j t wrt loss m body k ihb ih =>
    rintro hg S f K w u w' r B wf wf' hK ⟨l, F, hl, hF, hd⟩
    have hSl := hK l (List.mem_of_getElem? hl)
    have hl' : (K.map f)[m]? = some (f l) := by rw [List.getElem?_map, hl]; rfl
    have P := hg.2.1.parametric hlaw
    have hsel := selected_bisim B wf wf' hSl wrt
    have hX : ∀ x ux, LikeState (selected wrt l w) x → updateState (u.heap.length + 1) (f l) [x] u = (ux, none) →
        body.Carried J [f l] ux ∧ F x = (body.plain J [f l] ux).2.toOption.map loss := by
      intro x ux hx hux
      obtain ⟨wx, ux', h1, h2, Bx, wfx, wfx'⟩ := like_update B wf wf' hSl hg.1 hx
      rw [hux] at h2
      cases h2
      obtain ⟨wx', rx, hbx, hFx⟩ := hF x wx hx h1
      obtain ⟨hc, u', hu', _⟩ := ihb hg.2.1 S f [l] wx ux wx' rx Bx wfx wfx' (by simpa using hSl) hbx
      rw [List.map_singleton] at hc hu'
      exact ⟨hc, by rw [hu']; exact hFx⟩
    have hG : J.gradOf (directLoss (withLoss loss fun l w => body.plain J [l] w) (u.heap.length + 1) (f l) u) (selected wrt (f l) u) =
        J.gradOf F (selected wrt l w) := by
      rw [hsel]
      refine hlaw.depends _ _ _ fun y hy => ?_
      obtain ⟨wx, ux, h1, h2, Bx, wfx, wfx'⟩ := like_update B wf wf' hSl hg.1 hy
      rw [(hX y ux hy h2).2]
      simp only [directLoss, h2, withLoss]
      cases (body.plain J [f l] ux).2 <;> rfl
    simp only [Routine.Carried, Routine.plain, hl']
    rcases hd with ⟨e, hb, rfl⟩ | ⟨w1, b, hb, hn, h⟩
    · obtain ⟨hc, u', hu', _⟩ := ihb hg.2.1 S f [l] w u w' _ B wf wf' (by simpa using hSl) hb
      rw [List.map_singleton] at hc hu'
      simp only [hu']
      refine ⟨?_, u', rfl, fun _ h => nomatch h⟩
      rintro _ ⟨⟩
      refine ⟨hc, fun x ux hx hux => (hX x ux (hsel ▸ hx) hux).1, fun w'' b h => ?_⟩
      rw [hu'] at h; cases h
    · obtain ⟨hc, u1, hu1, hb1⟩ := ihb hg.2.1 S f [l] w u w1 _ B wf wf' (by simpa using hSl) hb
      rw [List.map_singleton] at hc hu1
      obtain ⟨S1, f1, hS1, B1⟩ := hb1 b rfl
      have wf1 := Routine.Direct.wf hlaw hg.2.1 hb wf (B.lt hSl).1
      have wf1' := P.wf wf' (B.lt hSl).2
      simp only [hu1] at wf1'
      obtain ⟨S2, f2, B2, hS2⟩ := bisim_if (b := stateful) B B1 hS1
      obtain ⟨hc2, u', hu', hb2⟩ := ih _ b (hg.2.2 _ b (hlaw.good _ _)) S2 f2 K _ _ w' r B2 (wf_if wf wf1) (wf_if wf' wf1')
        (fun k hk => (hS2 k (hK k hk)).1) h
      rw [List.map_congr_left fun k hk => (hS2 k (hK k hk)).2] at hc2 hu'
      simp only [hu1, hG]
      refine ⟨?_, u', hu', ?_⟩
      · rintro _ ⟨⟩
        refine ⟨hc, fun x ux hx hux => (hX x ux (hsel ▸ hx) hux).1, fun w'' b h => ?_⟩
        rw [hu1] at h
        cases h
        rw [hG]
        exact ⟨fun h1 => (hn h1).corresponding B B1 hS1 hSl, hc2⟩
      · intro b hr
        obtain ⟨S3, f3, hS3, B3⟩ := hb2 b hr
        exact ⟨S3, f3, fun a ha => ⟨(hS3 a (hS2 a ha).1).1, (hS3 a (hS2 a ha).1).2.trans (hS2 a ha).2⟩, B3⟩
  | scan fuel j o out m c xs ctx body k ihb ih =>
    rintro hg S f K w u w' r B wf wf' hK ⟨l, hl, hd⟩
    have hSl := hK l (List.mem_of_getElem? hl)
    have hl' : (K.map f)[m]? = some (f l) := by rw [List.getElem?_map, hl]; rfl
    have hR : RunsLocal l _ := runs_local (J := J) (out := out) (body := body) fun ctx c x w w' r h wf hl => by
      obtain ⟨hk, hc⟩ := Routine.Direct.local_ hlaw (body ctx c x) (hg.1 ctx c x) [l] w w' r h wf (by simpa using hl)
      exact ⟨hk, fun A hA hl => hc A hA (by simpa using hl)⟩
    have P : ∀ ctx c x, Parametric (withOut out (fun ctx c x l w => (body ctx c x).plain J [l] w) ctx c x) := fun ctx c x =>
      ((hg.1 ctx c x).parametric hlaw).withOut out
    have hPF : ∀ (x : Option (PureContext κ) × Option β) (c : β),
      Parametric (withOut out (fun ctx c x l w => (body ctx c x).plain J [l] w) x.1 c x.2) := fun x c => P x.1 c x.2
    have Pg : ∀ e ctx c x, Parametric (withOut out (fun ctx c x =>
        guarded (fun l w => (body ctx c x).Carried J [l] w) e fun l w => (body ctx c x).plain J [l] w) ctx c x) := fun e ctx c x =>
      (guarded_parametric ((hg.1 ctx c x).parametric hlaw) e fun S f l w w' B wf wf' hl h =>
        Routine.Carried.corresponding hlaw (body ctx c x) (hg.1 ctx c x) S f [l] w w' B wf wf' (by simpa using hl) h).withOut out
    have hsim : Simulates l (fun (x : Option (PureContext κ) × Option β) c w w' (r : Except Err (β × β)) =>
        ∃ b, (body x.1 c x.2).Direct J [l] w w' b ∧ r = b.map out)
        (fun x c => withOut out (fun ctx c x l w => (body ctx c x).plain J [l] w) x.1 c x.2) := by
      rintro S f w u x c w' _ B wf wf' hl ⟨b, hb, rfl⟩
      obtain ⟨_, u', hu', h⟩ := ihb x.1 c x.2 (hg.1 _ _ _) S f [l] w u w' b B wf wf' (by simpa using hl) hb
      rw [List.map_singleton] at hu'
      refine ⟨u', by simp only [withOut, hu'], ?_⟩
      intro y hy
      cases b with
      | error e => cases hy
      | ok b => exact h b rfl
    have hsimg : ∀ e, Simulates l (fun (x : Option (PureContext κ) × Option β) c w w' (r : Except Err (β × β)) =>
        ∃ b, (body x.1 c x.2).Direct J [l] w w' b ∧ r = b.map out)
        (fun x c => withOut out (fun ctx c x =>
          guarded (fun l w => (body ctx c x).Carried J [l] w) e fun l w => (body ctx c x).plain J [l] w) x.1 c x.2) := by
      rintro e S f w u x c w' _ B wf wf' hl ⟨b, hb, rfl⟩
      obtain ⟨hc, u', hu', h⟩ := ihb x.1 c x.2 (hg.1 _ _ _) S f [l] w u w' b B wf wf' (by simpa using hl) hb
      rw [List.map_singleton] at hu' hc
      refine ⟨u', by simp only [withOut, guarded, if_pos hc, hu'], ?_⟩
      intro y hy
      cases b with
      | error e => cases hy
      | ok b => exact h b rfl
    simp only [Routine.Carried, Routine.plain, hl']
    have key : ∀ {w1 : World α} {rr : Except Err (β × List β)}, ScanLoop J fuel o l xs ctx
        (fun x c w w' r => ∃ b, (body x.1 c x.2).Direct J [l] w w' b ∧ r = b.map out) w c w1 rr →
        WheneverCalled J fuel j o out c xs ctx (fun ctx c x l w => (body ctx c x).Carried J [l] w)
          (fun ctx c x l w => (body ctx c x).plain J [l] w) (f l) u ∧
        ∃ u1, scanApply J.arrays J.split fuel o j (f l) (withOut out fun ctx c x l w => (body ctx c x).plain J [l] w) c xs ctx u = (u1, rr) ∧
          WFWorld u1 ∧ ∀ b, rr = .ok b → Bisim S f w1 u1 := by
      intro w1 rr hb
      obtain ⟨u1, hu1, hB1⟩ := hb.sim hR hPF hsim B wf wf' hSl j
      have hwf := (scanApply_parametric (R := J.arrays) (split := J.split) (fuel := fuel) (o := o) (j := j) P c xs ctx).wf wf' (B.lt hSl).2
      have hu1' : scanApply J.arrays J.split fuel o j (f l) (withOut out fun ctx c x l w => (body ctx c x).plain J [l] w) c xs ctx u = (u1, rr) := hu1
      rw [hu1'] at hwf
      refine ⟨?_, u1, hu1', hwf, hB1⟩
      intro e
      obtain ⟨u2, hu2, _⟩ := hb.sim hR (fun x c => Pg e x.1 c x.2) (hsimg e) B wf wf' hSl j
      have hu2' : scanApply J.arrays J.split fuel o j (f l) (withOut out fun ctx c x =>
          guarded (fun l w => (body ctx c x).Carried J [l] w) e fun l w => (body ctx c x).plain J [l] w) c xs ctx u = (u2, rr) := hu2
      rw [hu1', hu2']
    rcases hd with ⟨e, hb, rfl⟩ | ⟨w1, c', ys, hb, h⟩
    · obtain ⟨hwc, u1, hu1, _, _⟩ := key hb
      simp only [hu1]
      refine ⟨?_, u1, rfl, fun _ h => nomatch h⟩
      rintro _ ⟨⟩
      refine ⟨hwc, fun w'' c' ys h => ?_⟩
      rw [hu1] at h; cases h
    · obtain ⟨hwc, u1, hu1, wf1', hB1⟩ := key hb
      have B1 := hB1 _ rfl
      have wf1 := (hb.end hR wf (B.lt hSl).1).wf
      obtain ⟨hc2, u', hu', hb2⟩ := ih c' ys (hg.2 c' ys) S f K w1 u1 w' r B1 wf1 wf1' hK h
      simp only [hu1]
      refine ⟨?_, u', hu', hb2⟩
      rintro _ ⟨⟩
      refine ⟨hwc, fun w'' c' ys h => ?_⟩
      rw [hu1] at h
      cases h
      exact hc2

end Nnx
