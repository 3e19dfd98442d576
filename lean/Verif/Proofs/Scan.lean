import Verif.Proofs.ScanStep
/-
The loop of nnx.scan.
-/
namespace Nnx
variable {α κ A B C : Type} [DecidableEq α]

/-- The function that is scanned: the body as a function of context, carry, argument and module. -/
def scanBody (body : Option (PureContext κ) × Option A → C → Loc → World α → World α × Except Err (C × B)) :
    Option (PureContext κ) → C → Option A → Loc → World α → World α × Except Err (C × B) :=
  fun ctx c a => body (ctx, a) c

omit [DecidableEq α] in
/-- Same slice of everything. -/
def Matched (R : Arrays α) (o : ScanOptions α) (s0 : State (PyVal α)) (ss0 : List (State (PyVal α)))
    (inp : State (PyVal α) × (Option (PureContext κ) × Option A)) (x : StepIn α κ A) : Prop :=
  ∃ i, IsSlice R o s0 i inp.1 ∧ IsAxes R o ss0 i x.axes ∧ inp.2 = (x.ctx, x.arg)

/-- The carry keeps its tree structure. -/
def CarryTrees (o : ScanOptions α) (ss ts : List (State (PyVal α))) : Prop :=
  ∀ t ∈ ss, ∀ t' ∈ ts, ∀ k x y, t.get k = some x → t'.get k = some y →
    FirstMatch o.filters k y (o.variableAxes.length + 1) → x.sameTree y = true

variable {w : World α} {l : Loc} {o : ScanOptions α} {s0 : State (PyVal α)} {d : ModuleDef α} {ss0 : List (State (PyVal α))}
  {b c0 : State (PyVal α)} {R : Arrays α}

omit [DecidableEq α] in
theorem Setup.same_group (S : Setup w l o s0 d ss0 b c0) {s t : State (PyVal α)} (hs : InColl o s0 s) (ht : InColl o s0 t) {k : Str}
    {x y : PyVal α} {g : Nat} (hx : s.get k = some x) (hy : t.get k = some y) (h : FirstMatch o.filters k x g) : FirstMatch o.filters k y g := by
  cases h0 : s0.get k with
  | none =>
    have := (hs.fresh k x h0 hx).unique h
    subst this
    exact ht.fresh k y h0 hy
  | some z =>
    obtain ⟨g', hg', _⟩ := S.first h0
    have := (hs.stays k z x g' h0 hx hg').unique h
    subst this
    exact ht.stays k z y _ h0 hy hg'

omit [DecidableEq α] in
theorem sub_empty (s : State (PyVal α)) : s.sub ⟨[]⟩ = s := rfl

omit [DecidableEq α] in
/-- If there are no new entries, the carry has the same entries. -/
theorem no_new (S : Setup w l o s0 d ss0 b c0) {v v2 : World α} {s s2 cs cs2 : State (PyVal α)} (a : At w l o s0 v s cs)
    (a2 : At w l o s0 v2 s2 cs2) (hk : ∀ k, (s2.get k).isSome = (s.get k).isSome) :
    cs2.sub cs = ⟨[]⟩ ∧ ∀ k, (cs.get k).isSome = (cs2.get k).isSome := by
  have key : ∀ k, (cs.get k).isSome = (cs2.get k).isSome := by
    intro k
    rw [Bool.eq_iff_iff]
    constructor
    · intro h
      obtain ⟨x, hx⟩ := Option.isSome_iff_exists.1 h
      obtain ⟨h1, h2⟩ := (a.carry.2 k x).1 hx
      have := hk k
      rw [h1] at this
      obtain ⟨y, hy⟩ := Option.isSome_iff_exists.1 this
      rw [(a2.carry.2 k y).2 ⟨hy, S.same_group a.coll a2.coll h1 hy h2⟩]; rfl
    · intro h
      obtain ⟨x, hx⟩ := Option.isSome_iff_exists.1 h
      obtain ⟨h1, h2⟩ := (a2.carry.2 k x).1 hx
      have := (hk k).symm
      rw [h1] at this
      obtain ⟨y, hy⟩ := Option.isSome_iff_exists.1 this
      rw [(a.carry.2 k y).2 ⟨hy, S.same_group a2.coll a.coll h1 hy h2⟩]; rfl
  refine ⟨State.empty_of_gets ?_, key⟩
  intro k
  rw [State.sub_get]
  split
  · rfl
  next h =>
  rw [key k] at h
  cases hc : cs2.get k with
  | none => rfl
  | some x => rw [hc] at h; exact absurd rfl h

omit [DecidableEq α] in
/-- The outputs of the iterations and what they show about the direct loop. -/
structure IsStepOut (w : World α) (l : Loc) (o : ScanOptions α) (t : State (PyVal α) × B) (y : StepOut α B) : Prop where
  out : IsOut o t.1 t.2 y
  world : ∃ v, Evolves w v l ∧ getState (v.heap.length + 1) v.heap l = some t.1

/-- **The loop**, without new entries. -/
theorem loop_spec (S : Setup w l o s0 d ss0 b c0) {body : Option (PureContext κ) × Option A → C → Loc → World α → World α × Except Err (C × B)}
    (hb : ∀ x c, Parametric (body x c)) (j : Nat) {v v' : World α} {c c' : C} {ins outs} (run : LoopRun body l v c ins v' c' outs) :
    ∀ {s cs : State (PyVal α)} {xs : List (StepIn α κ A)} {u : World α}, At w l o s0 v s cs → List.Forall₂ (Matched R o s0 ss0) ins xs →
    (∀ t ∈ outs, InColl o s0 t.1) → (∀ t ∈ outs, ∀ k, (t.1.get k).isSome = (s.get k).isSome) →
    CarryTrees o (s :: outs.map (·.1)) (outs.map (·.1)) → WFWorld u →
    ∃ s' cs' ys u', At w l o s0 v' s' cs' ∧ List.Forall₂ (IsStepOut w l o) outs ys ∧ (∀ y ∈ ys, y.carryNew = ⟨[]⟩) ∧
      (∀ k, (s'.get k).isSome = (s.get k).isSome) ∧ s' = ((outs.map (·.1)).getLastD s) ∧ Grows u u' ∧
      ∀ fuel, getState fuel w.heap l = some s0 → laxScan (scanFn fuel o j d b (scanBody body)) (cs, c) xs u = (u', .ok ((cs', c'), ys)) := by
  induction run with
  | done =>
    intro s cs xs u a hm _ _ _ wfu
    cases hm
    exact ⟨s, cs, [], u, a, .nil, nofun, fun _ => rfl, rfl, .refl wfu, fun _ _ => rfl⟩
  | @next v v1 v2 v' c c' c'' inp s2 x y ins outs h1 h2 h3 h4 _ ih =>
    intro s cs xs u a hm hco hk htr wfu
    cases hm with
    | @cons _ x' _ xs hmx hms =>
    obtain ⟨i, hsl, hax, hx⟩ := hmx
    dsimp only at hsl hx
    subst hx
    obtain ⟨cs2, out, u3, a2, hout, hnew, hgr, hkeep, heq⟩ := step_spec S a hsl hax h1 (hb _ _) h2 h3 h4 (hco _ List.mem_cons_self) wfu
      (f := scanBody body) (c := c) rfl j
    have hk2 : ∀ k, (s2.get k).isSome = (s.get k).isSome := hk _ List.mem_cons_self
    obtain ⟨hnn, hck⟩ := no_new S a a2 hk2
    obtain ⟨s', cs', ys, u', a', hys, hcn, hks, hlast, hgr', heq'⟩ := ih a2 hms (fun t ht => hco t (List.mem_cons_of_mem _ ht))
      (fun t ht k => (hk t (List.mem_cons_of_mem _ ht) k).trans (hk2 k).symm)
      (by
        intro t ht t' ht'
        refine htr t ?_ t' ?_
        · simp only [List.map_cons, List.mem_cons] at ht ⊢; exact .inr ht
        · simp only [List.map_cons, List.mem_cons] at ht' ⊢; exact .inr ht') hgr.wf
    refine ⟨s', cs', out :: ys, u', a', .cons ⟨hout, v2, a2.ev, a2.state⟩ hys, ?_, fun k => (hks k).trans (hk2 k), ?_, hgr.trans hgr', ?_⟩
    · intro z hz
      rcases List.mem_cons.1 hz with rfl | hz
      · rw [hnew, hnn]
      · exact hcn z hz
    · rw [hlast]
      cases outs with
      | nil => rfl
      | cons => rfl
    · intro fuel hf
      have h5 := heq fuel hf
      have hst : sameTrees cs cs2 = true := by
        refine sameTrees_of a.carry.1 a2.carry.1 hck ?_
        intro k z z' hz hz'
        obtain ⟨e1, e2⟩ := (a.carry.2 k z).1 hz
        obtain ⟨e3, e4⟩ := (a2.carry.2 k z').1 hz'
        exact htr s List.mem_cons_self s2 (by simp) k z z' e1 e3 e4
      rw [hnn, sub_empty] at h5
      simp only [laxScan, h5, hst, if_true, heq' fuel hf]

theorem laxScan_append (step : State (PyVal α) × C → StepIn α κ A → World α → World α × Except Err ((State (PyVal α) × C) × StepOut α B))
    (ys : List (StepIn α κ A)) : ∀ (xs : List (StepIn α κ A)) (c : State (PyVal α) × C) (u : World α),
    laxScan step c (xs ++ ys) u =
      match laxScan step c xs u with
      | (u', .error e) => (u', .error e)
      | (u', .ok (c', o1)) =>
        match laxScan step c' ys u' with
        | (u'', .error e) => (u'', .error e)
        | (u'', .ok (c'', o2)) => (u'', .ok (c'', o1 ++ o2)) := by
  intro xs
  induction xs with
  | nil =>
    intro c u
    simp only [List.nil_append, laxScan]
    generalize laxScan step c ys u = r
    obtain ⟨u', _ | ⟨c', o'⟩⟩ := r <;> rfl
  | cons x xs ih =>
    intro c u
    simp only [List.cons_append, laxScan]
    generalize step c x u = r
    obtain ⟨u', _ | ⟨c', y⟩⟩ := r
    · rfl
    · dsimp only
      split
      · rw [ih]
        generalize laxScan step c' xs u' = r
        obtain ⟨u2, _ | ⟨c2, o2⟩⟩ := r
        · rfl
        · dsimp only
          generalize laxScan step c2 ys u2 = r
          obtain ⟨u3, _ | ⟨c3, o3⟩⟩ := r <;> rfl
      · rfl

end Nnx
