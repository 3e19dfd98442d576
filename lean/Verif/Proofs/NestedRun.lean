import Verif.Proofs.Nested
import Verif.Proofs.ScanMono
/-
Nested transforms: running with the transforms is simulated by running without them.
-/
namespace Nnx
variable {α κ L β γ δ : Type} [DecidableEq α]

/-! ### One call -/

/-- `r` is the outcome, in the world `w`, of a function with transforms that holds `K`, and `q` is that of the function
without them: the results are the same, `r` has changed only what can be reached from `K`, and if there is no exception what
is left behind corresponds, where the Modules in `S` correspond to themselves. -/
structure Follows (S : Loc → Prop) (K : List Loc) (w : World α) (r q : World α × Except Err γ) : Prop where
  out : r.2 = q.2
  keeps : Keeps w r.1
  confined : ∀ A, Closed w.heap A → (∀ k ∈ K, A k) → Confined A w r.1
  bisim : ∀ b, q.2 = .ok b → ∃ S' f', (∀ a, S a → S' a ∧ f' a = a) ∧ Bisim S' f' q.1 r.1

/-- `R` and `P` have the same outcome on all Modules that correspond to the Module `l` of `w`. -/
def FollowsAt (w : World α) (l : Loc) (R P : Loc → World α → World α × Except Err γ) : Prop :=
  ∀ f u, Bisim (Reaches w.heap l) f w u → WFWorld u → ∃ S : Loc → Prop, S (f l) ∧ Follows S [f l] u (R (f l) u) (P (f l) u)

omit [DecidableEq α] in
theorem FollowsAt.withLoss {w : World α} {l : Loc} {R P : Loc → World α → World α × Except Err β} (h : FollowsAt w l R P) (loss : β → L) :
    FollowsAt w l (withLoss loss R) (withLoss loss P) := by
  intro f u B wf
  obtain ⟨S, hS, s⟩ := h f u B wf
  refine ⟨S, hS, ⟨by simp only [Nnx.withLoss, s.out], s.keeps, s.confined, ?_⟩⟩
  intro b hb
  simp only [Nnx.withLoss] at hb
  cases hq : (P (f l) u).2 with
  | error e => rw [hq] at hb; cases hb
  | ok x => exact s.bisim x hq

/-- Running `R` on a merged copy has the outcome of calling `P` on the Module. -/
theorem sim_copy {w u : World α} (wf : WFWorld w) (wfu : WFWorld u) {l : Loc} (hl : l < w.heap.length) (hv : AllValid w l)
    {R P : Loc → World α → World α × Except Err γ} (hP : Parametric P) (hsim : FollowsAt w l R P) {f1 f2 : Nat} {d : ModuleDef α}
    (hd : getModuleDef f1 w.heap l = some d)
    {s : State (PyVal α)} (hs : getState f2 w.heap l = some s) {ss : List (State (PyVal α))} (hpc : Pieces s ss)
    (j : Nat) (t : Option Nat) :
    ∃ u3, insideTrace j t (mergeAndRun d ss R) u = (u3, (P l w).2.map fun out => (u.heap.length, out)) ∧ WFWorld u3 ∧
      u.heap.length ≤ u3.heap.length ∧ u.heap.length < u3.heap.length ∧
      (∀ a : Loc, a < u.heap.length → u3.heap[a]? = u.heap[a]?) ∧ u3.jaxTrace = u.jaxTrace ∧ u3.nnxStack = u.nnxStack ∧
      Closed u3.heap (fun x => u.heap.length ≤ x) ∧ ∀ b, (P l w).2 = .ok b → CopyRun w u l P u3 u.heap.length := by
  obtain ⟨u2, f, hm, wf2, hl2, hold, _, _, hcl, _, B, hfl, _⟩ := copyOf wf wfu hl hv hd hs hpc j t
  have hroot : Reaches w.heap l l := ⟨[], .here hl⟩
  obtain ⟨S', f', hS, B', he⟩ := hP.bisim _ f l w u2 B wf wf2 hroot
  obtain ⟨S0, hS0, sim⟩ := hsim f u2 B wf2
  rw [hfl] at B' he hS0 sim
  have c := sim.confined (fun x => u.heap.length ≤ x) hcl (by simp)
  have hlt := Nat.lt_of_lt_of_le hl2 c.len
  have hold' : ∀ a : Loc, a < u.heap.length → (R u.heap.length u2).1.heap[a]? = u.heap[a]? := fun a ha =>
    (c.same a (Nat.lt_trans ha hl2) (Nat.not_le.2 ha)).trans (hold a ha)
  refine ⟨u.left (R u.heap.length u2).1, ?_, wfWorld_traces c.wf, Nat.le_of_lt hlt, hlt, hold', rfl, rfl, ?_, ?_⟩
  · have hm' : mergeDef d ss { u with jaxTrace := j, nnxStack := u.nnxStack ++ t.toList } = (u2, .ok u.heap.length) := hm
    simp only [insideTrace, mergeAndRun, hm']
    have hrun : R u.heap.length u2 = ((R u.heap.length u2).1, (P l w).2) := by
      rw [he, ← sim.out]
    rw [hrun]
    cases (P l w).2 <;> rfl
  · intro x n y hx e
    rcases c.closed x n y (.inl hx) e with h | h
    · exact h
    · exact Nat.le_trans (Nat.le_of_lt hl2) h
  · intro b hb
    have wd := hP.wf wf hl
    have hf' : f' l = u.heap.length := (hS l hroot).2.trans hfl
    obtain ⟨S1, g, hS1, B1⟩ := sim.bisim b (by rw [← he]; exact hb)
    have BB := B'.comp B1
    refine ⟨wfWorld_traces c.wf, wd, Nat.le_of_lt hlt, hold', hlt, Nat.lt_of_lt_of_le hl (hP.keeps l w wf hl).len, ?_, ?_⟩
    · intro k k' hk hk'
      have := BB.getState wd.heap c.wf.heap (a := l) ⟨(hS l hroot).1, by rw [hf']; exact (hS1 _ hS0).1⟩ hk hk'
      rwa [Function.comp, hf', (hS1 _ hS0).2] at this
    · intro k s hs
      have := BB.getState_of wd.heap c.wf.heap (a := l) ⟨(hS l hroot).1, by rw [hf']; exact (hS1 _ hS0).1⟩ hs
      rwa [Function.comp, hf', (hS1 _ hS0).2] at this

/-- Writing back the state of a Module does not create Modules. -/
theorem writeBack_length {w : World α} (wf : WFWorld w) {l l' : Loc} (hl : l < w.heap.length) (hl' : l' < w.heap.length) (fuel : Nat) :
    (writeBack fuel l' l w).1.heap.length = w.heap.length := by
  unfold writeBack
  split
  · rfl
  · next s hs =>
    have hg : GoodUpdates [s] := by
      intro u hu k v hkv
      rw [List.mem_singleton.1 hu] at hkv
      exact getState_good wf.heap hl' hs k v hkv
    exact (confined_updateState (A := fun _ => True) wf (fun _ _ _ _ _ => trivial) trivial hl hg rfl).2

/-- What is left behind after the state of the copy has been written back. -/
theorem sim_back {w w3 wd : World α} (wf : WFWorld w) {l : Loc} {S : Loc → Prop} (B : Bisim S id w w) (hl : S l)
    {P : Loc → World α → World α × Except Err γ} (hP : Parametric P) (pr : PureRun w l P w3 w.heap.length)
    (hj : w3.jaxTrace = w.jaxTrace) (hst : w3.nnxStack = w.nnxStack) (hcl : Closed w3.heap (fun x => w.heap.length ≤ x))
    {out : γ} (hd : P l w = (wd, .ok out)) (hn : NodeWrites w wd l) :
    ∃ w4, (∀ fuel, w3.heap.length < fuel → writeBack fuel w.heap.length l w3 = (w4, none) ∧
        ∃ s d, partitionModule fuel w3.heap w.heap.length [] = .ok ([s], d) ∧ updateState fuel l [s] w3 = (w4, none)) ∧
      Keeps w w4 ∧ (∀ A, Closed w.heap A → A l → Confined A w w4) ∧ Bisim S id wd w4 := by
  have hlt := (B.lt hl).1
  obtain ⟨w4, hag, hsg, h1, h2, so, hb⟩ := copy_back wf hlt (B.valid hl) hP pr hj hst hd hn
  obtain ⟨k3, c3, _⟩ := grown pr.wf pr.len pr.old hj hst hcl
  have hkd := hP.keeps l w wf hlt
  have hcd := hP.confined (Reaches w.heap l) l w wf (by
    rintro x n y ⟨q, hq⟩ e
    exact ⟨_, hq.snoc e (wf.heap.refs _ _ _ e)⟩) ⟨[], Walk.here hlt⟩ hlt
  rw [hd] at hkd hcd
  refine ⟨w4, hb, ?_, ?_, ?_⟩
  · refine ⟨h1, h2, by rw [so.len]; exact k3.len, ?_⟩
    intro a ha
    have := (hag a ha).2
    exact this.trans (hkd.info a ha)
  · intro A hA hlA
    refine (c3 A hA).trans ?_
    obtain ⟨s, d, hp, hu⟩ := (hb _ (Nat.lt_succ_self _)).2
    have hs : getState (w3.heap.length + 1) w3.heap w.heap.length = some s := by
      simp only [partitionModule] at hp
      split at hp
      · next hs => cases hp; exact hs
      · cases hp
    refine (confined_updateState pr.wf (c3 A hA).closed (.inl hlA) (Nat.lt_of_lt_of_le hlt pr.len) ?_ hu).1
    intro u hu k v hkv
    rw [List.mem_singleton.1 hu] at hkv
    exact getState_good pr.wf.heap pr.lt hs k v hkv
  · have hattr : ∀ a n b, S a → attrAt wd.heap a n = some (.ref b) → S b := by
      intro a n b ha e
      by_cases hr : Reaches w.heap l a
      · rcases hn a n hr with h | ⟨v, h, _⟩
        · rw [h] at e; exact B.closed a n b ha e
        · rw [h] at e; cases e
      · rw [attrAt, hcd.same a (B.lt ha).1 hr] at e
        exact B.closed a n b ha e
    refine ⟨fun _ _ _ _ e => e, ?_, hattr⟩
    intro a ha
    obtain ⟨o, o', e1, e2, _, _, e5, _, _⟩ := B.obj a ha
    have hal := (B.lt ha).1
    have hld : a < wd.heap.length := Nat.lt_of_lt_of_le hal hkd.len
    have hl4 : a < w4.heap.length := by rw [so.len]; exact Nat.lt_of_lt_of_le hal pr.len
    have od : wd.heap[a]? = some wd.heap[a] := List.getElem?_eq_getElem hld
    have o4 : w4.heap[a]? = some w4.heap[a] := List.getElem?_eq_getElem hl4
    have i4 := (hag a hal).2
    have id' := hkd.info a hal
    simp only [objInfo, od, e1, Option.map_some, Option.some.injEq, Prod.mk.injEq] at id'
    rw [od, o4] at i4
    simp only [Option.map_some, Option.some.injEq, Prod.mk.injEq] at i4
    refine ⟨wd.heap[a], w4.heap[a], od, o4, i4.1, i4.2.2.1, ?_, ?_, ?_⟩
    · rw [traceValid_of hkd.jax hkd.stack, id'.2.2.2]; exact e5
    · rw [traceValid_of h1 h2, i4.2.2.2, id'.2.2.2]; exact e5
    · intro n
      have := (hag a hal).1 n
      simp only [attrAt, od, o4] at this
      rw [this]
      cases dget wd.heap[a].attrs n with
      | none => rfl
      | some x => simp only [Option.map_some, Attr.redirect_id]

/-! ### Transforms -/

/-- `r` is the outcome of a transformed function called on the Module `l` in the world `w`, and `q` that of a direct call; `kept` says
whether the effects of the function are kept. -/
structure Through (S : Loc → Prop) (l : Loc) (w : World α) (kept : Bool) (g : γ → δ) (q : World α × Except Err γ)
    (r : World α × Except Err δ) : Prop where
  out : r.2 = q.2.map g
  keeps : Keeps w r.1
  confined : ∀ A, Closed w.heap A → A l → Confined A w r.1
  bisim : ∀ b, q.2 = .ok b → Bisim S id (if kept then q.1 else w) r.1

omit [DecidableEq α] in
theorem unlimited_eq {call : Nat → World α → World α × δ} {w : World α} {N : Nat} {r : World α × δ}
    (h1 : ∀ fuel, w.heap.length < fuel → (call fuel w).1.heap.length = N) (h2 : ∀ fuel, N < fuel → call fuel w = r) :
    unlimited call w = r := by
  unfold unlimited
  rw [h1 _ (Nat.lt_succ_self _)]
  exact h2 _ (Nat.lt_succ_self _)

theorem jit_through {w : World α} (wf : WFWorld w) {l : Loc} {S : Loc → Prop} (B : Bisim S id w w) (hl : S l)
    {R P : Loc → World α → World α × Except Err γ} (hP : Parametric P) (hsim : FollowsAt w l R P) (stateful : Bool) (j t : Nat)
    (hn : stateful = true → ∀ wd b, P l w = (wd, .ok b) → NodeWrites w wd l) :
    Through S l w stateful id (P l w) (unlimited (fun fuel => jitCall fuel stateful j t l R) w) ∧
    ∃ limit, ∀ fuel, limit < fuel → jitCall fuel stateful j t l R w = unlimited (fun fuel => jitCall fuel stateful j t l R) w := by
  have hlt := (B.lt hl).1
  have hv := B.valid hl
  obtain ⟨s, d, hpart⟩ := partition_budget wf hlt
  obtain ⟨_, hdef, hs⟩ := hpart _ (Nat.lt_succ_self _)
  obtain ⟨w3, hr, wf3, hlen, hbase, hold, hj, hst, hcl, hpr⟩ :=
    sim_copy wf wf hlt hv hP hsim hdef hs (pieces_self (getState_canonical hs)) j (some t)
  obtain ⟨k3, c3, b3⟩ := grown wf3 hlen hold hj hst hcl
  have hlt3 := Nat.lt_of_lt_of_le hlt hlen
  have hN : ∀ fuel, w.heap.length < fuel → (jitCall fuel stateful j t l R w).1.heap.length = w3.heap.length := by
    intro fuel hf
    simp only [jitCall, (hpart fuel hf).1, hr]
    cases (P l w).2 with
    | error e => rfl
    | ok b =>
      simp only [Except.map]
      have := writeBack_length wf3 hlt3 hbase fuel
      split
      · generalize writeBack fuel w.heap.length l w3 = x at this
        obtain ⟨x1, _ | e⟩ := x <;> exact this
      · rfl
  suffices h : ∃ r, (∀ fuel, w3.heap.length < fuel → jitCall fuel stateful j t l R w = r) ∧
      Through S l w stateful id (P l w) r by
    obtain ⟨r, h1, h2⟩ := h
    have := unlimited_eq (call := fun fuel => jitCall fuel stateful j t l R) hN h1
    rw [this]
    exact ⟨h2, _, h1⟩
  cases hq : (P l w).2 with
  | error e =>
    refine ⟨(w3, .error e), ?_, ⟨by rw [hq]; rfl, k3, fun A hA _ => c3 A hA, fun b hb => by rw [hq] at hb; cases hb⟩⟩
    intro fuel hf
    simp only [jitCall, (hpart fuel (Nat.lt_of_le_of_lt hlen hf)).1, hr, hq, Except.map]
  | ok b =>
    cases stateful with
    | false =>
      refine ⟨(w3, .ok b), ?_, ⟨by rw [hq]; rfl, k3, fun A hA _ => c3 A hA, fun _ _ => b3 S B⟩⟩
      intro fuel hf
      simp only [jitCall, (hpart fuel (Nat.lt_of_le_of_lt hlen hf)).1, hr, hq, Except.map, Bool.false_eq_true, if_false]
    | true =>
      have hd : P l w = ((P l w).1, .ok b) := by rw [← hq]
      obtain ⟨w4, hb, k4, c4, b4⟩ := sim_back wf B hl hP (hpr b hq) hj hst hcl hd (hn rfl _ b hd)
      refine ⟨(w4, .ok b), ?_, ⟨by rw [hq]; rfl, k4, c4, fun _ _ => b4⟩⟩
      intro fuel hf
      simp only [jitCall, (hpart fuel (Nat.lt_of_le_of_lt hlen hf)).1, hr, hq, Except.map, if_true, (hb fuel hf).1]

theorem remat_through {w : World α} (wf : WFWorld w) {l : Loc} {S : Loc → Prop} (B : Bisim S id w w) (hl : S l)
    {R P : Loc → World α → World α × Except Err γ} (hP : Parametric P) (hsim : FollowsAt w l R P) (j : Nat)
    (hn : ∀ wd b, P l w = (wd, .ok b) → NodeWrites w wd l) :
    Through S l w true id (P l w) (unlimited (fun fuel => rematCall fuel j l R) w) ∧
    ∃ limit, ∀ fuel, limit < fuel → rematCall fuel j l R w = unlimited (fun fuel => rematCall fuel j l R) w := by
  have hlt := (B.lt hl).1
  have hv := B.valid hl
  obtain ⟨s, d, hpart⟩ := partition_budget wf hlt
  obtain ⟨_, hdef, hs⟩ := hpart _ (Nat.lt_succ_self _)
  obtain ⟨w3, hr, wf3, hlen, hbase, hold, hj, hst, hcl, hpr⟩ :=
    sim_copy wf wf hlt hv hP hsim hdef hs (pieces_self (getState_canonical hs)) j none
  obtain ⟨k3, c3, b3⟩ := grown wf3 hlen hold hj hst hcl
  have hlt3 := Nat.lt_of_lt_of_le hlt hlen
  have hN : ∀ fuel, w.heap.length < fuel → (rematCall fuel j l R w).1.heap.length = w3.heap.length := by
    intro fuel hf
    simp only [rematCall, (hpart fuel hf).1, hr]
    cases (P l w).2 with
    | error e => rfl
    | ok b =>
      simp only [Except.map]
      split
      · next s d hp =>
        have hs : getState fuel w3.heap w.heap.length = some s := by
          simp only [partitionModule] at hp
          split at hp
          · next hs => cases hp; exact hs
          · cases hp
        have := writeBack_length wf3 hlt3 hbase fuel
        simp only [writeBack, hs] at this
        generalize updateState fuel l [s] w3 = x at this
        obtain ⟨x1, _ | e⟩ := x <;> exact this
      · rfl
      · rfl
  suffices h : ∃ r, (∀ fuel, w3.heap.length < fuel → rematCall fuel j l R w = r) ∧
      Through S l w true id (P l w) r by
    obtain ⟨r, h1, h2⟩ := h
    have := unlimited_eq (call := fun fuel => rematCall fuel j l R) hN h1
    rw [this]
    exact ⟨h2, _, h1⟩
  cases hq : (P l w).2 with
  | error e =>
    refine ⟨(w3, .error e), ?_, ⟨by rw [hq]; rfl, k3, fun A hA _ => c3 A hA, fun b hb => by rw [hq] at hb; cases hb⟩⟩
    intro fuel hf
    simp only [rematCall, (hpart fuel (Nat.lt_of_le_of_lt hlen hf)).1, hr, hq, Except.map]
  | ok b =>
    have hd : P l w = ((P l w).1, .ok b) := by rw [← hq]
    obtain ⟨w4, hb, k4, c4, b4⟩ := sim_back wf B hl hP (hpr b hq) hj hst hcl hd (hn _ b hd)
    refine ⟨(w4, .ok b), ?_, ⟨by rw [hq]; rfl, k4, c4, fun _ _ => b4⟩⟩
    intro fuel hf
    obtain ⟨s', d', hp', hu⟩ := (hb fuel hf).2
    simp only [rematCall, (hpart fuel (Nat.lt_of_le_of_lt hlen hf)).1, hr, hq, Except.map, hp', hu]

variable {J : Jax α κ L}

theorem grad_through (hlaw : GradLaw J.gradOf) {w : World α} (wf : WFWorld w) {l : Loc} {S : Loc → Prop} (B : Bisim S id w w) (hl : S l)
    {R P : Loc → World α → World α × Except Err (L × γ)} (hP : Parametric P) (hsim : FollowsAt w l R P) (stateful : Bool) (j t : Nat)
    {wrt : Filter α} (hw : wrt.WellFormed)
    (hsx : ∀ x wx, LikeState (selected wrt l w) x → updateState (w.heap.length + 1) l [x] w = (wx, none) → FollowsAt wx l R P)
    (hn : stateful = true → ∀ wd b, P l w = (wd, .ok b) → NodeWrites w wd l) :
    Through S l w stateful (fun b => (J.gradOf (directLoss P (w.heap.length + 1) l w) (selected wrt l w), b.2)) (P l w)
      (unlimited (fun fuel => gradCall fuel stateful j t wrt J.gradOf l R) w) ∧
    ∃ limit, ∀ fuel, limit < fuel →
      gradCall fuel stateful j t wrt J.gradOf l R w = unlimited (fun fuel => gradCall fuel stateful j t wrt J.gradOf l R) w := by
  have hlt := (B.lt hl).1
  have hv := B.valid hl
  obtain ⟨p, s, d, nondiff, hp, hpart, hpc, hc, e1, e2⟩ := selected_spec wf hlt hw
  obtain ⟨hdef, hs, _⟩ := hpart _ (Nat.lt_succ_self _)
  obtain ⟨w3, hr, wf3, hlen, hbase, hold, hj, hst, hcl, hpr⟩ := sim_copy wf wf hlt hv hP hsim hdef hs hpc j (some t)
  obtain ⟨k3, c3, b3⟩ := grown wf3 hlen hold hj hst hcl
  have hlt3 := Nat.lt_of_lt_of_le hlt hlen
  have hgrad : J.gradOf (lossAt j t d nondiff R w) (selected wrt l w) =
      J.gradOf (directLoss P (w.heap.length + 1) l w) (selected wrt l w) := by
    refine hlaw.depends _ _ _ ?_
    intro y hy
    obtain ⟨wy, sy, _, _, hu, wfy, hly, hvy, hdy, hsy, hpy, _⟩ := like_pieces wf hlt hv hs hdef hc e1 e2 hy (Nat.lt_succ_self _)
    obtain ⟨u3, hru, _⟩ := sim_copy wfy wf (by rw [hly]; exact hlt) hvy hP (hsx y wy hy hu) hdy hsy hpy j (some t)
    simp only [lossAt, directLoss, hru, hu]
    generalize P l wy = r
    obtain ⟨_, _ | ⟨loss, aux⟩⟩ := r <;> rfl
  have hN : ∀ fuel, w.heap.length < fuel → (gradCall fuel stateful j t wrt J.gradOf l R w).1.heap.length = w3.heap.length := by
    intro fuel hf
    simp only [gradCall, hp, (hpart fuel hf).2.2, hr]
    cases (P l w).2 with
    | error e => rfl
    | ok b =>
      obtain ⟨b1, b2⟩ := b
      simp only [Except.map]
      have := writeBack_length wf3 hlt3 hbase fuel
      split
      · generalize writeBack fuel w.heap.length l w3 = x at this
        obtain ⟨x1, _ | e⟩ := x <;> exact this
      · rfl
  suffices h : ∃ r, (∀ fuel, w3.heap.length < fuel → gradCall fuel stateful j t wrt J.gradOf l R w = r) ∧
      Through S l w stateful (fun b => (J.gradOf (directLoss P (w.heap.length + 1) l w) (selected wrt l w), b.2)) (P l w) r by
    obtain ⟨r, h1, h2⟩ := h
    have := unlimited_eq (call := fun fuel => gradCall fuel stateful j t wrt J.gradOf l R) hN h1
    rw [this]
    exact ⟨h2, _, h1⟩
  cases hq : (P l w).2 with
  | error e =>
    refine ⟨(w3, .error e), ?_, ⟨by rw [hq]; rfl, k3, fun A hA _ => c3 A hA, fun b hb => by rw [hq] at hb; cases hb⟩⟩
    intro fuel hf
    simp only [gradCall, hp, (hpart fuel (Nat.lt_of_le_of_lt hlen hf)).2.2, hr, hq, Except.map]
  | ok b =>
    obtain ⟨b1, b2⟩ := b
    cases stateful with
    | false =>
      refine ⟨(w3, .ok (_, b2)), ?_, ⟨by rw [hq]; rfl, k3, fun A hA _ => c3 A hA, fun _ _ => b3 S B⟩⟩
      intro fuel hf
      simp only [gradCall, hp, (hpart fuel (Nat.lt_of_le_of_lt hlen hf)).2.2, hr, hq, Except.map, Bool.false_eq_true, if_false, hgrad]
    | true =>
      have hd : P l w = ((P l w).1, .ok (b1, b2)) := by rw [← hq]
      obtain ⟨w4, hb, k4, c4, b4⟩ := sim_back wf B hl hP (hpr _ hq) hj hst hcl hd (hn rfl _ _ hd)
      refine ⟨(w4, .ok (_, b2)), ?_, ⟨by rw [hq]; rfl, k4, c4, fun _ _ => b4⟩⟩
      intro fuel hf
      simp only [gradCall, hp, (hpart fuel (Nat.lt_of_le_of_lt hlen hf)).2.2, hr, hq, Except.map, if_true, (hb fuel hf).1, hgrad]

/-! ### Functions -/

/-- Going on in corresponding worlds. -/
theorem Follows.next (hlaw : GradLaw J.gradOf) {p : Routine α κ L β} (hp : p.Good)
    (ih : ∀ (S : Loc → Prop) (K : List Loc) (w : World α), WFWorld w → Bisim S id w w → (∀ k ∈ K, S k) → p.Carried J K w →
      Follows S K w (p.run J K w) (p.plain J K w))
    {S S1 : Loc → Prop} {f : Loc → Loc} {K : List Loc} {w wd wr : World α} (keeps : Keeps w wr)
    (confined : ∀ A, Closed w.heap A → (∀ k ∈ K, A k) → Confined A w wr) (B : Bisim S1 f wd wr) (hS : ∀ a, S a → S1 a ∧ f a = a)
    (wfd : WFWorld wd) (hK : ∀ k ∈ K, S k) (hc : p.Carried J K wd) :
    Follows S K w (p.run J K wr) (p.plain J K wd) := by
  have hKf : K.map f = K := by
    have : K.map f = K.map id := List.map_congr_left fun k hk => (hS k (hK k hk)).2
    rw [this, List.map_id]
  have wfr : WFWorld wr := (confined (fun _ => True) (fun _ _ _ _ _ => trivial) (fun _ _ => trivial)).wf
  have hK1 : ∀ k ∈ K, S1 k := fun k hk => (hS k (hK k hk)).1
  have hcr := Routine.Carried.corresponding hlaw p hp S1 f K wd wr B wfd wfr hK1 hc
  obtain ⟨S3, f3, hS3, B3, e3⟩ := Routine.plain_bisim hlaw p hp S1 f K wd wr B wfd wfr hK1
  rw [hKf] at hcr B3 e3
  have F := ih _ K wr wfr B.right (fun k hk => ⟨k, hK1 k hk, (hS k (hK k hk)).2⟩) hcr
  refine ⟨F.out.trans e3.symm, keeps.trans F.keeps, ?_, ?_⟩
  · intro A hA hKA
    have c := confined A hA hKA
    exact c.trans (F.confined _ c.closed fun k hk => .inl (hKA k hk))
  · intro b hb
    obtain ⟨S4, f4, hS4, B4⟩ := F.bisim b (by rw [← e3]; exact hb)
    refine ⟨_, _, ?_, B3.comp B4⟩
    intro a ha
    have h1 := hS a ha
    have h3 := hS3 a h1.1
    have h34 : f3 a = a := h3.2.trans h1.2
    have h4 := hS4 a ⟨a, h1⟩
    exact ⟨⟨h3.1, by rw [h34]; exact h4.1⟩, by rw [Function.comp, h34]; exact h4.2⟩

/-- The functions that `body` stands for have the same outcome on corresponding Modules. -/
theorem followsAt (hlaw : GradLaw J.gradOf) {body : Routine α κ L β} (hb : body.Good)
    (ih : ∀ (S : Loc → Prop) (K : List Loc) (w : World α), WFWorld w → Bisim S id w w → (∀ k ∈ K, S k) → body.Carried J K w →
      Follows S K w (body.run J K w) (body.plain J K w))
    {w : World α} (wf : WFWorld w) {l : Loc} (hl : l < w.heap.length) (hc : body.Carried J [l] w) :
    FollowsAt w l (fun l w => body.run J [l] w) (fun l w => body.plain J [l] w) := by
  intro f u B wfu
  have hr : Reaches w.heap l l := ⟨[], .here hl⟩
  refine ⟨_, ⟨l, hr, rfl⟩, ih _ [f l] u wfu B.right (by simpa using ⟨l, hr, rfl⟩) ?_⟩
  exact Routine.Carried.corresponding hlaw body hb _ f [l] w u B wf wfu (by simpa using hr) hc

omit [DecidableEq α] in
/-- A failing operation. -/
theorem Follows.fail {S : Loc → Prop} {K : List Loc} {w : World α} (wf : WFWorld w) (e : Err) :
    Follows S K w (w, (.error e : Except Err γ)) (w, .error e) :=
  ⟨rfl, .refl w, fun A hA _ => .refl wf hA, fun b hb => by cases hb⟩

omit [DecidableEq α] in
theorem CallSim.withOut {l l' : Loc} {u u' : World α} {r r' : World α × Except Err β} (h : CallSim l l' u u' r r') (out : β → β × β) :
    CallSim l l' u u' (r.1, r.2.map out) (r'.1, r'.2.map out) := by
  refine ⟨by simp only [h.out], h.confined, h.confined', ?_⟩
  intro b hb
  cases hr : r.2 with
  | error e => rw [hr] at hb; cases hb
  | ok x => exact h.bisim x hr

omit [DecidableEq α] in
theorem BodySim.withOut {X : Err → Prop} {F G : Loc → World α → World α × Except Err β} (h : BodySim X F G) (out : β → β × β) :
    BodySim X (fun l w => ((F l w).1, (F l w).2.map out)) (fun l w => ((G l w).1, (G l w).2.map out)) := by
  intro S g l u u' B wf wf' hl
  rcases h S g l u u' B wf wf' hl with ⟨e, he, hr⟩ | hs
  · exact .inl ⟨e, he, by simp only [hr]; rfl⟩
  · exact .inr (hs.withOut out)

/-- The function without transforms, where the condition on the effects of its calls holds, and the function with transforms. -/
theorem guarded_run (hlaw : GradLaw J.gradOf) {body : Routine α κ L β} (hb : body.Good)
    (ih : ∀ (S : Loc → Prop) (K : List Loc) (w : World α), WFWorld w → Bisim S id w w → (∀ k ∈ K, S k) → body.Carried J K w →
      Follows S K w (body.run J K w) (body.plain J K w)) (e : Err) :
    BodySim (· = e) (guarded (fun l w => body.Carried J [l] w) e fun l w => body.plain J [l] w) (fun l w => body.run J [l] w) := by
  intro S h l u u' B wf wf' hl
  by_cases hc : body.Carried J [l] u
  · have P := hb.parametric hlaw
    have hc' := Routine.Carried.corresponding hlaw body hb S h [l] u u' B wf wf' (by simpa using hl) hc
    obtain ⟨S1, f1, hS1, B1, he⟩ := P.bisim S h l u u' B wf wf' hl
    have F := ih _ [h l] u' wf' B.right (by simpa using ⟨l, hl, rfl⟩) hc'
    simp only [guarded, if_pos hc]
    refine .inr ⟨F.out.trans he.symm, fun A hA hAl => P.confined A l u wf hA hAl (B.lt hl).1,
      fun A hA hAl => F.confined A hA (by simpa using hAl), ?_⟩
    intro b hq
    obtain ⟨S2, f2, hS2, B2⟩ := F.bisim b (he.symm.trans hq)
    have h1 := hS1 l hl
    have h2 := hS2 (h l) ⟨l, hl, rfl⟩
    exact ⟨_, _, ⟨h1.1, by rw [h1.2]; exact h2.1⟩, by rw [Function.comp, h1.2]; exact h2.2, B1.comp B2⟩
  · exact .inl ⟨e, rfl, by simp only [guarded, if_neg hc]⟩

omit [DecidableEq α] in
/-- There is an exception that is not the outcome. -/
theorem other_error (r : Except Err γ) : ∃ e, r ≠ .error e := by
  by_cases h : r = .error .typeError
  · exact ⟨.unmodelled, by rw [h]; simp⟩
  · exact ⟨_, h⟩

omit [DecidableEq α] in
theorem guarded_eqOr {P : Loc → World α → Prop} {F : Loc → World α → World α × Except Err β} (e : Err) (l : Loc) (w : World α) :
    EqOr e (guarded P e F l w) (F l w) := by
  unfold guarded
  split
  · exact .inr rfl
  · exact .inl rfl

omit [DecidableEq α] in
theorem EqOr.withOut {e : Err} {r r' : World α × Except Err β} (h : EqOr e r r') (out : β → β × β) :
    EqOr e (r.1, r.2.map out) (r'.1, r'.2.map out) := by
  rcases h with h | h
  · exact .inl (by simp only [h]; rfl)
  · exact .inr (by rw [h])

/-- Raising an exception that is not the outcome where the condition does not hold makes no difference at all. -/
theorem guarded_scan {P : Option (PureContext κ) → β → Option β → Loc → World α → Prop}
    {F : Option (PureContext κ) → β → Option β → Loc → World α → World α × Except Err β} {R : Arrays α} {split : κ → Nat → Nat → κ}
    {fuel : Nat} {o : ScanOptions α} {j : Nat} {l : Loc} {out : β → β × β} {c : β} {xs : Option (List β)} {ctx : Option (PureContext κ)}
    {w : World α} {e : Err}
    (h : (scanApply R split fuel o j l (Nnx.withOut out fun ctx c x => guarded (P ctx c x) e (F ctx c x)) c xs ctx w).2 =
      (scanApply R split fuel o j l (Nnx.withOut out F) c xs ctx w).2)
    (hne : (scanApply R split fuel o j l (Nnx.withOut out F) c xs ctx w).2 ≠ .error e) :
    scanApply R split fuel o j l (Nnx.withOut out fun ctx c x => guarded (P ctx c x) e (F ctx c x)) c xs ctx w =
      scanApply R split fuel o j l (Nnx.withOut out F) c xs ctx w :=
  (scanApply_mono (fun _ _ _ l w => (guarded_eqOr e l w).withOut out) R split fuel o j l c xs ctx w).resolve_left
    (fun h' => hne (h ▸ h'))

/-- A weaker condition holds whenever the function is called. -/
theorem WheneverCalled.mono {P Q : Option (PureContext κ) → β → Option β → Loc → World α → Prop}
    {F : Option (PureContext κ) → β → Option β → Loc → World α → World α × Except Err β} {fuel j : Nat} {o : ScanOptions α} {out : β → β × β}
    {c : β} {xs : Option (List β)} {ctx : Option (PureContext κ)} {l : Loc} {w : World α}
    (h : WheneverCalled J fuel j o out c xs ctx P F l w) (hPQ : ∀ ctx c x l w, P ctx c x l w → Q ctx c x l w) :
    WheneverCalled J fuel j o out c xs ctx Q F l w := by
  intro e
  rcases scanApply_mono (e := e) (F := Nnx.withOut out fun ctx c x => guarded (P ctx c x) e (F ctx c x))
    (G := Nnx.withOut out fun ctx c x => guarded (Q ctx c x) e (F ctx c x))
    (by
      intro ctx c x l w
      refine EqOr.withOut ?_ out
      simp only [guarded]
      by_cases hc : P ctx c x l w
      · rw [if_pos hc, if_pos (hPQ ctx c x l w hc)]
        exact .inr rfl
      · rw [if_neg hc]
        exact .inl rfl) J.arrays J.split fuel o j l c xs ctx w with hs | hs
  · have hp := (h e).symm.trans hs
    rcases scanApply_mono (e := e) (F := Nnx.withOut out fun ctx c x => guarded (Q ctx c x) e (F ctx c x)) (G := Nnx.withOut out F)
      (fun _ _ _ l w => (guarded_eqOr e l w).withOut out) J.arrays J.split fuel o j l c xs ctx w with hs | hs
    · exact hs.trans hp.symm
    · rw [hs]
  · rw [← hs]
    exact h e

/-- It is enough to try one exception that is not the outcome. -/
theorem WheneverCalled.of_one {P : Option (PureContext κ) → β → Option β → Loc → World α → Prop}
    {F : Option (PureContext κ) → β → Option β → Loc → World α → World α × Except Err β} {fuel j : Nat} {o : ScanOptions α} {out : β → β × β}
    {c : β} {xs : Option (List β)} {ctx : Option (PureContext κ)} {l : Loc} {w : World α} {e : Err}
    (h : (scanApply J.arrays J.split fuel o j l (Nnx.withOut out fun ctx c x => guarded (P ctx c x) e (F ctx c x)) c xs ctx w).2 =
      (scanApply J.arrays J.split fuel o j l (Nnx.withOut out F) c xs ctx w).2)
    (hne : (scanApply J.arrays J.split fuel o j l (Nnx.withOut out F) c xs ctx w).2 ≠ .error e) :
    WheneverCalled J fuel j o out c xs ctx P F l w := by
  intro e'
  rcases scanApply_mono (e := e) (F := Nnx.withOut out fun ctx c x => guarded (P ctx c x) e (F ctx c x))
    (G := Nnx.withOut out fun ctx c x => guarded (P ctx c x) e' (F ctx c x))
    (by
      intro ctx c x l w
      refine EqOr.withOut ?_ out
      simp only [guarded]
      by_cases hc : P ctx c x l w
      · rw [if_pos hc, if_pos hc]
        exact .inr rfl
      · rw [if_neg hc]
        exact .inl rfl) J.arrays J.split fuel o j l c xs ctx w with hs | hs
  · exact absurd (h.symm.trans hs) hne
  · rw [← hs]
    exact h

/-- A scan of functions with transforms. -/
theorem scan_follows (hlaw : GradLaw J.gradOf) {body : Option (PureContext κ) → β → Option β → Routine α κ L β}
    (hb : ∀ ctx c x, (body ctx c x).Good)
    (ih : ∀ ctx c x (S : Loc → Prop) (K : List Loc) (w : World α), WFWorld w → Bisim S id w w → (∀ k ∈ K, S k) →
      (body ctx c x).Carried J K w → Follows S K w ((body ctx c x).run J K w) ((body ctx c x).plain J K w))
    {fuel j : Nat} {o : ScanOptions α} {out : β → β × β} {c : β} {xs : Option (List β)} {ctx : Option (PureContext κ)}
    {S : Loc → Prop} {l : Loc} {w : World α} (wf : WFWorld w) (B : Bisim S id w w) (hS : S l)
    (hc : WheneverCalled J fuel j o out c xs ctx (fun ctx c x l w => (body ctx c x).Carried J [l] w)
      (fun ctx c x l w => (body ctx c x).plain J [l] w) l w) :
    ScanSim S id l w w
      (scanApply J.arrays J.split fuel o j l (withOut out fun ctx c x l w => (body ctx c x).plain J [l] w) c xs ctx w)
      (scanApply J.arrays J.split fuel o j l (withOut out fun ctx c x l w => (body ctx c x).run J [l] w) c xs ctx w) := by
  obtain ⟨e, hne⟩ := other_error
    (scanApply J.arrays J.split fuel o j l (withOut out fun ctx c x l w => (body ctx c x).plain J [l] w) c xs ctx w).2
  have heq := guarded_scan (hc e) hne
  have s := scanApply_sim (R := J.arrays) (split := J.split) (fuel := fuel) (o := o) (j := j) (X := (· = e)) B hS wf wf
    (F := withOut out fun ctx c x => guarded (fun l w => (body ctx c x).Carried J [l] w) e fun l w => (body ctx c x).plain J [l] w)
    (G := withOut out fun ctx c x l w => (body ctx c x).run J [l] w)
    (fun ctx c x => (guarded_run hlaw (hb ctx c x) (ih ctx c x) e).withOut out) c xs ctx
  rw [heq] at s
  refine s.resolve_left ?_
  rintro ⟨_, rfl, h⟩
  exact hne h

/-- **Nested transforms.** The function with its transforms has the same outcome as the function without. -/
theorem Routine.run_follows (hlaw : GradLaw J.gradOf) (p : Routine α κ L β) : p.Good → ∀ (S : Loc → Prop) (K : List Loc) (w : World α), WFWorld w →
    Bisim S id w w → (∀ k ∈ K, S k) → p.Carried J K w → Follows S K w (p.run J K w) (p.plain J K w) := by
  induction p with
  | ret b => exact fun _ S K w wf B _ _ => ⟨rfl, .refl w, fun A hA _ => .refl wf hA, fun _ _ => ⟨S, id, fun a ha => ⟨ha, rfl⟩, B⟩⟩
  | fail e => exact fun _ S K w wf B _ _ => .fail wf e
  | op o k ih =>
    intro hg S K w wf B hK hc
    simp only [Routine.run, Routine.plain]
    cases ho : o.run K w with
    | error e => exact .fail wf e
    | ok r =>
      obtain ⟨x, K1, w1⟩ := r
      obtain ⟨S1, B1, hS1, hK1, wf1, hx⟩ := Op.sound hg.1 B wf hK ho
      have F := ih x (hg.2 x hx) S1 K1 w1 wf1 B1 hK1 (hc x K1 w1 ho)
      have hlt : ∀ k ∈ K, k < w.heap.length := fun k hk => (B.lt (hK k hk)).1
      refine ⟨F.out, ?_, ?_, ?_⟩
      · have c := Op.confined hg.1 (A := fun _ => True) wf (fun _ _ _ _ _ => trivial) (fun k hk => ⟨hlt k hk, trivial⟩) ho
        exact c.2.2.1.trans F.keeps
      · intro A hA hKA
        have c := Op.confined hg.1 wf hA (fun k hk => ⟨hlt k hk, hKA k hk⟩) ho
        exact c.1.trans (F.confined _ c.1.closed fun k hk => (c.2.1 k hk).2)
      · intro b hb
        obtain ⟨S', f', h, B'⟩ := F.bisim b hb
        exact ⟨S', f', fun a ha => h a (hS1 a ha), B'⟩
  | call how m body k ihb ih =>
    intro hg S K w wf B hK hc
    simp only [Routine.run, Routine.plain]
    cases hl : K[m]? with
    | none => exact .fail wf _
    | some l =>
      have hS := hK l (List.mem_of_getElem? hl)
      have hlt := (B.lt hS).1
      obtain ⟨hcb, hck⟩ := hc l hl
      have P := hg.1.parametric hlaw
      have wfd := P.wf wf hlt
      have hF := followsAt hlaw hg.1 (ihb hg.1) wf hlt hcb
      simp only
      have key : ∃ S1 f1, (∀ a, S a → S1 a ∧ f1 a = a) ∧
          (how.call l (fun l w => body.run J [l] w) w).2 = (body.plain J [l] w).2 ∧
          Keeps w (how.call l (fun l w => body.run J [l] w) w).1 ∧
          (∀ A, Closed w.heap A → A l → Confined A w (how.call l (fun l w => body.run J [l] w) w).1) ∧
          ∀ b, (body.plain J [l] w).2 = .ok b →
            Bisim S1 f1 (if how.kept then (body.plain J [l] w).1 else w) (how.call l (fun l w => body.run J [l] w) w).1 := by
        have through : ∀ {r : World α × Except Err β}, Through S l w how.kept id (body.plain J [l] w) r →
            ∃ S1 f1, (∀ a, S a → S1 a ∧ f1 a = a) ∧ r.2 = (body.plain J [l] w).2 ∧ Keeps w r.1 ∧
              (∀ A, Closed w.heap A → A l → Confined A w r.1) ∧
              ∀ b, (body.plain J [l] w).2 = .ok b → Bisim S1 f1 (if how.kept then (body.plain J [l] w).1 else w) r.1 := by
          intro r T
          refine ⟨S, id, fun a ha => ⟨ha, rfl⟩, ?_, T.keeps, T.confined, T.bisim⟩
          rw [T.out]
          cases (body.plain J [l] w).2 <;> rfl
        cases how with
        | direct =>
          have F := ihb hg.1 S [l] w wf B (by simpa using hS) hcb
          cases hq : (body.plain J [l] w).2 with
          | error e =>
            exact ⟨S, id, fun a ha => ⟨ha, rfl⟩, F.out.trans hq, F.keeps, fun A hA hA' => F.confined A hA (by simpa using hA'),
              fun b hb => by cases hb⟩
          | ok b =>
            obtain ⟨S1, f1, h1, B1⟩ := F.bisim b hq
            exact ⟨S1, f1, h1, F.out.trans hq, F.keeps, fun A hA hA' => F.confined A hA (by simpa using hA'), fun _ _ => B1⟩
        | jit stateful j t =>
          exact through (jit_through wf B hS P hF stateful j t fun hs wd b hwd => (hck wd b hwd).1 (by simp) hs).1
        | remat j =>
          exact through (remat_through wf B hS P hF j fun wd b hwd => (hck wd b hwd).1 (by simp) rfl).1
      obtain ⟨S1, f1, hS1, hout, hkeep, hconf, hB⟩ := key
      generalize how.call l (fun l w => body.run J [l] w) w = r at hout hkeep hconf hB
      generalize hq : body.plain J [l] w = q at hout hB hck wfd
      obtain ⟨wr, r⟩ := r
      obtain ⟨wd, q⟩ := q
      simp only at hout
      subst hout
      cases r with
      | error e => exact ⟨rfl, hkeep, fun A hA hKA => hconf A hA (hKA l (List.mem_of_getElem? hl)), fun b hb => by cases hb⟩
      | ok b =>
        exact Follows.next hlaw (hg.2 b) (ih b (hg.2 b)) hkeep (fun A hA hKA => hconf A hA (hKA l (List.mem_of_getElem? hl)))
          (hB b rfl) hS1 (wf_if wf wfd) hK (hck wd b rfl).2
  | grad stateful j t wrt loss m body k ihb ih =>
    intro hg S K w wf B hK hc
    simp only [Routine.run, Routine.plain]
    cases hl : K[m]? with
    | none => exact .fail wf _
    | some l =>
      have hS := hK l (List.mem_of_getElem? hl)
      have hlt := (B.lt hS).1
      obtain ⟨hcb, hcx, hck⟩ := hc l hl
      have P := hg.2.1.parametric hlaw
      have wfd := P.wf wf hlt
      have hF := followsAt hlaw hg.2.1 (ihb hg.2.1) wf hlt hcb
      simp only
      have T := (grad_through hlaw wf B hS (P.withLoss loss) (hF.withLoss loss) stateful j t hg.1 (by
        intro x wx hx hux
        obtain ⟨p, s, d, nondiff, hp, hpart, hpc, hcn, e1, e2⟩ := selected_spec wf hlt hg.1
        obtain ⟨hdef, hs, _⟩ := hpart _ (Nat.lt_succ_self _)
        obtain ⟨wy, sy, _, _, hu, wfy, hly, _⟩ := like_pieces wf hlt (B.valid hS) hs hdef hcn e1 e2 hx (Nat.lt_succ_self _)
        rw [hux] at hu
        cases hu
        exact (followsAt hlaw hg.2.1 (ihb hg.2.1) wfy (by rw [hly]; exact hlt) (hcx x wx hx hux)).withLoss loss) (by
        intro hs wd b hwd
        simp only [Nnx.withLoss, Prod.mk.injEq] at hwd
        cases hq : (body.plain J [l] w).2 with
        | error e => rw [hq] at hwd; cases hwd.2
        | ok c =>
          refine (hck wd c ?_).1 hs
          rw [← hwd.1, ← hq])).1
      obtain ⟨hout, hkeep, hconf, hB⟩ := T
      generalize unlimited (fun fuel => gradCall fuel stateful j t wrt J.gradOf l (withLoss loss fun l w => body.run J [l] w)) w = r
        at hout hkeep hconf hB
      have hgood := hlaw.good (directLoss (withLoss loss fun l w => body.plain J [l] w) (w.heap.length + 1) l w) (selected wrt l w)
      generalize J.gradOf (directLoss (withLoss loss fun l w => body.plain J [l] w) (w.heap.length + 1) l w) (selected wrt l w) = g
        at hout hck hgood
      simp only [Nnx.withLoss] at hout hB
      generalize hq : body.plain J [l] w = q at hout hB hck wfd
      obtain ⟨wr, r⟩ := r
      obtain ⟨wd, q⟩ := q
      simp only at hout
      subst hout
      cases q with
      | error e => exact ⟨rfl, hkeep, fun A hA hKA => hconf A hA (hKA l (List.mem_of_getElem? hl)), fun b hb => by cases hb⟩
      | ok b =>
        exact Follows.next hlaw (hg.2.2 _ b hgood) (ih _ b (hg.2.2 _ b hgood)) hkeep (fun A hA hKA => hconf A hA (hKA l (List.mem_of_getElem? hl)))
          (hB _ rfl) (fun a ha => ⟨ha, rfl⟩) (wf_if wf wfd) hK (hck wd b rfl).2
  | scan fuel j o out m c xs ctx body k ihb ih =>
    intro hg S K w wf B hK hc
    simp only [Routine.run, Routine.plain]
    cases hl : K[m]? with
    | none => exact .fail wf _
    | some l =>
      have hS := hK l (List.mem_of_getElem? hl)
      obtain ⟨hcb, hck⟩ := hc l hl
      obtain ⟨hout, BB, _, hkeep, hcd, hconf⟩ := scan_follows hlaw hg.1 (fun ctx c x => ihb ctx c x (hg.1 ctx c x)) wf B hS hcb
      have wfd := (hcd (fun _ => True) (fun _ _ _ _ _ => trivial) trivial).wf
      simp only
      clear hcb hcd
      generalize scanApply J.arrays J.split fuel o j l (withOut out fun ctx c x l w => (body ctx c x).run J [l] w) c xs ctx w = r
        at hout hkeep hconf BB
      generalize scanApply J.arrays J.split fuel o j l (withOut out fun ctx c x l w => (body ctx c x).plain J [l] w) c xs ctx w = q
        at hout BB wfd hck
      obtain ⟨wr, r⟩ := r
      obtain ⟨wd, q⟩ := q
      simp only at hout
      subst hout
      cases r with
      | error e => exact ⟨rfl, hkeep, fun A hA hKA => hconf A hA (hKA l (List.mem_of_getElem? hl)), fun b hb => by cases hb⟩
      | ok b =>
        obtain ⟨c', ys⟩ := b
        exact Follows.next hlaw (hg.2 c' ys) (ih c' ys (hg.2 c' ys)) hkeep (fun A hA hKA => hconf A hA (hKA l (List.mem_of_getElem? hl)))
          BB (fun a ha => ⟨ha, rfl⟩) wfd hK (hck wd c' ys rfl)

end Nnx
