import Verif.Proofs.Collect
import Verif.Props.ModelDict
import Verif.Props.ModuleDef
/-
C108: collecting what the calls of a model have sown.
-/
namespace Nnx
variable {α : Type} [DecidableEq α]

/-- **C108, sowing does not disturb.** A call that sows and assigns does to all other attributes what it does without the calls of
`sow`, and succeeds without them too. -/
theorem C108_without_sows {es : List (CallEvent α)} {w w1 : World α} (wf : WFWorld w) (hp : ProperEvents es w)
    (e : runEvents es w = (w1, none)) :
    ∃ w2, runEvents (withoutSows es) w = (w2, none) ∧ SameObjects w2 w1 ∧
      ∀ l n, sown (eventSows es) l n = [] → attrAt w1.heap l n = attrAt w2.heap l n := by
  have R0 : SownOver [] w w := ⟨.refl w, fun _ _ _ => rfl, fun l n h => absurd rfl h⟩
  obtain ⟨w2, h, R, _, _⟩ := runEvents_sim es [] R0 wf wf e hp.1 hp.2
  exact ⟨w2, h, R.same, R.off⟩

omit [DecidableEq α] in
theorem SownOver.walk {cs : List (SowCall α)} {w1 w2 : World α} (R : SownOver cs w1 w2) {root l : Loc} {p : List Str} :
    Walk w1.heap root p l ↔ Walk w2.heap root p l := by
  have href : ∀ l n b, attrAt w1.heap l n = some (.ref b) ↔ attrAt w2.heap l n = some (.ref b) := by
    intro l n b
    by_cases h : sown cs l n = []
    · rw [R.off l n h]
    · obtain ⟨h1, _, _, h2, _⟩ := R.on l n h
      rw [h1, h2]; simp
  exact ⟨fun h => h.congr R.same.len.symm fun l n b => (href l n b).1, fun h => h.congr R.same.len fun l n b => (href l n b).2⟩

theorem pop_sown {cs : List (SowCall α)} {w1 w2 : World α} (R : SownOver cs w1 w2) (wf1 : WFWorld w1) {root : Loc}
    (hroot : root < w2.heap.length) {T : Cls} (hs : SowsBelow w2.heap root T cs) (hfree : FreeOf w2.heap root T) {fuel : Nat}
    (hf : w1.heap.length < fuel) {h : Heap α} {ss : List (State (PyVal α))}
    (e : popState fuel root [.ofType T] w1.heap = (h, .ok ss)) :
    ∃ t path, ss = [t] ∧ SameContent w2 { w1 with heap := h } ∧ (∀ l, Reaches w2.heap root l → Walk w2.heap root (path l) l) ∧
      Collected cs path t := by
  have hr1 : root < w1.heap.length := by rw [R.same.len]; exact hroot
  have hac := C17_returns_only_if_acyclic wf1.heap hr1 e
  have hreach : ∀ l, Reaches w1.heap root l ↔ Reaches w2.heap root l := fun l => exists_congr fun p => R.walk
  obtain ⟨h', ss', path, e', hlen, hpath, hget, hobj, hcase, hiff⟩ :=
    popState_effect wf1.heap hr1 hac (filters := [.ofType T]) (by simp) (fun f hf => by rw [List.mem_singleton] at hf; subst hf; trivial) hf
  rw [e] at e'
  simp only [Prod.mk.injEq, Except.ok.injEq] at e'
  obtain ⟨rfl, rfl⟩ := e'
  obtain ⟨t, rfl⟩ : ∃ t, ss = [t] := List.length_eq_one_iff.1 hlen
  have hl' : h.length = w1.heap.length := (confined_popState (A := fun _ => True) wf1 (fun _ _ _ _ _ => trivial) trivial e).2
  -- exactly the sown attributes match
  have hmatch : ∀ l n v, Reaches w1.heap root l → attrAt w1.heap l n = some (.val v) →
      ((v.isNode = true ∧ v.isInstance T = true) ↔ sown cs l n ≠ []) := by
    intro l n v hl hv
    constructor
    · rintro ⟨h1, h2⟩ hno
      rw [R.off l n hno] at hv
      have := hfree l n v ((hreach l).1 hl) hv h1
      rw [h2] at this; cases this
    · intro hne
      obtain ⟨_, c, m, h2, _, hT⟩ := R.on l n hne
      rw [hv] at h2; cases h2
      obtain ⟨d, hd, hd1, hd2⟩ : ∃ d ∈ cs, d.module = l ∧ d.name = n := by
        by_cases h : ∃ d ∈ cs, d.module = l ∧ d.name = n
        · exact h
        · exact absurd (sown_nil_iff.2 fun d hd hh => h ⟨d, hd, hh⟩) hne
      obtain ⟨_, h3, h4⟩ := hs d hd
      rw [hT d hd hd1 hd2] at h3 h4
      exact ⟨by simp [PyVal.isNode, PyVal.isInstance, PyVal.cls, h4], h3⟩
  have hsown : ∀ l n, sown cs l n ≠ [] → Reaches w1.heap root l := by
    intro l n hne
    obtain ⟨d, hd, hd1, hd2⟩ : ∃ d ∈ cs, d.module = l ∧ d.name = n := by
      by_cases h : ∃ d ∈ cs, d.module = l ∧ d.name = n
      · exact h
      · exact absurd (sown_nil_iff.2 fun d hd hh => h ⟨d, hd, hh⟩) hne
    rw [← hd1]; exact (hreach _).2 (hs d hd).1
  refine ⟨t, path, rfl, ⟨⟨?_, ?_, R.same.nextId, R.same.jax, R.same.stack⟩, ?_⟩, fun l hl => R.walk.1 (hpath l ((hreach l).2 hl)), ?_, ?_⟩
  · show h.length = w2.heap.length
    rw [hl', R.same.len]
  · intro l o o' ho ho'
    have hl1 : l < w1.heap.length := by rw [R.same.len]; exact (List.getElem?_eq_some_iff.1 ho).1
    have ho1 := List.getElem?_eq_getElem hl1
    obtain ⟨a1, a2, a3, a4⟩ := R.same.obj l o _ ho ho1
    obtain ⟨o2, ho2, b1, b2, b3, b4, _⟩ := hobj l _ ho1
    have : o2 = o' := Option.some.inj (ho2.symm.trans ho')
    subst this
    exact ⟨b1.trans a1, b2.trans a2, b3.trans a3, b4.trans a4⟩
  · intro l n
    show attrAt h l n = attrAt w2.heap l n
    by_cases hl : Reaches w1.heap root l
    · by_cases hne : sown cs l n = []
      · rw [← R.off l n hne]
        by_cases hch : attrAt h l n = attrAt w1.heap l n
        · exact hch
        · obtain ⟨v, hv, hv1, f, hf1, hf2⟩ := (hiff l n hl).1 hch
          rw [List.mem_singleton] at hf1
          subst hf1
          exact absurd hne ((hmatch l n v hl hv).1 ⟨hv1, hf2⟩)
      · obtain ⟨h2, c, m, h1, _⟩ := R.on l n hne
        obtain ⟨h3, h4⟩ := (hmatch l n _ hl h1).2 hne
        have hch := (hiff l n hl).2 ⟨_, h1, h3, _, List.mem_singleton.2 rfl, h4⟩
        rw [h2]
        exact (hcase l n hl).resolve_right hch
    · have hno : sown cs l n = [] := by
        by_cases hne : sown cs l n = []
        · exact hne
        · exact absurd (hsown l n hne) hl
      rw [← R.off l n hno]
      by_cases hlt : l < w1.heap.length
      · obtain ⟨o', ho', _, _, _, _, _, heq⟩ := hobj l _ (List.getElem?_eq_getElem hlt)
        rw [heq hl] at ho'
        simp only [attrAt, ho', List.getElem?_eq_getElem hlt]
      · have h1 : w1.heap[l]? = none := List.getElem?_eq_none_iff.2 (Nat.not_lt.1 hlt)
        have h2 : h[l]? = none := List.getElem?_eq_none_iff.2 (by rw [hl']; exact Nat.not_lt.1 hlt)
        simp only [attrAt, h1, h2]
  · intro l n hne
    obtain ⟨_, c, m, h1, _, hT⟩ := R.on l n hne
    have hl := hsown l n hne
    obtain ⟨h3, h4⟩ := (hmatch l n _ hl h1).2 hne
    refine ⟨c, m, (hget 0 t rfl _ _).2 ⟨l, n, hl, h1, h3, rfl, ⟨_, rfl, h4⟩, fun j hj => absurd hj (Nat.not_lt_zero j)⟩, hT⟩
  · intro k v hk
    obtain ⟨l, n, hl, hv, h3, rfl, ⟨f, hf1, hf2⟩, _⟩ := (hget 0 t rfl k v).1 hk
    obtain rfl := Option.some.inj hf1
    exact ⟨l, n, (hmatch l n v hl hv).1 ⟨h3, hf2⟩, rfl⟩

theorem sow_len {w w' : World α} {l : Loc} {vt : Cls} {n : Str} {v : PyVal α} (e : sow l vt n v w = .ok w') :
    w'.heap.length = w.heap.length := by
  have key : ∀ x, setAttr w l n (.val x) = .ok w' → w'.heap.length = w.heap.length := by
    intro x h
    obtain ⟨o, a, ho, _, _, _, rfl⟩ := setAttr_ok_iff.1 h
    simp [World.setAttrs]
  unfold sow at e
  repeat' split at e
  all_goals first | exact key _ e | cases e

theorem runEvents_len : ∀ {es : List (CallEvent α)} {w w' : World α}, runEvents es w = (w', none) → w'.heap.length = w.heap.length
  | [], w, w', e => by obtain ⟨rfl, _⟩ := Prod.mk.inj e; rfl
  | .sow c :: es, w, w', e => by
    simp only [runEvents] at e
    split at e
    · simp at e
    next w1 h1 => rw [runEvents_len e, sow_len h1]
  | .assign l n v :: es, w, w', e => by
    simp only [runEvents] at e
    split at e
    · simp at e
    next w1 h1 =>
      obtain ⟨o, a, ho, _, _, _, rfl⟩ := setAttr_ok_iff.1 h1
      rw [runEvents_len e]; simp [World.setAttrs]

/-- **C108.** A call sows values of class `T` to Modules of the model, among other assignments, and then `model.pop_state(T)` returns: it
returns one State, which holds exactly what was sown in this call, complete and in order; and the Modules are as they are after the call
without its calls of `sow`. (`pop_state` returns if the model has no reference cycle, C17.) -/
theorem C108_collects {es : List (CallEvent α)} {w w1 w2 : World α} (wf : WFWorld w) {root : Loc} (hroot : root < w.heap.length)
    (hp : ProperEvents es w) (e : runEvents es w = (w1, none)) (e2 : runEvents (withoutSows es) w = (w2, none)) {T : Cls}
    (hs : SowsBelow w2.heap root T (eventSows es)) (hfree : FreeOf w2.heap root T) {fuel : Nat}
    (hf : w1.heap.length < fuel) {h : Heap α} {ss : List (State (PyVal α))}
    (epop : popState fuel root [.ofType T] w1.heap = (h, .ok ss)) :
    ∃ t path, ss = [t] ∧ SameContent w2 { w1 with heap := h } ∧ (∀ l, Reaches w2.heap root l → Walk w2.heap root (path l) l) ∧
      Collected (eventSows es) path t := by
  have R0 : SownOver [] w w := ⟨.refl w, fun _ _ _ => rfl, fun l n h => absurd rfl h⟩
  obtain ⟨w2', h2, R, wf1, _⟩ := runEvents_sim es [] R0 wf wf e hp.1 hp.2
  rw [e2] at h2
  obtain ⟨rfl, _⟩ := Prod.mk.inj h2
  exact pop_sown R wf1 (by rw [runEvents_len e2]; exact hroot) hs hfree hf epop

omit [DecidableEq α] in
/-- **C108, the model afterwards.** Where the content is the same, so are the State and the definition of the model. -/
theorem C108_same_model {w w' : World α} (wf : WFWorld w) (wf' : WFWorld w') (hc : SameContent w w') {root : Loc} (hroot : root < w.heap.length)
    {f f' : Nat} (hf : w.heap.length < f) (hf' : w.heap.length < f') :
    ∃ s d, partitionModule f w.heap root [] = .ok ([s], d) ∧ partitionModule f' w'.heap root [] = .ok ([s], d) := by
  have g : GraphIso w.heap root w'.heap root id := by
    refine ⟨rfl, fun _ _ _ _ h => h, ?_, ?_⟩
    · intro a o _ ho
      have hl : a < w'.heap.length := by rw [hc.1.len]; exact (List.getElem?_eq_some_iff.1 ho).1
      obtain ⟨h1, _, h3, _⟩ := hc.1.obj a o _ ho (List.getElem?_eq_getElem hl)
      exact ⟨_, List.getElem?_eq_getElem hl, h1, h3⟩
    · intro a _ n
      rw [id, hc.2 a n]
      cases attrAt w.heap a n with
      | none => rfl
      | some x => cases x <;> rfl
  exact C24_partition_canonical wf.heap wf'.heap hroot (by rw [hc.1.len]; exact hroot) (g.sameGraph wf.heap hroot) hf (by rw [hc.1.len]; exact hf')

/-- **C108, call after call.** When the variables of class `T` are popped after every call, every call's State holds exactly what that call has sown, with nothing
left over from the calls before, and at the end the Modules are as they are after the calls without their calls of `sow`. -/
theorem C108_rounds {ess : List (List (CallEvent α))} {w w' v v' : World α} (wf : WFWorld w) (wfv : WFWorld v) (hc : SameContent v w) {root : Loc}
    (hroot : root < w.heap.length) {T : Cls} {ts : List (State (PyVal α))} (hr : Rounds root T ess w ts w') (hv : ProperRounds root T ess v v') :
    SameContent v' w' ∧ WFWorld w' ∧ List.Forall₂ (fun es t => ∃ path, Collected (eventSows es) path t) ess ts := by
  induction hr generalizing v with
  | done => cases hv; exact ⟨hc, wf, .nil⟩
  | @more es ess w w1 fuel h t ts w' e hf epop _ ih =>
    cases hv with
    | @more _ _ _ v1 _ hp e2 hs hfree hv =>
      have R0 : SownOver [] w v := ⟨hc.1, fun l n _ => hc.2 l n, fun l n h => absurd rfl h⟩
      obtain ⟨v1', h2, R, wf1, wfv1⟩ := runEvents_sim es [] R0 wf wfv e hp.1 hp.2
      rw [e2] at h2
      obtain ⟨rfl, _⟩ := Prod.mk.inj h2
      have hrv : root < v1.heap.length := by rw [runEvents_len e2, ← hc.1.len]; exact hroot
      obtain ⟨t', path, ht, hc', _, hcol⟩ := pop_sown R wf1 hrv hs hfree hf epop
      obtain rfl : t = t' := by simpa using ht
      obtain ⟨hcp, hlen⟩ := confined_popState (A := fun _ => True) wf1 (fun _ _ _ _ _ => trivial) trivial epop
      obtain ⟨a, b, c⟩ := ih hcp.wf wfv1 hc' (by show root < h.length; rw [hlen, runEvents_len e]; exact hroot) hv
      exact ⟨a, b, .cons ⟨path, hcol⟩ c⟩

/-! ### Example: two calls of a model whose submodule sows its hidden value, while the model changes a variable -/

def exSowing (a b c : Nat) : List (CallEvent Nat) :=
  [.sow ⟨1, cIntermediate, py! "hidden", .data cArray a⟩, .assign 0 (py! "w") (.data cArray b),
   .sow ⟨1, cIntermediate, py! "hidden", .data cArray c⟩]

def exHidden (xs : List Nat) : PyVal Nat := .cont cIntermediate (.tup (xs.map (.data cArray))) [(py! "sharding", .none)]

/-- The hypotheses of `C108_rounds` are met, and the States are as it says. -/
example : ∃ ts w', Rounds 0 cIntermediate [exSowing 1 2 3, exSowing 4 5 6] exSharedWorld ts w' ∧
    ts = [⟨[(py! "b/hidden", exHidden [1, 3])]⟩, ⟨[(py! "b/hidden", exHidden [4, 6])]⟩] :=
  ⟨_, _, .more (fuel := 9) rfl (by decide) rfl <| .more (fuel := 9) rfl (by decide) rfl .done, rfl⟩

omit [DecidableEq α] in
theorem freeOf_of_all {h : Heap α} {T : Cls} (hall : ∀ o ∈ h, ∀ x ∈ o.attrs, ∀ v, x.2 = .val v → v.isInstance T = false) (root : Loc) :
    FreeOf h root T := by
  intro l n v _ hv _
  unfold attrAt at hv
  split at hv
  · next o ho => exact hall o (List.mem_of_getElem? ho) _ (dget_mem hv) v rfl
  · cases hv

/-- The example world, with the value `k` for the variable `w` of the model. -/
def exSowingWorld (k : Nat) : World Nat :=
  ⟨[⟨exCls (py! "Net"), [(py! "w", .val (exParam k)), (py! "b", .ref 1), (py! "a", .ref 1)], 7, false, ⟨0, 0⟩⟩,
    ⟨exCls (py! "Block"), [(py! "w", .val (exParam 5)), (py! "s", .val (exStat 6)), (py! "k", .val (.data cTuple 3))], 3, true, ⟨0, 0⟩⟩], 9, 0, []⟩

theorem exSowing_proper (k a b c : Nat) : ProperEvents (exSowing a b c) (exSowingWorld k) := by
  refine ⟨fun d hd => ?_, fun l n v h => ?_⟩
  · have : d.module = 1 ∧ d.name = py! "hidden" := by
      simp only [exSowing, eventSows, List.mem_cons, List.not_mem_nil, or_false] at hd
      rcases hd with rfl | rfl <;> exact ⟨rfl, rfl⟩
    rw [this.1, this.2]
    exact ⟨⟨by unfold NoSlash; decide, by decide⟩, rfl⟩
  · simp only [exSowing, List.mem_cons, List.not_mem_nil, or_false, reduceCtorEq, false_or, CallEvent.assign.injEq] at h
    obtain ⟨rfl, rfl, rfl⟩ := h
    exact ⟨⟨by unfold NoSlash; decide, by decide⟩, .inl trivial, by simp [sown, exSowing, eventSows]⟩

theorem exSowing_below (k a b c : Nat) : SowsBelow (exSowingWorld k).heap 0 cIntermediate (eventSows (exSowing a b c)) := by
  intro d hd
  have : d.module = 1 ∧ d.type = cIntermediate := by
    simp only [exSowing, eventSows, List.mem_cons, List.not_mem_nil, or_false] at hd
    rcases hd with rfl | rfl <;> exact ⟨rfl, rfl⟩
  rw [this.1, this.2]
  exact ⟨⟨[py! "b"], .step (b := 1) rfl (.here (Nat.lt_succ_self 1))⟩, by decide, by decide⟩

theorem exSowing_free (k : Nat) : FreeOf (exSowingWorld k).heap 0 cIntermediate := by
  apply freeOf_of_all
  intro o ho x hx v hv
  simp only [exSowingWorld, List.mem_cons, List.not_mem_nil, or_false] at ho
  rcases ho with rfl | rfl <;> simp only [List.mem_cons, List.not_mem_nil, or_false] at hx <;> rcases hx with rfl | rfl | rfl <;> cases hv <;> rfl

/-- The two calls meet the hypotheses of `C108_rounds`. -/
example : exSowingWorld 1 = exSharedWorld ∧
    ProperRounds 0 cIntermediate [exSowing 1 2 3, exSowing 4 5 6] (exSowingWorld 1) (exSowingWorld 5) :=
  ⟨rfl, .more (v1 := exSowingWorld 2) (exSowing_proper 1 1 2 3) rfl (exSowing_below 2 1 2 3) (exSowing_free 2) <|
    .more (v1 := exSowingWorld 5) (exSowing_proper 2 4 5 6) rfl (exSowing_below 5 4 5 6) (exSowing_free 5) .done⟩

end Nnx
