import Verif.Spec.ModuleThreads
import Verif.Proofs.GoodStates
import Verif.Props.ModuleGraph
/-
Property C115: threads that work on Modules without common parts do not disturb one another.
-/
namespace Nnx
variable {α : Type} [DecidableEq α]

/-- Two worlds that agree about the Modules of a set and about the traces. -/
structure AgreeWithin (A : Loc → Prop) (w x : World α) : Prop where
  heap : ∀ l, A l → w.heap[l]? = x.heap[l]?
  jax : w.jaxTrace = x.jaxTrace
  stack : w.nnxStack = x.nnxStack

omit [DecidableEq α] in
theorem AgreeWithin.valid {A : Loc → Prop} {w x : World α} (h : AgreeWithin A w x) (t : Trace) : w.traceValid t = x.traceValid t := by
  simp [World.traceValid, World.curTrace, h.jax, h.stack]

/-! ### The calls look at reachable Modules only -/

/-- The same exception, or worlds in this relation. -/
def BothOk (R : World α → World α → Prop) : Except Err (World α) → Except Err (World α) → Prop
  | .ok w, .ok x => R w x
  | .error e, .error f => e = f
  | _, _ => False

/-- What an assignment changes: nothing outside of `A`, and `A` stays self-contained; other sets as well. -/
structure StaysIn (A : Loc → Prop) (w w' : World α) : Prop where
  outside : ∀ l, ¬ A l → w'.heap[l]? = w.heap[l]?
  self : SelfContained w.heap A → SelfContained w'.heap A
  jax : w'.jaxTrace = w.jaxTrace
  stack : w'.nnxStack = w.nnxStack

theorem storedAttr_refs {old : Option (Attr α)} {a x : Attr α} (h : storedAttr old a = .ok x) {b : Loc} (hx : x = .ref b) : a = .ref b := by
  subst hx
  unfold storedAttr at h
  split at h
  · next c v m nv =>
    cases hr : replace (.cont c v m) [(py! "value", nv)] with
    | error e => rw [hr] at h; simp [Except.map] at h
    | ok y => rw [hr] at h; simp [Except.map] at h
  · simp at h
  · next c v m _ =>
    cases hr : copy (.cont c v m) with
    | error e => rw [hr] at h; simp [Except.map] at h
    | ok y => rw [hr] at h; simp [Except.map] at h
  · simpa using h

theorem setAttr_stays {A : Loc → Prop} {w w' : World α} {l : Loc} {n : Str} {a : Attr α} (hl : A l)
    (ha : ∀ b, a = .ref b → A b) (e : setAttr w l n a = .ok w') : StaysIn A w w' := by
  unfold setAttr at e
  split at e
  · simp at e
  · next o ho =>
    split at e
    · simp at e
    split at e
    · simp at e
    split at e
    · simp at e
    · next x hx =>
      simp only [Except.ok.injEq] at e
      subst e
      refine ⟨fun l' hl' => ?_, fun hc l' o' hl' ho' m b hm => ?_, rfl, rfl⟩
      · simp only [World.setAttrs]
        rw [List.getElem?_set, if_neg]
        rintro rfl; exact hl' hl
      · simp only [World.setAttrs] at ho'
        rw [List.getElem?_set] at ho'
        split at ho'
        · next heq =>
          subst heq
          split at ho'
          · simp only [Option.some.injEq] at ho'
            subst ho'
            rcases mem_dset_or hm with h1 | h1
            · simp only [Prod.mk.injEq] at h1
              exact ha b (storedAttr_refs hx h1.2.symm)
            · exact hc _ o hl ho m b h1
          · cases ho'
        · exact hc l' o' hl' ho' m b hm

theorem setAttr_agree {A : Loc → Prop} {w x : World α} (hag : AgreeWithin A w x) {l : Loc} {n : Str} {a : Attr α} (hl : A l) :
    BothOk (AgreeWithin A) (setAttr w l n a) (setAttr x l n a) := by
  unfold setAttr
  rw [← hag.heap l hl]
  cases ho : w.heap[l]? with
  | none => rfl
  | some o =>
    simp only [hag.valid]
    split
    · rfl
    split
    · rfl
    cases hs : storedAttr (dget o.attrs n) a with
    | error e => rfl
    | ok y =>
      refine ⟨fun l' hl' => ?_, hag.jax, hag.stack⟩
      simp only [World.setAttrs]
      have hlw : l < w.heap.length := (List.getElem?_eq_some_iff.1 ho).1
      have hlx : l < x.heap.length := (List.getElem?_eq_some_iff.1 (by rw [← hag.heap l hl]; exact ho)).1
      rw [List.getElem?_set, List.getElem?_set]
      split
      · simp
      · exact hag.heap l' hl'

omit [DecidableEq α] in
theorem varsGet_within {A : Loc → Prop} {h : Heap α} (hc : SelfContained h A) {l b : Loc} {n : Str} (hl : A l)
    (e : varsGet h l n = .ok (.ref b)) : A b := by
  unfold varsGet at e
  split at e
  · simp at e
  · next o ho =>
    split at e
    · simp at e
    · next a ha =>
      simp only [Except.ok.injEq] at e
      subst e
      exact hc l o hl ho n b (dget_mem ha)

theorem setValueAtPath_stays {A : Loc → Prop} {w : World α} (hc : SelfContained w.heap A) (v : PyVal α) :
    ∀ (p : List Str) (l : Loc) {w' : World α}, A l → setValueAtPath w (.ref l) p v = .ok w' → StaysIn A w w' := by
  intro p
  induction p with
  | nil => intro l w' _ e; simp [setValueAtPath] at e
  | cons n p ih =>
    intro l w' hl e
    cases p with
    | nil => exact setAttr_stays hl (by simp) e
    | cons n' p =>
      simp only [setValueAtPath] at e
      split at e
      · simp at e
      · next a ha =>
        cases a with
        | ref b => exact ih b (varsGet_within hc hl ha) e
        | val x => simp [setValueAtPath] at e

theorem setValueAtPath_agree {A : Loc → Prop} {w x : World α} (hc : SelfContained w.heap A) (hag : AgreeWithin A w x) (v : PyVal α) :
    ∀ (p : List Str) (l : Loc), A l → BothOk (AgreeWithin A) (setValueAtPath w (.ref l) p v) (setValueAtPath x (.ref l) p v) := by
  intro p
  induction p with
  | nil => intro l _; rfl
  | cons n p ih =>
    intro l hl
    cases p with
    | nil => exact setAttr_agree hag hl
    | cons n' p =>
      have hv : varsGet x.heap l n = varsGet w.heap l n := by simp only [varsGet, hag.heap l hl]
      simp only [setValueAtPath, hv]
      cases hg : varsGet w.heap l n with
      | error e => rfl
      | ok a =>
        cases a with
        | ref b => exact ih b (varsGet_within hc hl hg)
        | val y => rfl

/-! ### Schedules -/

/-- What is left to read names Modules of the set only. -/
def Reading.Within (A : Loc → Prop) (r : Reading α) : Prop :=
  ∀ fr ∈ r.stack, ∀ n b, (n, Attr.ref b) ∈ fr.rest → A b

omit [DecidableEq α] in
theorem enter_within {A : Loc → Prop} {h : Heap α} (hc : SelfContained h A) {fuel : Nat} {r r' : Reading α} (hr : r.Within A)
    {l : Loc} (hl : A l) {parts : List Str} (e : Reading.enter fuel h r l parts = some r') : r'.Within A := by
  unfold Reading.enter at e
  split at e
  · cases e
  split at e
  · cases e
  · next o ho =>
    split at e
    · cases e; exact hr
    · cases e
      intro fr hfr n b hb
      rcases List.mem_cons.1 hfr with rfl | hfr
      · exact hc l o hl ho n b ((sortItems_perm _).mem_iff.1 hb)
      · exact hr fr hfr n b hb

omit [DecidableEq α] in
theorem enter_agree {A : Loc → Prop} {h k : Heap α} (hag : ∀ l, A l → h[l]? = k[l]?) {fuel : Nat} {r : Reading α} {l : Loc} (hl : A l)
    {parts : List Str} : Reading.enter fuel h r l parts = Reading.enter fuel k r l parts := by
  unfold Reading.enter
  rw [hag l hl]

omit [DecidableEq α] in
theorem next_within {A : Loc → Prop} {h : Heap α} (hc : SelfContained h A) {fuel : Nat} {r r' : Reading α} (hr : r.Within A)
    (e : r.next fuel h = some r') : r'.Within A := by
  obtain ⟨seen, stack, out⟩ := r
  unfold Reading.next at e
  split at e
  · cases e; exact hr
  · next st _ =>
    simp only at *
    subst stack
    cases e
    exact fun fr hfr => hr fr (List.mem_cons_of_mem _ hfr)
  · next n l rest parts st _ =>
    simp only at *
    subst stack
    refine enter_within hc (r := ⟨seen, ⟨rest, parts⟩ :: st, out⟩) ?_ (hr _ List.mem_cons_self n l List.mem_cons_self) e
    intro fr hfr n' b hb
    rcases List.mem_cons.1 hfr with rfl | hfr
    · exact hr _ List.mem_cons_self n' b (List.mem_cons_of_mem _ hb)
    · exact hr fr (List.mem_cons_of_mem _ hfr) n' b hb
  · next n v rest parts st _ =>
    simp only at *
    subst stack
    cases e
    intro fr hfr n' b hb
    rcases List.mem_cons.1 hfr with rfl | hfr
    · exact hr _ List.mem_cons_self n' b (List.mem_cons_of_mem _ hb)
    · exact hr fr (List.mem_cons_of_mem _ hfr) n' b hb

omit [DecidableEq α] in
theorem next_agree {A : Loc → Prop} {h k : Heap α} (hag : ∀ l, A l → h[l]? = k[l]?) {fuel : Nat} {r : Reading α} (hr : r.Within A) :
    r.next fuel h = r.next fuel k := by
  obtain ⟨seen, stack, out⟩ := r
  unfold Reading.next
  split
  · rfl
  · rfl
  · next n l rest parts st _ =>
    simp only at *
    subst stack
    exact enter_agree hag (hr _ List.mem_cons_self n l List.mem_cons_self)
  · rfl

/-- What is left to pop names Modules of the set only. -/
def Popping.Within (A : Loc → Prop) (r : Popping α) : Prop :=
  ∀ fr ∈ r.stack, A fr.loc ∧ ∀ n b, (n, Attr.ref b) ∈ fr.rest → A b

omit [DecidableEq α] in
theorem popEnter_within {A : Loc → Prop} {h : Heap α} (hc : SelfContained h A) {fuel : Nat} {r r' : Popping α} (hr : r.Within A)
    {l : Loc} (hl : A l) {parts : List Str} (e : Popping.enter fuel h r l parts = .ok r') : r'.Within A := by
  unfold Popping.enter at e
  split at e
  · cases e
  split at e
  · cases e
  · next o ho =>
    split at e
    · cases e; exact hr
    · cases e
      intro fr hfr
      rcases List.mem_cons.1 hfr with rfl | hfr
      · exact ⟨hl, fun n b hb => hc l o hl ho n b hb⟩
      · exact hr fr hfr

omit [DecidableEq α] in
theorem popEnter_agree {A : Loc → Prop} {h k : Heap α} (hag : ∀ l, A l → h[l]? = k[l]?) {fuel : Nat} {r : Popping α} {l : Loc} (hl : A l)
    {parts : List Str} : Popping.enter fuel h r l parts = Popping.enter fuel k r l parts := by
  unfold Popping.enter
  rw [hag l hl]

omit [DecidableEq α] in
/-- `del` changes nothing outside of a set that has the Module. -/
theorem delAttr_stays {A : Loc → Prop} {h h' : Heap α} {l : Loc} {n : Str} (hl : A l) (e : delAttr h l n = .ok h') :
    (∀ l', ¬ A l' → h'[l']? = h[l']?) ∧ (SelfContained h A → SelfContained h' A) := by
  unfold delAttr at e
  split at e
  · cases e
  · next o ho =>
    split at e
    · cases e
      refine ⟨fun l' hl' => List.getElem?_set_ne (fun (h : l = l') => hl' (h ▸ hl)), fun hc l' o' hl' ho' n' b hb => ?_⟩
      rw [List.getElem?_set] at ho'
      split at ho'
      · next heq =>
        subst heq
        split at ho'
        · cases ho'
          exact hc l o hl ho n' b ((ddel_sublist _ _).subset hb)
        · cases ho'
      · exact hc l' o' hl' ho' n' b hb
    · cases e

omit [DecidableEq α] in
theorem delAttr_agree {A : Loc → Prop} {h k : Heap α} (hag : ∀ l, A l → h[l]? = k[l]?) {l : Loc} (hl : A l) (n : Str) :
    (∃ e, delAttr h l n = .error e ∧ delAttr k l n = .error e) ∨
      ∃ h' k', delAttr h l n = .ok h' ∧ delAttr k l n = .ok k' ∧ ∀ l, A l → h'[l]? = k'[l]? := by
  unfold delAttr
  rw [← hag l hl]
  cases ho : h[l]? with
  | none => exact .inl ⟨_, rfl, rfl⟩
  | some o =>
    simp only
    split
    · refine .inr ⟨_, _, rfl, rfl, fun l' hl' => ?_⟩
      have hlh : l < h.length := (List.getElem?_eq_some_iff.1 ho).1
      have hlk : l < k.length := (List.getElem?_eq_some_iff.1 (by rw [← hag l hl]; exact ho)).1
      rw [List.getElem?_set, List.getElem?_set]
      split
      · simp
      · exact hag l' hl'
    · exact .inl ⟨_, rfl, rfl⟩

omit [DecidableEq α] in
theorem popNext_within {A : Loc → Prop} {h h' : Heap α} (hc : SelfContained h A) {fuel : Nat} {r r' : Popping α} (hr : r.Within A)
    (e : r.next fuel h = .ok (h', r')) : (∀ l, ¬ A l → h'[l]? = h[l]?) ∧ SelfContained h' A ∧ r'.Within A := by
  obtain ⟨preds, index, stack, states⟩ := r
  have hpop : ∀ {l uid na rest parts st} {states' : List (Dict Str (PyVal α))}, stack = ⟨l, uid, na :: rest, parts⟩ :: st →
      (Popping.mk preds index (⟨l, uid, rest, parts⟩ :: st) states').Within A := by
    intro l uid na rest parts st states' hst fr hfr
    subst hst
    rcases List.mem_cons.1 hfr with rfl | hfr
    · exact ⟨(hr _ List.mem_cons_self).1, fun n' b hb => (hr _ List.mem_cons_self).2 n' b (List.mem_cons_of_mem _ hb)⟩
    · exact hr fr (List.mem_cons_of_mem _ hfr)
  unfold Popping.next at e
  split at e
  · cases e; exact ⟨fun _ _ => rfl, hc, hr⟩
  · next hst =>
    simp only at hst
    subst hst
    cases e
    exact ⟨fun _ _ => rfl, hc, fun fr hfr => hr fr (List.mem_cons_of_mem _ hfr)⟩
  · next l uid n l' rest parts st hst =>
    simp only at hst
    split at e
    · cases e
    · next r1 h1 =>
      cases e
      refine ⟨fun _ _ => rfl, hc, popEnter_within hc (hpop hst) ?_ h1⟩
      subst hst
      exact (hr _ List.mem_cons_self).2 n l' List.mem_cons_self
  · next l uid n v rest parts st hst =>
    simp only at hst
    split at e
    · split at e
      · cases e; exact ⟨fun _ _ => rfl, hc, hpop hst⟩
      · split at e
        · cases e
        · next h1 hd =>
          cases e
          have hl : A l := by
            subst hst
            exact (hr _ List.mem_cons_self).1
          exact ⟨(delAttr_stays hl hd).1, (delAttr_stays hl hd).2 hc, hpop hst⟩
    · cases e; exact ⟨fun _ _ => rfl, hc, hpop hst⟩

omit [DecidableEq α] in
theorem popNext_agree {A : Loc → Prop} {h k : Heap α} (hag : ∀ l, A l → h[l]? = k[l]?) {fuel : Nat} {r : Popping α} (hr : r.Within A) :
    (∃ e, r.next fuel h = .error e ∧ r.next fuel k = .error e) ∨
      ∃ h' k' r', r.next fuel h = .ok (h', r') ∧ r.next fuel k = .ok (k', r') ∧ ∀ l, A l → h'[l]? = k'[l]? := by
  obtain ⟨preds, index, stack, states⟩ := r
  unfold Popping.next
  split
  · exact .inr ⟨_, _, _, rfl, rfl, hag⟩
  · exact .inr ⟨_, _, _, rfl, rfl, hag⟩
  · next l uid n l' rest parts st hst =>
    simp only at hst
    subst hst
    rw [popEnter_agree hag ((hr _ List.mem_cons_self).2 n l' List.mem_cons_self)]
    split
    · exact .inl ⟨_, rfl, rfl⟩
    · exact .inr ⟨_, _, _, rfl, rfl, hag⟩
  · next l uid n v rest parts st hst =>
    simp only at hst
    subst hst
    split
    · split
      · exact .inr ⟨_, _, _, rfl, rfl, hag⟩
      · rcases delAttr_agree hag (hr _ List.mem_cons_self).1 n with ⟨e, h1, h2⟩ | ⟨h', k', h1, h2, h3⟩
        · rw [h1, h2]; exact .inl ⟨_, rfl, rfl⟩
        · rw [h1, h2]; exact .inr ⟨_, _, _, rfl, rfl, h3⟩
    · exact .inr ⟨_, _, _, rfl, rfl, hag⟩

/-- Where a thread is names Modules of the set only. -/
def ModPc.Within (A : Loc → Prop) : ModPc α → Prop
  | .idle => True
  | .pending c => c.Within A
  | .reading root _ r => A root ∧ r.Within A
  | .assigning root _ => A root
  | .walking root _ a _ _ => A root ∧ ∀ b, a = .ref b → A b
  | .popping r => r.Within A

/-- A thread keeps to the Modules of a set. -/
structure KeptIn (A : Loc → Prop) (t : Nat) (m : ModMachine α) : Prop where
  self : SelfContained m.world.heap A
  pc : (m.threads t).Within A

/-- An event of a thread changes Modules of a set only. -/
structure KeepsTo (A : Loc → Prop) (t : Nat) (m m' : ModMachine α) : Prop where
  outside : ∀ l, ¬ A l → m'.world.heap[l]? = m.world.heap[l]?
  self : SelfContained m'.world.heap A
  traces : m'.traces = m.traces
  pcs : ∀ u, u ≠ t → m'.threads u = m.threads u
  pc : (m'.threads t).Within A
  log : ∃ rs : List (ModResult α), m'.log = m.log ++ rs.map fun r => (t, r)

omit [DecidableEq α] in
theorem keeps_goto {A : Loc → Prop} {m : ModMachine α} {t : Nat} (hc : SelfContained m.world.heap A) {pc : ModPc α} (h : pc.Within A) :
    KeepsTo A t m (m.goto t pc) :=
  ⟨fun _ _ => rfl, hc, rfl, fun u hu => by simp [ModMachine.goto, hu], by simpa [ModMachine.goto] using h, [], by simp [ModMachine.goto]⟩

omit [DecidableEq α] in
theorem keeps_finish {A : Loc → Prop} {m : ModMachine α} {t : Nat} (hc : SelfContained m.world.heap A) {r : ModResult α} :
    KeepsTo A t m (m.finish t r) :=
  ⟨fun _ _ => rfl, hc, rfl, fun u hu => by simp [ModMachine.finish, ModMachine.goto, hu],
    by simp [ModMachine.finish, ModMachine.goto, ModPc.Within], [r], by simp [ModMachine.finish]⟩

omit [DecidableEq α] in
theorem KeepsTo.put {A : Loc → Prop} {m m' : ModMachine α} {t : Nat} (hk : KeepsTo A t m m') (hc : SelfContained m.world.heap A)
    {w : World α} (hs : StaysIn A (m.view t) w) : KeepsTo A t m (m'.put w.heap) :=
  ⟨hs.outside, hs.self hc, hk.traces, hk.pcs, hk.pc, hk.log⟩

omit [DecidableEq α] in
theorem keeps_read {A : Loc → Prop} {m : ModMachine α} {t : Nat} (hc : SelfContained m.world.heap A) {root : Loc}
    {us : Option (List (State (PyVal α)))} {r : Option (Reading α)} (hroot : A root) (h : ∀ r', r = some r' → r'.Within A) :
    KeepsTo A t m (m.read t root us r) := by
  cases r with
  | none => exact keeps_finish hc
  | some r => exact keeps_goto hc (pc := .reading root us r) ⟨hroot, h r rfl⟩

omit [DecidableEq α] in
theorem keeps_pop {A : Loc → Prop} {m : ModMachine α} {t : Nat} (hc : SelfContained m.world.heap A) {r : Except Err (Popping α)}
    (h : ∀ r', r = .ok r' → r'.Within A) : KeepsTo A t m (m.pop t r) := by
  cases r with
  | error e => exact keeps_finish hc
  | ok r => exact keeps_goto hc (pc := .popping r) (h r rfl)

omit [DecidableEq α] in
theorem KeepsTo.putHeap {A : Loc → Prop} {m m' : ModMachine α} {t : Nat} (hk : KeepsTo A t m m')
    {h : Heap α} (h1 : ∀ l, ¬ A l → h[l]? = m.world.heap[l]?) (h2 : SelfContained h A) : KeepsTo A t m (m'.put h) :=
  ⟨h1, h2, hk.traces, hk.pcs, hk.pc, hk.log⟩

theorem event_keeps {A : Loc → Prop} {fuel : Nat} {m : ModMachine α} {ev : ModEvent α} (hm : KeptIn A ev.thread m)
    (hown : ∀ t c, ev = .call t c → c.Within A) : KeepsTo A ev.thread m (modEvent fuel m ev) := by
  have hc := hm.self
  have hrefl : KeepsTo A ev.thread m m := ⟨fun _ _ => rfl, hc, rfl, fun _ _ => rfl, hm.pc, [], by simp⟩
  cases ev with
  | call t c =>
    simp only [modEvent, ModEvent.thread]
    split
    · exact keeps_goto hc (pc := .pending c) (hown t c rfl)
    · exact hrefl
  | abort t => exact keeps_goto hc (pc := .idle) trivial
  | step t =>
    simp only [modEvent, ModEvent.thread, modStep]
    have hpc : (m.threads t).Within A := hm.pc
    cases hp : m.threads t with
    | idle => exact hrefl
    | pending c =>
      rw [hp] at hpc
      cases c with
      | update root us => exact keeps_read hc hpc (fun r hr => enter_within hc (by intro fr h; cases h) hpc hr)
      | get root => exact keeps_read hc hpc (fun r hr => enter_within hc (by intro fr h; cases h) hpc hr)
      | set l n a =>
        simp only
        cases hs : setAttr (m.view t) l n a with
        | error e => exact keeps_finish hc
        | ok w =>
          have hst : StaysIn A (m.view t) w := by
            cases a with
            | ref b => exact setAttr_stays hpc.1 (by intro b' hb; cases hb; exact hpc.2) hs
            | val v => exact setAttr_stays hpc (by simp) hs
          exact (keeps_finish hc).put hc hst
      | pop root fs =>
        simp only
        split
        · exact keeps_finish hc
        split
        · exact keeps_finish hc
        · exact keeps_pop hc (fun r hr => popEnter_within hc (by intro fr h; cases h) hpc hr)
      | del l n =>
        simp only
        cases hs : delAttr m.world.heap l n with
        | error e => exact keeps_finish hc
        | ok h => exact (keeps_finish hc).putHeap (delAttr_stays hpc hs).1 ((delAttr_stays hpc hs).2 hc)
      | sow l vt n v =>
        simp only
        cases sowRead m.world.heap l vt n v with
        | error e => exact keeps_finish hc
        | ok x => exact keeps_goto hc (pc := .pending (.set l n (.val x))) hpc
    | popping r =>
      rw [hp] at hpc
      simp only
      split
      · exact keeps_finish hc
      cases hs : r.next fuel m.world.heap with
      | error e => exact keeps_finish hc
      | ok p =>
        obtain ⟨h1, h2, h3⟩ := popNext_within hc hpc hs
        exact (keeps_goto hc (pc := .popping p.2) h3).putHeap h1 h2
    | reading root us r =>
      rw [hp] at hpc
      simp only
      split
      · exact keeps_finish hc
      · exact keeps_goto hc (pc := .assigning root _) hpc.1
      · exact keeps_read hc hpc.1 (fun r' hr => next_within hc hpc.2 hr)
    | assigning root rest =>
      rw [hp] at hpc
      cases rest with
      | nil => exact keeps_finish hc
      | cons kv rest => exact keeps_goto hc (pc := .walking root rest (.ref root) _ _) ⟨hpc, fun b hb => by cases hb; exact hpc⟩
    | walking root rest a path v =>
      rw [hp] at hpc
      have hset : KeepsTo A t m (match setValueAtPath (m.view t) a path v with
          | .error e => m.finish t (.raised e)
          | .ok w => (m.goto t (.assigning root rest)).put w.heap) := by
        cases hs : setValueAtPath (m.view t) a path v with
        | error e => exact keeps_finish hc
        | ok w =>
          have hst : StaysIn A (m.view t) w := by
            cases a with
            | ref l => exact setValueAtPath_stays (w := m.view t) hc v _ _ (hpc.2 l rfl) hs
            | val x => cases path <;> simp [setValueAtPath] at hs
          exact (keeps_goto hc (pc := .assigning root rest) hpc.1).put hc hst
      cases a with
      | val x => exact hset
      | ref l =>
        match path with
        | [] => exact hset
        | [p] => exact hset
        | p :: q :: ps =>
          simp only
          cases hg : varsGet m.world.heap l p with
          | error e => exact keeps_finish hc
          | ok a => exact keeps_goto hc (pc := .walking root rest a _ _) ⟨hpc.1, fun b hb => varsGet_within hc (hpc.2 l rfl) (hb ▸ hg)⟩

/-- For thread `t`, the two machines look the same. -/
structure SameFor (A : Loc → Prop) (t : Nat) (m a : ModMachine α) : Prop where
  view : AgreeWithin A (m.view t) (a.view t)
  pc : m.threads t = a.threads t
  log : m.log.filter (fun e => e.1 == t) = a.log

theorem own_event_same {A : Loc → Prop} {fuel : Nat} {t : Nat} {m a : ModMachine α} (hm : KeptIn A t m)
    (hs : SameFor A t m a) {ev : ModEvent α} (ht : ev.thread = t) :
    SameFor A t (modEvent fuel m ev) (modEvent fuel a ev) := by
  have hheap : ∀ l, A l → m.world.heap[l]? = a.world.heap[l]? := hs.view.heap
  have hgoto : ∀ pc, SameFor A t (m.goto t pc) (a.goto t pc) := fun pc =>
    ⟨hs.view, by simp [ModMachine.goto], hs.log⟩
  have hfin : ∀ r, SameFor A t (m.finish t r) (a.finish t r) := fun r =>
    ⟨hs.view, by simp [ModMachine.finish, ModMachine.goto], by simp [ModMachine.finish, hs.log]⟩
  have hput : ∀ {m' a' : ModMachine α} {w x : World α}, SameFor A t m' a' → AgreeWithin A w x →
      SameFor A t (m'.put w.heap) (a'.put x.heap) := fun h1 h2 => ⟨⟨h2.heap, h1.view.jax, h1.view.stack⟩, h1.pc, h1.log⟩
  have hputHeap : ∀ {m' a' : ModMachine α} {h k : Heap α}, SameFor A t m' a' → (∀ l, A l → h[l]? = k[l]?) →
      SameFor A t (m'.put h) (a'.put k) := fun h1 h2 => ⟨⟨h2, h1.view.jax, h1.view.stack⟩, h1.pc, h1.log⟩
  have hread : ∀ root us r, SameFor A t (m.read t root us r) (a.read t root us r) := by
    intro root us r
    cases r with
    | none => exact hfin _
    | some r => exact hgoto _
  cases ev with
  | call t' c =>
    obtain rfl : t' = t := ht
    simp only [modEvent, ← hs.pc]
    split
    · exact hgoto _
    · exact hs
  | abort t' =>
    obtain rfl : t' = t := ht
    exact hgoto _
  | step t' =>
    obtain rfl : t' = t := ht
    have hpc := hm.pc
    simp only [modEvent, modStep, ← hs.pc]
    cases hp : m.threads t' with
    | idle => exact hs
    | pending c =>
      rw [hp] at hpc
      cases c with
      | update root us =>
        simp only
        rw [← enter_agree hheap hpc]
        exact hread _ _ _
      | get root =>
        simp only
        rw [← enter_agree hheap hpc]
        exact hread _ _ _
      | set l n x =>
        have hl : A l := by
          cases x with
          | ref b => exact hpc.1
          | val v => exact hpc
        have hb := setAttr_agree hs.view (n := n) (a := x) hl
        simp only
        revert hb
        cases setAttr (m.view t') l n x <;> cases setAttr (a.view t') l n x <;> intro hb
        · cases hb; exact hfin _
        · exact hb.elim
        · exact hb.elim
        · exact hput (hfin .done) hb
      | pop root fs =>
        simp only
        split
        · exact hfin _
        split
        · exact hfin _
        · rw [← popEnter_agree hheap hpc]
          cases Popping.enter fuel m.world.heap ⟨_, [], [], _⟩ root [] with
          | error e => exact hfin _
          | ok r => exact hgoto _
      | del l n =>
        simp only
        rcases delAttr_agree hheap hpc n with ⟨e, h1, h2⟩ | ⟨h', k', h1, h2, h3⟩
        · rw [h1, h2]; exact hfin _
        · rw [h1, h2]; exact hputHeap (hfin .done) h3
      | sow l vt n v =>
        have hv : sowRead a.world.heap l vt n v = sowRead m.world.heap l vt n v := by simp only [sowRead, hheap l hpc]
        simp only [hv]
        cases sowRead m.world.heap l vt n v with
        | error e => exact hfin _
        | ok x => exact hgoto _
    | popping r =>
      rw [hp] at hpc
      simp only
      split
      · exact hfin _
      rcases popNext_agree hheap (fuel := fuel) hpc with ⟨e, h1, h2⟩ | ⟨h', k', r', h1, h2, h3⟩
      · rw [h1, h2]; exact hfin _
      · rw [h1, h2]; exact hputHeap (hgoto (.popping r')) h3
    | reading root us r =>
      rw [hp] at hpc
      simp only
      split
      · exact hfin _
      · exact hgoto _
      · rw [← next_agree hheap hpc.2]
        exact hread _ _ _
    | assigning root rest =>
      cases rest with
      | nil => exact hfin _
      | cons kv rest => exact hgoto _
    | walking root rest x path v =>
      rw [hp] at hpc
      have hset : SameFor A t'
          (match setValueAtPath (m.view t') x path v with
            | .error e => m.finish t' (.raised e)
            | .ok w => (m.goto t' (.assigning root rest)).put w.heap)
          (match setValueAtPath (a.view t') x path v with
            | .error e => a.finish t' (.raised e)
            | .ok w => (a.goto t' (.assigning root rest)).put w.heap) := by
        have hb : BothOk (AgreeWithin A) (setValueAtPath (m.view t') x path v) (setValueAtPath (a.view t') x path v) := by
          cases x with
          | ref l => exact setValueAtPath_agree (w := m.view t') hm.self hs.view v path l (hpc.2 l rfl)
          | val y => cases path <;> exact rfl
        revert hb
        cases setValueAtPath (m.view t') x path v <;>
          cases setValueAtPath (a.view t') x path v <;> intro hb
        · cases hb; exact hfin _
        · exact hb.elim
        · exact hb.elim
        · exact hput (hgoto (.assigning root rest)) hb
      cases x with
      | val x => exact hset
      | ref l =>
        match path with
        | [] => exact hset
        | [p] => exact hset
        | p :: q :: ps =>
          have hv : varsGet a.world.heap l p = varsGet m.world.heap l p := by simp only [varsGet, hheap l (hpc.2 l rfl)]
          simp only [hv]
          cases varsGet m.world.heap l p with
          | error e => exact hfin _
          | ok a => exact hgoto _

/-- An event of another thread that leaves the Modules of the set alone. -/
structure OthersEvent (A : Loc → Prop) (u : Nat) (m m' : ModMachine α) : Prop where
  heap : ∀ l, A l → m'.world.heap[l]? = m.world.heap[l]?
  traces : m'.traces = m.traces
  pcs : ∀ t, t ≠ u → m'.threads t = m.threads t
  log : ∃ rs : List (ModResult α), m'.log = m.log ++ rs.map fun r => (u, r)

omit [DecidableEq α] in
theorem other_event_same {A : Loc → Prop} {t u : Nat} (htu : u ≠ t)
    {m m' a : ModMachine α} (hk : OthersEvent A u m m') (hs : SameFor A t m a) : SameFor A t m' a := by
  refine ⟨⟨fun l hl => ?_, ?_, ?_⟩, ?_, ?_⟩
  · show m'.world.heap[l]? = _
    rw [hk.heap l hl]; exact hs.view.heap l hl
  · show (m'.traces t).1 = _
    rw [hk.traces]; exact hs.view.jax
  · show (m'.traces t).2 = _
    rw [hk.traces]; exact hs.view.stack
  · rw [hk.pcs t (Ne.symm htu)]; exact hs.pc
  · obtain ⟨rs, hrs⟩ := hk.log
    rw [hrs, List.filter_append, hs.log]
    have : (rs.map fun r => (u, r)).filter (fun e => e.1 == t) = [] := by
      rw [List.filter_eq_nil_iff]
      intro e he
      obtain ⟨r, _, rfl⟩ := List.mem_map.1 he
      simpa using htu
    rw [this, List.append_nil]

omit [DecidableEq α] in
theorem OthersEvent.kept {A : Loc → Prop} {t u : Nat} (htu : u ≠ t) {m m' : ModMachine α} (hk : OthersEvent A u m m') (hm : KeptIn A t m) :
    KeptIn A t m' := by
  refine ⟨fun l o hl ho n b hb => ?_, by rw [hk.pcs t (Ne.symm htu)]; exact hm.pc⟩
  rw [hk.heap l hl] at ho
  exact hm.self l o hl ho n b hb

omit [DecidableEq α] in
theorem KeepsTo.others {A B : Loc → Prop} (hd : ∀ l, A l → ¬ B l) {u : Nat} {m m' : ModMachine α} (hk : KeepsTo B u m m') : OthersEvent A u m m' :=
  ⟨fun l hl => hk.outside l (hd l hl), hk.traces, hk.pcs, hk.log⟩

/-- Every thread keeps to its own Modules. -/
def KeptApart (A : Nat → Loc → Prop) (m : ModMachine α) : Prop := ∀ t, KeptIn (A t) t m

theorem event_apart {A : Nat → Loc → Prop} (hd : ∀ t u, t ≠ u → ∀ l, A t l → ¬ A u l) {fuel : Nat} {m : ModMachine α} (hm : KeptApart A m)
    {ev : ModEvent α} (hown : ∀ t c, ev = .call t c → c.Within (A t)) : KeptApart A (modEvent fuel m ev) := by
  intro t
  have hk := event_keeps (fuel := fuel) (hm ev.thread) (fun t c h => by subst h; exact hown t c rfl)
  by_cases ht : ev.thread = t
  · subst ht; exact ⟨hk.self, hk.pc⟩
  · exact (hk.others (hd t ev.thread (Ne.symm ht))).kept ht (hm t)

theorem events_same {A : Nat → Loc → Prop} (hd : ∀ t u, t ≠ u → ∀ l, A t l → ¬ A u l) (fuel t : Nat) :
    ∀ (evs : List (ModEvent α)) (m a : ModMachine α), KeptApart A m → SameFor (A t) t m a → OwnCalls A evs →
      SameFor (A t) t (modEvents fuel m evs) (modEvents fuel a (evs.filter fun ev => ev.thread == t)) := by
  intro evs
  induction evs with
  | nil => intro m a _ hs _; exact hs
  | cons ev evs ih =>
    intro m a hm hs hown
    have hown1 : ∀ t c, ev = .call t c → c.Within (A t) := fun t c h => hown t c (by rw [h]; exact List.mem_cons_self)
    have hown' : OwnCalls A evs := fun t c h => hown t c (List.mem_cons_of_mem _ h)
    have hm' := event_apart hd (fuel := fuel) hm hown1
    by_cases ht : ev.thread = t
    · rw [List.filter_cons_of_pos (by simpa using ht)]
      exact ih _ _ hm' (own_event_same (hm t) hs ht) hown'
    · rw [List.filter_cons_of_neg (by simpa using ht)]
      have hk := event_keeps (fuel := fuel) (hm ev.thread) (fun t c h => by subst h; exact hown1 t c rfl)
      exact ih _ _ hm' (other_event_same ht (hk.others (hd t ev.thread (Ne.symm ht))) hs) hown'

/-! ### C115 -/

/-- **C115.** Threads that assign attributes, update and read Modules, each thread within a set of Modules that
contains their submodules, where these sets are pairwise disjoint: in every schedule, for every thread, its calls
return (or raise) what they would if the other threads did not exist, its Modules are as they would be then, and it
is at the same point of the same call. -/
theorem C115_no_interference {w : World α} {A : Nat → Loc → Prop} (hself : ∀ t, SelfContained w.heap (A t))
    (hd : ∀ t u, t ≠ u → ∀ l, A t l → ¬ A u l) {evs : List (ModEvent α)} (hown : OwnCalls A evs) (tr : Nat → Nat × List Nat)
    (fuel t : Nat) :
    let m := modEvents fuel (.start w tr) evs
    let a := modEvents fuel (.start w tr) (evs.filter fun ev => ev.thread == t)
    (m.log.filter fun e => e.1 == t) = a.log ∧ (∀ l, A t l → m.world.heap[l]? = a.world.heap[l]?) ∧
      m.threads t = a.threads t := by
  have h := events_same hd fuel t evs (.start w tr) (.start w tr) (fun t => ⟨hself t, trivial⟩) ⟨⟨fun _ _ => rfl, rfl, rfl⟩, rfl, rfl⟩ hown
  exact ⟨h.log, h.view.heap, h.pc⟩

/-- A Module that belongs to no thread is not changed. -/
theorem C115_frame {w : World α} {A : Nat → Loc → Prop} (hself : ∀ t, SelfContained w.heap (A t))
    (hd : ∀ t u, t ≠ u → ∀ l, A t l → ¬ A u l) {evs : List (ModEvent α)} (hown : OwnCalls A evs) (tr : Nat → Nat × List Nat)
    (fuel : Nat) {l : Loc} (hl : ∀ t, ¬ A t l) : (modEvents fuel (.start w tr) evs).world.heap[l]? = w.heap[l]? := by
  have : ∀ (evs : List (ModEvent α)) (m : ModMachine α), KeptApart A m → OwnCalls A evs →
      (modEvents fuel m evs).world.heap[l]? = m.world.heap[l]? := by
    intro evs
    induction evs with
    | nil => intro m _ _; rfl
    | cons ev evs ih =>
      intro m hm hown
      have hown1 : ∀ t c, ev = .call t c → c.Within (A t) := fun t c h => hown t c (by rw [h]; exact List.mem_cons_self)
      have hk := event_keeps (fuel := fuel) (hm ev.thread) (fun t c h => by subst h; exact hown1 t c rfl)
      have := ih (modEvent fuel m ev) (event_apart hd hm hown1) (fun t c h => hown t c (List.mem_cons_of_mem _ h))
      exact this.trans (hk.outside l (hl _))
  exact this evs (.start w tr) (fun t => ⟨hself t, trivial⟩) hown

/-! ### One thread alone -/

/-- Steps of the thread lead from one machine to the other. -/
def AloneTo (fuel t : Nat) (m m' : ModMachine α) : Prop := ∃ k, modEvents fuel m (List.replicate k (.step t)) = m'

theorem AloneTo.refl (fuel t : Nat) (m : ModMachine α) : AloneTo fuel t m m := ⟨0, rfl⟩

theorem AloneTo.trans {fuel t : Nat} {a b c : ModMachine α} (h1 : AloneTo fuel t a b) (h2 : AloneTo fuel t b c) : AloneTo fuel t a c := by
  obtain ⟨k, rfl⟩ := h1
  obtain ⟨n, rfl⟩ := h2
  refine ⟨k + n, ?_⟩
  rw [List.replicate_add, modEvents, modEvents, modEvents, List.foldl_append]

theorem AloneTo.step {fuel t : Nat} {a b c : ModMachine α} (h1 : modStep fuel t a = b) (h2 : AloneTo fuel t b c) : AloneTo fuel t a c :=
  AloneTo.trans ⟨1, h1⟩ h2

omit [DecidableEq α] in
theorem goto_pc (m : ModMachine α) (t : Nat) (pc : ModPc α) : (m.goto t pc).threads t = pc := by simp [ModMachine.goto]

omit [DecidableEq α] in
theorem goto_goto (m : ModMachine α) (t : Nat) (pc pc' : ModPc α) : (m.goto t pc).goto t pc' = m.goto t pc' := by
  simp only [ModMachine.goto]
  congr 1
  funext u
  split <;> rfl

omit [DecidableEq α] in
theorem goto_finish (m : ModMachine α) (t : Nat) (pc : ModPc α) (r : ModResult α) : (m.goto t pc).finish t r = m.finish t r := by
  simp only [ModMachine.finish, goto_goto]
  rfl

omit [DecidableEq α] in
theorem goto_read (m : ModMachine α) (t : Nat) (pc : ModPc α) (root : Loc) (us : Option (List (State (PyVal α)))) (r : Option (Reading α)) :
    (m.goto t pc).read t root us r = m.read t root us r := by
  cases r with
  | none => exact goto_finish m t pc _
  | some r => exact goto_goto m t pc _

theorem step_reading (fuel : Nat) (m : ModMachine α) (t : Nat) (root : Loc) (us : Option (List (State (PyVal α)))) (seen : List Nat)
    (fr : ReadFrame α) (st : List (ReadFrame α)) (out : List (Str × PyVal α)) :
    modStep fuel t (m.goto t (.reading root us ⟨seen, fr :: st, out⟩)) =
      m.read t root us (Reading.next fuel m.world.heap ⟨seen, fr :: st, out⟩) := by
  unfold modStep
  rw [goto_pc]
  simp only
  rw [goto_read]
  rfl

/-- Reading attributes amounts to `iterStateAttrs`. -/
theorem read_runs (m : ModMachine α) (t : Nat) (root : Loc) (us : Option (List (State (PyVal α)))) (fuel : Nat) : ∀ (f : Nat)
    (as : List (Str × Attr α)) (seen : List Nat) (parts : List Str) (st : List (ReadFrame α)) (out : List (Str × PyVal α)),
    fuel = f + 1 + st.length →
    (iterStateAttrs (iterStateRec m.world.heap f) as seen parts = none →
      AloneTo fuel t (m.goto t (.reading root us ⟨seen, ⟨as, parts⟩ :: st, out⟩)) (m.finish t (.raised .recursionError))) ∧
    (∀ ys seen', iterStateAttrs (iterStateRec m.world.heap f) as seen parts = some (ys, seen') →
      AloneTo fuel t (m.goto t (.reading root us ⟨seen, ⟨as, parts⟩ :: st, out⟩)) (m.goto t (.reading root us ⟨seen', st, out ++ ys⟩))) := by
  intro f
  induction f with
  | zero =>
    intro as
    induction as with
    | nil =>
      intro seen parts st out _
      refine ⟨fun h => by simp [iterStateAttrs] at h, fun ys seen' h => ?_⟩
      simp only [iterStateAttrs, Option.some.injEq, Prod.mk.injEq] at h
      obtain ⟨rfl, rfl⟩ := h
      rw [List.append_nil]
      exact .step (step_reading ..) (.refl ..)
    | cons na as ih =>
      intro seen parts st out hfuel
      obtain ⟨n, a⟩ := na
      cases a with
      | ref l =>
        refine ⟨fun _ => .step (step_reading ..) ?_, fun ys seen' h => by simp [iterStateAttrs, iterStateRec] at h⟩
        have : Reading.next fuel m.world.heap ⟨seen, ⟨(n, .ref l) :: as, parts⟩ :: st, out⟩ = none := by
          simp only [Reading.next, Reading.enter]
          rw [if_pos (by rw [hfuel]; simp; omega)]
        rw [this]
        exact .refl ..
      | val v =>
        have hstep := step_reading fuel m t root us seen ⟨(n, .val v) :: as, parts⟩ st out
        simp only [Reading.next, ModMachine.read] at hstep
        obtain ⟨h1, h2⟩ := ih seen parts st (if v.isNode then out ++ [(joinSlash (parts ++ [n]), v)] else out) hfuel
        refine ⟨fun h => .step hstep (h1 ?_), fun ys seen' h => .step hstep ?_⟩
        · simp only [iterStateAttrs] at h
          split at h
          · assumption
          · split at h <;> cases h
        · simp only [iterStateAttrs] at h
          split at h
          · cases h
          · next zs s' hz =>
            split at h
            · next hv =>
              simp only [Option.some.injEq, Prod.mk.injEq] at h
              obtain ⟨rfl, rfl⟩ := h
              have := h2 zs s' hz
              rw [if_pos hv] at this ⊢
              rw [List.append_assoc] at this
              exact this
            · next hv =>
              simp only [Option.some.injEq, Prod.mk.injEq] at h
              obtain ⟨rfl, rfl⟩ := h
              exact (by simpa [hv] using h2 zs s' hz)
  | succ f ihf =>
    intro as
    induction as with
    | nil =>
      intro seen parts st out _
      refine ⟨fun h => by simp [iterStateAttrs] at h, fun ys seen' h => ?_⟩
      simp only [iterStateAttrs, Option.some.injEq, Prod.mk.injEq] at h
      obtain ⟨rfl, rfl⟩ := h
      rw [List.append_nil]
      exact .step (step_reading ..) (.refl ..)
    | cons na as ih =>
      intro seen parts st out hfuel
      obtain ⟨n, a⟩ := na
      cases a with
      | ref l =>
        have hstep := step_reading fuel m t root us seen ⟨(n, .ref l) :: as, parts⟩ st out
        simp only [Reading.next, Reading.enter] at hstep
        rw [if_neg (by rw [hfuel]; simp; omega)] at hstep
        rw [iterStateAttrs, iterStateRec]
        cases ho : m.world.heap[l]? with
        | none =>
          simp only [ho, ModMachine.read] at hstep
          exact ⟨fun _ => .step hstep (.refl ..), fun ys seen' h => by simp at h⟩
        | some o =>
          simp only [ho] at hstep
          by_cases hu : o.uid ∈ seen
          · simp only [hu, if_true, ModMachine.read] at hstep ⊢
            obtain ⟨h1, h2⟩ := ih seen parts st out hfuel
            refine ⟨fun h => .step hstep (h1 ?_), fun ys seen' h => .step hstep (h2 ys seen' ?_)⟩
            · split at h
              · assumption
              · cases h
            · split at h
              · cases h
              · next hz => rw [hz]; simpa using h
          · simp only [hu, if_false, ModMachine.read] at hstep ⊢
            obtain ⟨c1, c2⟩ := ihf (sortItems o.attrs) (seen ++ [o.uid]) (parts ++ [n]) (⟨as, parts⟩ :: st) out (by rw [hfuel]; simp; omega)
            cases hc : iterStateAttrs (iterStateRec m.world.heap f) (sortItems o.attrs) (seen ++ [o.uid]) (parts ++ [n]) with
            | none => exact ⟨fun _ => .step hstep (c1 hc), fun ys seen' h => by simp at h⟩
            | some p =>
              obtain ⟨ys, seen1⟩ := p
              have hr := (c2 ys seen1 hc)
              obtain ⟨h1, h2⟩ := ih seen1 parts st (out ++ ys) hfuel
              refine ⟨fun h => .step hstep (hr.trans (h1 ?_)), fun zs seen' h => .step hstep (hr.trans ?_)⟩
              · simp only at h
                split at h
                · assumption
                · cases h
              · simp only at h
                split at h
                · cases h
                · next ws s' hz =>
                  simp only [Option.some.injEq, Prod.mk.injEq] at h
                  obtain ⟨rfl, rfl⟩ := h
                  have := h2 ws s' hz
                  rw [List.append_assoc] at this
                  exact this
      | val v =>
        have hstep := step_reading fuel m t root us seen ⟨(n, .val v) :: as, parts⟩ st out
        simp only [Reading.next, ModMachine.read] at hstep
        obtain ⟨h1, h2⟩ := ih seen parts st (if v.isNode then out ++ [(joinSlash (parts ++ [n]), v)] else out) hfuel
        refine ⟨fun h => .step hstep (h1 ?_), fun ys seen' h => .step hstep ?_⟩
        · simp only [iterStateAttrs] at h
          split at h
          · assumption
          · split at h <;> cases h
        · simp only [iterStateAttrs] at h
          split at h
          · cases h
          · next zs s' hz =>
            split at h
            · next hv =>
              simp only [Option.some.injEq, Prod.mk.injEq] at h
              obtain ⟨rfl, rfl⟩ := h
              have := h2 zs s' hz
              rw [if_pos hv] at this ⊢
              rw [List.append_assoc] at this
              exact this
            · next hv =>
              simp only [Option.some.injEq, Prod.mk.injEq] at h
              obtain ⟨rfl, rfl⟩ := h
              exact (by simpa [hv] using h2 zs s' hz)

/-- Reading a Module amounts to `getState`. -/
theorem get_runs (m : ModMachine α) (t : Nat) (root : Loc) (us : Option (List (State (PyVal α)))) (fuel : Nat) :
    (getState fuel m.world.heap root = none →
      AloneTo fuel t (m.read t root us (Reading.enter fuel m.world.heap ⟨[], [], []⟩ root [])) (m.finish t (.raised .recursionError))) ∧
    (∀ s, getState fuel m.world.heap root = some s → ∃ seen out, s = .new out ∧
      AloneTo fuel t (m.read t root us (Reading.enter fuel m.world.heap ⟨[], [], []⟩ root [])) (m.goto t (.reading root us ⟨seen, [], out⟩))) := by
  unfold getState
  cases fuel with
  | zero =>
    simp only [iterStateRec, Reading.enter]
    refine ⟨fun _ => .refl .., fun s h => by simp at h⟩
  | succ f =>
    simp only [iterStateRec, Reading.enter, List.length_nil, Nat.le_zero, Nat.add_one_ne_zero, if_false]
    cases ho : m.world.heap[root]? with
    | none => exact ⟨fun _ => .refl .., fun s h => by simp at h⟩
    | some o =>
      simp only [List.not_mem_nil, if_false, List.nil_append]
      obtain ⟨h1, h2⟩ := read_runs m t root us (f + 1) f (sortItems o.attrs) [o.uid] [] [] [] (by simp)
      cases hc : iterStateAttrs (iterStateRec m.world.heap f) (sortItems o.attrs) [o.uid] [] with
      | none => exact ⟨fun _ => h1 hc, fun s h => by simp at h⟩
      | some p =>
        obtain ⟨ys, seen⟩ := p
        refine ⟨fun h => by simp at h, fun s h => ?_⟩
        simp only [Option.some.injEq] at h
        exact ⟨seen, ys, h.symm, h2 ys seen hc⟩

/-- An assignment changes the heap only. -/
theorem setValueAtPath_world (v : PyVal α) : ∀ (path : List Str) (a : Attr α) {w w' : World α},
    setValueAtPath w a path v = .ok w' → w' = { w with heap := w'.heap } := by
  intro path
  induction path with
  | nil => intro a w w' h; cases a <;> simp [setValueAtPath] at h
  | cons p ps ih =>
    intro a w w' h
    cases a with
    | val x => simp [setValueAtPath] at h
    | ref l =>
      cases ps with
      | nil =>
        simp only [setValueAtPath, setAttr] at h
        split at h
        · cases h
        split at h
        · cases h
        split at h
        · cases h
        split at h
        · cases h
        · cases h; rfl
      | cons q qs =>
        simp only [setValueAtPath] at h
        split at h
        · cases h
        · exact ih _ h

/-- Following a path and assigning amounts to `setValueAtPath`. -/
theorem walk_runs (fuel t : Nat) (m : ModMachine α) (root : Loc) (rest : List (Str × PyVal α)) (v : PyVal α) : ∀ (path : List Str) (a : Attr α),
    (∀ e, setValueAtPath (m.view t) a path v = .error e →
      AloneTo fuel t (m.goto t (.walking root rest a path v)) (m.finish t (.raised e))) ∧
    (∀ w, setValueAtPath (m.view t) a path v = .ok w →
      AloneTo fuel t (m.goto t (.walking root rest a path v)) ((m.goto t (.assigning root rest)).put w.heap)) := by
  intro path
  induction path with
  | nil =>
    intro a
    refine ⟨fun e h => .step (b := m.finish t (.raised e)) ?_ (.refl ..), fun w h => ?_⟩
    · unfold modStep
      rw [goto_pc]
      have hv : (m.goto t (.walking root rest a [] v)).view t = m.view t := rfl
      cases a <;> (simp only [hv, h]; exact goto_finish m t _ _)
    · cases a <;> simp [setValueAtPath] at h
  | cons p ps ih =>
    intro a
    have hlast : (∀ l q qs, a = .ref l → ps ≠ q :: qs) → _ := fun hne =>
      (show modStep fuel t (m.goto t (.walking root rest a (p :: ps) v)) = (match setValueAtPath (m.view t) a (p :: ps) v with
        | .error e => m.finish t (.raised e)
        | .ok w => (m.goto t (.assigning root rest)).put w.heap) by
        unfold modStep
        rw [goto_pc]
        cases a with
        | val x =>
          simp only [setValueAtPath]
          exact goto_finish ..
        | ref l =>
          cases ps with
          | cons q qs => exact (hne l q qs rfl rfl).elim
          | nil =>
            simp only
            show (match setValueAtPath (m.view t) (Attr.ref l) [p] v with
              | .error e => (m.goto t _).finish t (.raised e)
              | .ok w => ((m.goto t _).goto t (.assigning root rest)).put w.heap) = _
            cases setValueAtPath (m.view t) (Attr.ref l) [p] v with
            | error e => exact goto_finish ..
            | ok w => simp only [goto_goto])
    by_cases hcase : ∃ l q qs, a = .ref l ∧ ps = q :: qs
    · obtain ⟨l, q, qs, rfl, rfl⟩ := hcase
      have hstep : modStep fuel t (m.goto t (.walking root rest (.ref l) (p :: q :: qs) v)) = (match varsGet m.world.heap l p with
          | .error e => m.finish t (.raised e)
          | .ok a => m.goto t (.walking root rest a (q :: qs) v)) := by
        unfold modStep
        rw [goto_pc]
        simp only
        show (match varsGet m.world.heap l p with
          | .error e => (m.goto t _).finish t (.raised e)
          | .ok a => (m.goto t _).goto t (.walking root rest a (q :: qs) v)) = _
        cases varsGet m.world.heap l p with
        | error e => exact goto_finish ..
        | ok a => exact goto_goto ..
      simp only [setValueAtPath, show (m.view t).heap = m.world.heap from rfl]
      cases hg : varsGet m.world.heap l p with
      | error e =>
        rw [hg] at hstep
        exact ⟨fun e' h => by cases h; exact .step hstep (.refl ..), fun w h => by cases h⟩
      | ok a =>
        rw [hg] at hstep
        exact ⟨fun e h => .step hstep ((ih a).1 e h), fun w h => .step hstep ((ih a).2 w h)⟩
    · have hl := hlast (fun l q qs h1 h2 => hcase ⟨l, q, qs, h1, h2⟩)
      refine ⟨fun e h => ?_, fun w h => ?_⟩
      · rw [h] at hl; exact .step hl (.refl ..)
      · rw [h] at hl; exact .step hl (.refl ..)

/-- Assigning one entry after the other amounts to `assignAll`. -/
theorem assigning_runs (fuel t : Nat) (root : Loc) : ∀ (es : List (Str × PyVal α)) (m : ModMachine α),
    AloneTo fuel t (m.goto t (.assigning root es))
      ((m.finish t (.outcome (assignAll root es (m.view t)).2)).put (assignAll root es (m.view t)).1.heap) := by
  intro es
  induction es with
  | nil =>
    intro m
    refine .step (b := m.finish t .done) ?_ (.refl ..)
    unfold modStep
    rw [goto_pc]
    exact goto_finish ..
  | cons kv es ih =>
    intro m
    obtain ⟨k, v⟩ := kv
    have hstep : modStep fuel t (m.goto t (.assigning root ((k, v) :: es))) = m.goto t (.walking root es (.ref root) (splitSlash k) v) := by
      unfold modStep
      rw [goto_pc]
      exact goto_goto ..
    obtain ⟨h1, h2⟩ := walk_runs fuel t m root es v (splitSlash k) (.ref root)
    refine .step hstep ?_
    cases hs : setValueAtPath (m.view t) (.ref root) (splitSlash k) v with
    | error e =>
      simp only [assignAll, hs, ModResult.outcome]
      exact h1 e hs
    | ok w =>
      simp only [assignAll, hs]
      have hv : (m.put w.heap).view t = w := (setValueAtPath_world _ _ _ hs).symm
      have := ih (m.put w.heap)
      rw [hv] at this
      exact (h2 w hs).trans this

/-- **C115, without overlap.** At any point where the thread is outside of its calls: if it calls
`m.update_state(us)` and makes all the steps of this call, with no event of another thread between them, the Modules
are changed as `update_state` does, its outcome is returned, and the other threads are where they were. -/
theorem C115_atomic (m : ModMachine α) (fuel t : Nat) (ht : m.threads t = .idle) (root : Loc) (us : List (State (PyVal α))) :
    ∃ k, let m' := modEvents fuel m (.call t (.update root us) :: List.replicate k (.step t))
      m'.world.heap = (updateState fuel root us (m.view t)).1.heap ∧ (∀ u, m'.threads u = m.threads u) ∧
      m'.log = m.log ++ [(t, ModResult.outcome (updateState fuel root us (m.view t)).2)] := by
  have hidle : ∀ r, (m.finish t r).threads = m.threads := fun r => by
    funext u
    simp only [ModMachine.finish, ModMachine.goto]
    split
    · next h => rw [h, ht]
    · rfl
  have hcall : modEvent fuel m (.call t (.update root us)) = m.goto t (.pending (.update root us)) := by simp [modEvent, ht]
  have hstep : modStep fuel t (m.goto t (.pending (.update root us))) =
      m.read t root (some us) (Reading.enter fuel m.world.heap ⟨[], [], []⟩ root []) := by
    unfold modStep
    rw [goto_pc]
    exact goto_read ..
  obtain ⟨h1, h2⟩ := get_runs m t root (some us) fuel
  suffices h : AloneTo fuel t (m.goto t (.pending (.update root us)))
      ((m.finish t (.outcome (updateState fuel root us (m.view t)).2)).put (updateState fuel root us (m.view t)).1.heap) by
    obtain ⟨k, hk⟩ := h
    refine ⟨k, ?_⟩
    have : modEvents fuel m (.call t (.update root us) :: List.replicate k (.step t)) =
        modEvents fuel (m.goto t (.pending (.update root us))) (List.replicate k (.step t)) := by
      rw [← hcall]; rfl
    simp only [this, hk]
    exact ⟨rfl, fun u => congrFun (hidle (.outcome (updateState fuel root us (m.view t)).2)) u, rfl⟩
  refine .step hstep ?_
  cases hs : getState fuel m.world.heap root with
  | none =>
    simp only [updateState, show getState fuel (m.view t).heap root = none from hs]
    exact h1 hs
  | some s =>
    obtain ⟨seen, out, rfl, hr⟩ := h2 s hs
    refine hr.trans (.step (b := m.goto t (.assigning root ((State.new out :: us).foldl (fun d u => dupdate d u.items) []))) ?_ ?_)
    · unfold modStep
      rw [goto_pc]
      exact goto_goto ..
    · simp only [updateState, show getState fuel (m.view t).heap root = some (.new out) from hs, updateModule]
      exact assigning_runs fuel t root _ m

/-- **C115, a read without overlap** returns the state of the Module. -/
theorem C115_atomic_get (m : ModMachine α) (fuel t : Nat) (ht : m.threads t = .idle) (root : Loc) :
    ∃ k, let m' := modEvents fuel m (.call t (.get root) :: List.replicate k (.step t))
      m'.world = m.world ∧ (∀ u, m'.threads u = m.threads u) ∧
      (∀ s, getState fuel m.world.heap root = some s → m'.log = m.log ++ [(t, .state s)]) ∧
      (getState fuel m.world.heap root = none → m'.log = m.log ++ [(t, .raised .recursionError)]) := by
  have hidle : ∀ r, (m.finish t r).threads = m.threads := fun r => by
    funext u
    simp only [ModMachine.finish, ModMachine.goto]
    split
    · next h => rw [h, ht]
    · rfl
  have hcall : modEvent fuel m (.call t (.get root)) = m.goto t (.pending (.get root)) := by simp [modEvent, ht]
  have hstep : modStep fuel t (m.goto t (.pending (.get root))) =
      m.read t root none (Reading.enter fuel m.world.heap ⟨[], [], []⟩ root []) := by
    unfold modStep
    rw [goto_pc]
    exact goto_read ..
  obtain ⟨h1, h2⟩ := get_runs m t root none fuel
  suffices h : ∀ r, (∀ s, getState fuel m.world.heap root = some s → r = .state s) → (getState fuel m.world.heap root = none → r = .raised .recursionError) →
      AloneTo fuel t (m.goto t (.pending (.get root))) (m.finish t r) by
    cases hs : getState fuel m.world.heap root with
    | none =>
      obtain ⟨k, hk⟩ := h (.raised .recursionError) (by simp [hs]) (by simp)
      refine ⟨k, ?_⟩
      have : modEvents fuel m (.call t (.get root) :: List.replicate k (.step t)) =
          modEvents fuel (m.goto t (.pending (.get root))) (List.replicate k (.step t)) := by
        rw [← hcall]; rfl
      simp only [this, hk]
      exact ⟨rfl, fun u => congrFun (hidle _) u, by simp, fun _ => rfl⟩
    | some s =>
      obtain ⟨k, hk⟩ := h (.state s) (by simp [hs]) (by simp [hs])
      refine ⟨k, ?_⟩
      have : modEvents fuel m (.call t (.get root) :: List.replicate k (.step t)) =
          modEvents fuel (m.goto t (.pending (.get root))) (List.replicate k (.step t)) := by
        rw [← hcall]; rfl
      simp only [this, hk]
      exact ⟨rfl, fun u => congrFun (hidle _) u, fun s' hs' => by cases hs'; rfl, by simp⟩
  intro r hr1 hr2
  refine .step hstep ?_
  cases hs : getState fuel m.world.heap root with
  | none =>
    rw [hr2 hs]
    exact h1 hs
  | some s =>
    rw [hr1 s hs]
    obtain ⟨seen, out, rfl, hr⟩ := h2 s hs
    refine hr.trans (.step (b := m.finish t (.state (.new out))) ?_ (.refl ..))
    unfold modStep
    rw [goto_pc]
    exact goto_finish ..

omit [DecidableEq α] in
theorem goto_put (m : ModMachine α) (t : Nat) (pc : ModPc α) (h : Heap α) : (m.goto t pc).put h = (m.put h).goto t pc := rfl

theorem step_popping (fuel : Nat) (m : ModMachine α) (t : Nat) (r : Popping α) (hr : r.stack ≠ []) :
    modStep fuel t (m.goto t (.popping r)) = (match r.next fuel m.world.heap with
      | .error e => m.finish t (.raised e)
      | .ok (h, r) => (m.put h).goto t (.popping r)) := by
  unfold modStep
  rw [goto_pc]
  simp only
  split
  · contradiction
  · rw [show (m.goto t (.popping r)).world = m.world from rfl]
    cases r.next fuel m.world.heap with
    | error e => exact goto_finish ..
    | ok p => simp only [goto_goto, goto_put]

omit [DecidableEq α] in
theorem goto_pop (m : ModMachine α) (t : Nat) (pc : ModPc α) (r : Except Err (Popping α)) : (m.goto t pc).pop t r = m.pop t r := by
  cases r with
  | error e => exact goto_finish m t pc _
  | ok r => exact goto_goto m t pc _

theorem pop_val_runs {fuel t f : Nat} {preds : List (Pred α)} {l : Loc} {uid : Nat} {n : Str} {v : PyVal α} {as : List (Str × Attr α)}
    {m : ModMachine α} {idx : List Nat} {parts : List Str} {st : List (PopFrame α)} {states : List (Dict Str (PyVal α))}
    (hstep : modStep fuel t (m.goto t (.popping ⟨preds, idx, ⟨l, uid, (n, .val v) :: as, parts⟩ :: st, states⟩)) =
      match Popping.next fuel m.world.heap ⟨preds, idx, ⟨l, uid, (n, .val v) :: as, parts⟩ :: st, states⟩ with
      | .error e => m.finish t (.raised e)
      | .ok (h, r) => (m.put h).goto t (.popping r))
    (ih : ∀ (m : ModMachine α) states,
      (∀ h' e, popAttrs (popRec preds f) preds l as m.world.heap idx parts states = (h', .error e) →
        AloneTo fuel t (m.goto t (.popping ⟨preds, idx, ⟨l, uid, as, parts⟩ :: st, states⟩)) ((m.put h').finish t (.raised e))) ∧
      (∀ h' idx' states', popAttrs (popRec preds f) preds l as m.world.heap idx parts states = (h', .ok (idx', states')) →
        AloneTo fuel t (m.goto t (.popping ⟨preds, idx, ⟨l, uid, as, parts⟩ :: st, states⟩))
          ((m.put h').goto t (.popping ⟨preds, idx' ++ [uid], st, states'⟩)))) :
    (∀ h' e, popAttrs (popRec preds f) preds l ((n, .val v) :: as) m.world.heap idx parts states = (h', .error e) →
      AloneTo fuel t (m.goto t (.popping ⟨preds, idx, ⟨l, uid, (n, .val v) :: as, parts⟩ :: st, states⟩)) ((m.put h').finish t (.raised e))) ∧
    (∀ h' idx' states', popAttrs (popRec preds f) preds l ((n, .val v) :: as) m.world.heap idx parts states = (h', .ok (idx', states')) →
      AloneTo fuel t (m.goto t (.popping ⟨preds, idx, ⟨l, uid, (n, .val v) :: as, parts⟩ :: st, states⟩))
        ((m.put h').goto t (.popping ⟨preds, idx' ++ [uid], st, states'⟩))) := by
  simp only [Popping.next] at hstep
  simp only [popAttrs]
  by_cases hv : v.isNode
  · simp only [hv, if_true] at hstep ⊢
    cases hi : popInsert preds states (joinSlash (parts ++ [n])) v with
    | none =>
      simp only [hi] at hstep ⊢
      exact ⟨fun h' e h => .step hstep ((ih m states).1 h' e h), fun h' idx' states' h => .step hstep ((ih m states).2 h' idx' states' h)⟩
    | some states1 =>
      simp only [hi] at hstep ⊢
      cases hd : delAttr m.world.heap l n with
      | error e1 =>
        simp only [hd] at hstep ⊢
        refine ⟨fun h' e h => ?_, fun h' idx' states' h => by simp at h⟩
        simp only [Prod.mk.injEq, Except.error.injEq] at h
        obtain ⟨rfl, rfl⟩ := h
        exact .step hstep (.refl ..)
      | ok h1 =>
        simp only [hd] at hstep ⊢
        exact ⟨fun h' e h => .step hstep ((ih (m.put h1) states1).1 h' e h),
          fun h' idx' states' h => .step hstep ((ih (m.put h1) states1).2 h' idx' states' h)⟩
  · simp only [hv] at hstep ⊢
    exact ⟨fun h' e h => .step hstep ((ih m states).1 h' e h), fun h' idx' states' h => .step hstep ((ih m states).2 h' idx' states' h)⟩

/-- Popping attributes amounts to `popAttrs`. -/
theorem pop_runs (t : Nat) (preds : List (Pred α)) (fuel : Nat) : ∀ (f : Nat) (l : Loc) (uid : Nat)
    (as : List (Str × Attr α)) (m : ModMachine α) (idx : List Nat) (parts : List Str) (st : List (PopFrame α)) (states : List (Dict Str (PyVal α))),
    fuel = f + 1 + st.length →
    (∀ h' e, popAttrs (popRec preds f) preds l as m.world.heap idx parts states = (h', .error e) →
      AloneTo fuel t (m.goto t (.popping ⟨preds, idx, ⟨l, uid, as, parts⟩ :: st, states⟩)) ((m.put h').finish t (.raised e))) ∧
    (∀ h' idx' states', popAttrs (popRec preds f) preds l as m.world.heap idx parts states = (h', .ok (idx', states')) →
      AloneTo fuel t (m.goto t (.popping ⟨preds, idx, ⟨l, uid, as, parts⟩ :: st, states⟩))
        ((m.put h').goto t (.popping ⟨preds, idx' ++ [uid], st, states'⟩))) := by
  intro f
  induction f with
  | zero =>
    intro l uid as
    induction as with
    | nil =>
      intro m idx parts st states _
      refine ⟨fun h' e h => by simp [popAttrs] at h, fun h' idx' states' h => ?_⟩
      simp only [popAttrs, Prod.mk.injEq, Except.ok.injEq] at h
      obtain ⟨rfl, rfl, rfl⟩ := h
      exact .step (step_popping _ _ _ _ (by simp)) (.refl ..)
    | cons na as ih =>
      intro m idx parts st states hfuel
      obtain ⟨n, a⟩ := na
      have hstep := step_popping fuel m t ⟨preds, idx, ⟨l, uid, (n, a) :: as, parts⟩ :: st, states⟩ (by simp)
      cases a with
      | ref l' =>
        simp only [Popping.next, Popping.enter] at hstep
        rw [if_pos (by rw [hfuel]; simp; omega)] at hstep
        simp only [popAttrs, popRec]
        refine ⟨fun h' e h => ?_, fun h' idx' states' h => by simp at h⟩
        simp only [Prod.mk.injEq, Except.error.injEq] at h
        obtain ⟨rfl, rfl⟩ := h
        exact .step hstep (.refl ..)
      | val v => exact pop_val_runs hstep (fun m states => ih m idx parts st states hfuel)
  | succ f ihf =>
    intro l uid as
    induction as with
    | nil =>
      intro m idx parts st states _
      refine ⟨fun h' e h => by simp [popAttrs] at h, fun h' idx' states' h => ?_⟩
      simp only [popAttrs, Prod.mk.injEq, Except.ok.injEq] at h
      obtain ⟨rfl, rfl, rfl⟩ := h
      exact .step (step_popping _ _ _ _ (by simp)) (.refl ..)
    | cons na as ih =>
      intro m idx parts st states hfuel
      obtain ⟨n, a⟩ := na
      have hstep := step_popping fuel m t ⟨preds, idx, ⟨l, uid, (n, a) :: as, parts⟩ :: st, states⟩ (by simp)
      cases a with
      | ref l' =>
        simp only [Popping.next, Popping.enter] at hstep
        rw [if_neg (by rw [hfuel]; simp; omega)] at hstep
        rw [popAttrs, popRec]
        cases ho : m.world.heap[l']? with
        | none =>
          simp only [ho] at hstep
          refine ⟨fun h' e h => ?_, fun h' idx' states' h => by simp at h⟩
          simp only [Prod.mk.injEq, Except.error.injEq] at h
          obtain ⟨rfl, rfl⟩ := h
          exact .step hstep (.refl ..)
        | some o =>
          simp only [ho] at hstep
          by_cases hu : o.uid ∈ idx
          · simp only [hu, if_true] at hstep ⊢
            obtain ⟨h1, h2⟩ := ih m idx parts st states hfuel
            exact ⟨fun h' e h => .step hstep (h1 h' e h), fun h' idx' states' h => .step hstep (h2 h' idx' states' h)⟩
          · simp only [hu, if_false] at hstep ⊢
            obtain ⟨c1, c2⟩ := ihf l' o.uid o.attrs m idx (parts ++ [n]) (⟨l, uid, as, parts⟩ :: st) states (by rw [hfuel]; simp; omega)
            cases hc : popAttrs (popRec preds f) preds l' o.attrs m.world.heap idx (parts ++ [n]) states with
            | mk h1 r1 =>
              cases r1 with
              | error e1 =>
                refine ⟨fun h' e h => ?_, fun h' idx' states' h => by simp at h⟩
                simp only [Prod.mk.injEq, Except.error.injEq] at h
                obtain ⟨rfl, rfl⟩ := h
                exact .step hstep (c1 _ _ hc)
              | ok p =>
                obtain ⟨idx1, states1⟩ := p
                obtain ⟨d1, d2⟩ := ih (m.put h1) (idx1 ++ [o.uid]) parts st states1 hfuel
                exact ⟨fun h' e h => .step hstep ((c2 _ _ _ hc).trans (d1 h' e h)),
                  fun h' idx' states' h => .step hstep ((c2 _ _ _ hc).trans (d2 h' idx' states' h))⟩
      | val v => exact pop_val_runs hstep (fun m states => ih m idx parts st states hfuel)

/-- **C115, `pop_state` without overlap** removes and returns what `pop_state` does. -/
theorem C115_atomic_pop (m : ModMachine α) (fuel t : Nat) (ht : m.threads t = .idle) (root : Loc) (fs : List (Filter α)) :
    ∃ k, let m' := modEvents fuel m (.call t (.pop root fs) :: List.replicate k (.step t))
      m'.world.heap = (popState fuel root fs m.world.heap).1 ∧ (∀ u, m'.threads u = m.threads u) ∧
      m'.log = m.log ++ [(t, ModResult.popped (popState fuel root fs m.world.heap).2)] := by
  have hidle : ∀ (m : ModMachine α) r, m.threads t = .idle → (m.finish t r).threads = m.threads := fun m r ht => by
    funext u
    simp only [ModMachine.finish, ModMachine.goto]
    split
    · next h => rw [h, ht]
    · rfl
  have hcall : modEvent fuel m (.call t (.pop root fs)) = m.goto t (.pending (.pop root fs)) := by simp [modEvent, ht]
  suffices h : AloneTo fuel t (m.goto t (.pending (.pop root fs)))
      ((m.put (popState fuel root fs m.world.heap).1).finish t (.popped (popState fuel root fs m.world.heap).2)) by
    obtain ⟨k, hk⟩ := h
    refine ⟨k, ?_⟩
    have : modEvents fuel m (.call t (.pop root fs) :: List.replicate k (.step t)) =
        modEvents fuel (m.goto t (.pending (.pop root fs))) (List.replicate k (.step t)) := by
      rw [← hcall]; rfl
    simp only [this, hk]
    exact ⟨rfl, fun u => congrFun (hidle _ (.popped (popState fuel root fs m.world.heap).2) ht) u, rfl⟩
  have hstep : modStep fuel t (m.goto t (.pending (.pop root fs))) =
      if fs.isEmpty then m.finish t (.raised .valueError)
      else
        match toPredicates fs with
        | .error e => m.finish t (.raised e)
        | .ok preds => m.pop t (Popping.enter fuel m.world.heap ⟨preds, [], [], List.replicate preds.length []⟩ root []) := by
    unfold modStep
    rw [goto_pc]
    simp only [goto_finish]
    split
    · rfl
    cases toPredicates fs with
    | error e => rfl
    | ok preds =>
      simp only
      rw [goto_pop]
      rfl
  refine .step hstep ?_
  unfold popState
  split
  · exact .refl ..
  cases hp : toPredicates fs with
  | error e => exact .refl ..
  | ok preds =>
    simp only
    cases fuel with
    | zero =>
      simp only [popRec, Popping.enter]
      exact .refl ..
    | succ f =>
      simp only [popRec, Popping.enter, List.length_nil, Nat.le_zero, Nat.add_one_ne_zero, if_false]
      cases ho : m.world.heap[root]? with
      | none => exact .refl ..
      | some o =>
        simp only [List.not_mem_nil, if_false]
        obtain ⟨h1, h2⟩ := pop_runs t preds (f + 1) f root o.uid o.attrs m [] [] [] (List.replicate preds.length []) (by simp)
        cases hc : popAttrs (popRec preds f) preds root o.attrs m.world.heap [] [] (List.replicate preds.length []) with
        | mk h' r =>
          cases r with
          | error e => exact h1 _ _ hc
          | ok p =>
            obtain ⟨idx, states⟩ := p
            refine (h2 _ _ _ hc).trans (.step (b := (m.put h').finish t (.states (states.map .new))) ?_ (.refl ..))
            unfold modStep
            rw [goto_pc]
            exact goto_finish ..

/-- `sow` reads, then assigns. -/
theorem sow_eq (l : Loc) (vt : Cls) (n : Str) (v : PyVal α) (w : World α) :
    sow l vt n v w = match sowRead w.heap l vt n v with
      | .error e => .error e
      | .ok x => setAttr w l n (.val x) := by
  unfold sow sowRead
  cases w.heap[l]? with
  | none => rfl
  | some o =>
    simp only
    by_cases h : n = py! "_module__state"
    · rw [if_pos h, if_pos h]
    rw [if_neg h, if_neg h]
    cases dget o.attrs n with
    | none =>
      simp only
      split
      · rfl
      · rfl
    | some a =>
      cases a with
      | ref b => rfl
      | val x =>
        cases x <;> try rfl
        next c cur md =>
        simp only
        split
        · rfl
        split
        · rfl
        cases cur <;> rfl

/-- **C115, `sow` without overlap.** -/
theorem C115_atomic_sow (m : ModMachine α) (fuel t : Nat) (ht : m.threads t = .idle) (l : Loc) (vt : Cls) (n : Str) (v : PyVal α) :
    ∃ k, let m' := modEvents fuel m (.call t (.sow l vt n v) :: List.replicate k (.step t))
      (∀ u, m'.threads u = m.threads u) ∧
      (∀ w, sow l vt n v (m.view t) = .ok w → m'.world.heap = w.heap ∧ m'.log = m.log ++ [(t, .done)]) ∧
      (∀ e, sow l vt n v (m.view t) = .error e → m'.world.heap = m.world.heap ∧ m'.log = m.log ++ [(t, .raised e)]) := by
  have hidle : ∀ r, (m.finish t r).threads = m.threads := fun r => by
    funext u
    simp only [ModMachine.finish, ModMachine.goto]
    split
    · next h => rw [h, ht]
    · rfl
  have hcall : modEvent fuel m (.call t (.sow l vt n v)) = m.goto t (.pending (.sow l vt n v)) := by simp [modEvent, ht]
  have hstep : modStep fuel t (m.goto t (.pending (.sow l vt n v))) =
      match sowRead m.world.heap l vt n v with
      | .error e => m.finish t (.raised e)
      | .ok x => m.goto t (.pending (.set l n (.val x))) := by
    unfold modStep
    rw [goto_pc]
    simp only [goto_finish, goto_goto]
    rfl
  have hset : ∀ x, modStep fuel t (m.goto t (.pending (.set l n (.val x)))) =
      match setAttr (m.view t) l n (.val x) with
      | .error e => m.finish t (.raised e)
      | .ok w => (m.finish t .done).put w.heap := by
    intro x
    unfold modStep
    rw [goto_pc]
    simp only [goto_finish]
    rfl
  rw [sow_eq, show (m.view t).heap = m.world.heap from rfl]
  cases hr : sowRead m.world.heap l vt n v with
  | error e =>
    rw [hr] at hstep
    refine ⟨1, ?_⟩
    have : modEvents fuel m (.call t (.sow l vt n v) :: List.replicate 1 (.step t)) = m.finish t (.raised e) := by
      simp only at hstep
      rw [← hstep, ← hcall]; rfl
    rw [this]
    exact ⟨fun u => congrFun (hidle _) u, fun w h => by simp at h, fun e' h => by cases h; exact ⟨rfl, rfl⟩⟩
  | ok x =>
    rw [hr] at hstep
    refine ⟨2, ?_⟩
    have : modEvents fuel m (.call t (.sow l vt n v) :: List.replicate 2 (.step t)) = modStep fuel t (m.goto t (.pending (.set l n (.val x)))) := by
      simp only at hstep
      rw [← hstep, ← hcall]; rfl
    rw [this, hset]
    dsimp only
    cases setAttr (m.view t) l n (.val x) with
    | error e => exact ⟨fun u => congrFun (hidle _) u, fun w h => by simp at h, fun e' h => by cases h; exact ⟨rfl, rfl⟩⟩
    | ok w => exact ⟨fun u => congrFun (hidle .done) u, fun w' h => by cases h; exact ⟨rfl, rfl⟩, fun e' h => by simp at h⟩

/-- **C115, assignment and deletion** are one step: `m.name = value` and `del m.name`. -/
theorem C115_atomic_attr (m : ModMachine α) (fuel t : Nat) (ht : m.threads t = .idle) (l : Loc) (n : Str) (a : Attr α) :
    (let m' := modEvents fuel m [.call t (.set l n a), .step t]
     (∀ u, m'.threads u = m.threads u) ∧
     (∀ w, setAttr (m.view t) l n a = .ok w → m'.world.heap = w.heap ∧ m'.log = m.log ++ [(t, .done)]) ∧
     (∀ e, setAttr (m.view t) l n a = .error e → m'.world.heap = m.world.heap ∧ m'.log = m.log ++ [(t, .raised e)])) ∧
    (let m' := modEvents fuel m [.call t (.del l n), .step t]
     (∀ u, m'.threads u = m.threads u) ∧
     (∀ h, delAttr m.world.heap l n = .ok h → m'.world.heap = h ∧ m'.log = m.log ++ [(t, .done)]) ∧
     (∀ e, delAttr m.world.heap l n = .error e → m'.world.heap = m.world.heap ∧ m'.log = m.log ++ [(t, .raised e)])) := by
  have hidle : ∀ r, (m.finish t r).threads = m.threads := fun r => by
    funext u
    simp only [ModMachine.finish, ModMachine.goto]
    split
    · next h => rw [h, ht]
    · rfl
  have hset : modEvents fuel m [.call t (.set l n a), .step t] =
      match setAttr (m.view t) l n a with
      | .error e => m.finish t (.raised e)
      | .ok w => (m.finish t .done).put w.heap := by
    show modStep fuel t (modEvent fuel m (.call t (.set l n a))) = _
    have hcall : modEvent fuel m (.call t (.set l n a)) = m.goto t (.pending (.set l n a)) := by simp [modEvent, ht]
    rw [hcall]
    unfold modStep
    rw [goto_pc]
    simp only [goto_finish]
    rfl
  have hdel : modEvents fuel m [.call t (.del l n), .step t] =
      match delAttr m.world.heap l n with
      | .error e => m.finish t (.raised e)
      | .ok h => (m.finish t .done).put h := by
    show modStep fuel t (modEvent fuel m (.call t (.del l n))) = _
    have hcall : modEvent fuel m (.call t (.del l n)) = m.goto t (.pending (.del l n)) := by simp [modEvent, ht]
    rw [hcall]
    unfold modStep
    rw [goto_pc]
    simp only [goto_finish]
    rfl
  rw [hset, hdel]
  refine ⟨?_, ?_⟩
  · cases setAttr (m.view t) l n a with
    | error e => exact ⟨fun u => congrFun (hidle _) u, fun w h => (by cases h), fun e' h => by cases h; exact ⟨rfl, rfl⟩⟩
    | ok w => exact ⟨fun u => congrFun (hidle .done) u, fun w' h => by cases h; exact ⟨rfl, rfl⟩, fun e' h => by cases h⟩
  · cases delAttr m.world.heap l n with
    | error e => exact ⟨fun u => congrFun (hidle _) u, fun w h => (by cases h), fun e' h => by cases h; exact ⟨rfl, rfl⟩⟩
    | ok w => exact ⟨fun u => congrFun (hidle .done) u, fun w' h => by cases h; exact ⟨rfl, rfl⟩, fun e' h => by cases h⟩

/-- **C115, an update among other threads.** Under the conditions of `C115_no_interference`: a thread that has called
`m.update_state(us)` once and made all its steps, interleaved with the other threads in any way, leaves its Modules
as `update_state` would have left them alone, and got its outcome. -/
theorem C115_update {w : World α} {A : Nat → Loc → Prop} (hself : ∀ t, SelfContained w.heap (A t))
    (hd : ∀ t u, t ≠ u → ∀ l, A t l → ¬ A u l) (tr : Nat → Nat × List Nat) (fuel t : Nat) (root : Loc) (us : List (State (PyVal α))) :
    ∃ k, ∀ evs : List (ModEvent α), OwnCalls A evs →
      (evs.filter fun ev => ev.thread == t) = .call t (.update root us) :: List.replicate k (.step t) →
      let m := modEvents fuel (.start w tr) evs
      (∀ l, A t l → m.world.heap[l]? = (updateState fuel root us (w.withTraces (tr t))).1.heap[l]?) ∧
      (m.log.filter fun e => e.1 == t) = [(t, ModResult.outcome (updateState fuel root us (w.withTraces (tr t))).2)] := by
  obtain ⟨k, h1, _, h3⟩ := C115_atomic (.start w tr) fuel t rfl root us
  refine ⟨k, fun evs hown hf => ?_⟩
  obtain ⟨hl, hh, _⟩ := C115_no_interference hself hd hown tr fuel t
  rw [hf] at hl hh
  refine ⟨fun l hlA => (hh l hlA).trans (by rw [h1]; rfl), hl.trans (by rw [h3]; rfl)⟩

/-! ### Two Modules, two threads; and one Module, two threads -/

/-- Two Modules without common parts: the Net with its Block of `exHeap`, and another one, made in another thread. -/
def exTwoNets : World Nat :=
  ⟨exHeap ++ [⟨exCls (py! "Net"), [(py! "w", .val (exParam 4)), (py! "me", .ref 2)], 8, false, ⟨3, 3⟩⟩], 9, 0, []⟩

/-- The traces of the threads: thread 0 is at the trace at which the first Net was made, thread 1 at that of the second one. -/
def exTraces : Nat → Nat × List Nat
  | 0 => (0, [])
  | 1 => (3, [3])
  | t => (t + 10, [t + 10])

def exOwners : Nat → Loc → Prop
  | 0, l => l = 0 ∨ l = 1
  | 1, l => l = 2
  | _, _ => False

/-- Thread 0 updates its Net while thread 1 assigns, updates and reads its own one. -/
def exInterleaved : List (ModEvent Nat) :=
  [.call 0 (.update 0 [.new [(py! "a/w", exParam 9)]]), .step 0, .call 1 (.set 2 (py! "w") (.val (exParam 6))), .step 1, .step 0,
    .call 1 (.update 2 [.new [(py! "w", exParam 7)]]), .step 1, .step 0, .step 1, .step 0, .step 1, .step 0] ++
    List.replicate 12 (.step 1) ++ List.replicate 15 (.step 0) ++ [.call 1 (.get 2), .step 1] ++ List.replicate 15 (.step 0) ++ [.abort 1]

example : (∀ t, SelfContained exTwoNets.heap (exOwners t)) ∧ (∀ t u, t ≠ u → ∀ l, exOwners t l → ¬ exOwners u l) ∧
    OwnCalls exOwners exInterleaved ∧
    access (modEvents 5 (.start exTwoNets exTraces) exInterleaved).world.heap (.ref 0) [py! "b", py! "w"] = some (.val (exParam 9)) ∧
    access (modEvents 5 (.start exTwoNets exTraces) exInterleaved).world.heap (.ref 2) [py! "w"] = some (.val (exParam 7)) := by
  refine ⟨?_, ?_, ?_, by decide +kernel, by decide +kernel⟩
  · intro t l o hl ho n b hb
    match t, hl with
    | 0, .inl h | 0, .inr h =>
      subst h
      simp only [exTwoNets, exHeap, List.cons_append, List.getElem?_cons_zero, List.getElem?_cons_succ, Option.some.injEq] at ho
      subst ho
      simp at hb
      show b = 0 ∨ b = 1
      first
        | exact .inl hb.2
        | (rcases hb with hb | hb | hb <;> simp [hb.2])
    | 1, h => 
      subst h
      simp only [exTwoNets, exHeap, List.cons_append, List.nil_append, List.getElem?_cons_zero, List.getElem?_cons_succ, Option.some.injEq] at ho
      subst ho
      simp at hb
      simp [exOwners, hb]
  · intro t u htu l
    match t, u with
    | 0, 0 => exact absurd rfl htu
    | 1, 1 => exact absurd rfl htu
    | 0, 1 => simp only [exOwners]; rintro (rfl | rfl) <;> decide
    | 1, 0 => simp only [exOwners]; rintro rfl; decide
    | t + 2, _ => simp [exOwners]
    | 0, u + 2 => simp [exOwners]
    | 1, u + 2 => simp [exOwners]
  · intro t c hc
    simp only [exInterleaved, List.mem_append, List.mem_replicate, and_false, or_false, false_or, List.mem_cons, List.not_mem_nil, or_false, ModEvent.call.injEq, reduceCtorEq, false_or] at hc
    rcases hc with (⟨rfl, rfl⟩ | ⟨rfl, rfl⟩ | ⟨rfl, rfl⟩) | ⟨rfl, rfl⟩ <;> simp [ModCall.Within, exOwners]

/-- While a thread updates one variable of a Module, a call made at the same trace updates another one and returns. -/
def exOverlap : List (ModEvent Nat) :=
  [.call 0 (.update 0 [.new [(py! "a/w", exParam 9)]]), .step 0,
    .call 1 (.update 0 [.new [(py! "w", exParam 2)]])] ++ List.replicate 30 (.step 1) ++ List.replicate 30 (.step 0)

/-- **Why the Modules must have no common parts.** Two calls of `update_state` on one Module, for different variables, both at the
trace of the Module, the second one between two steps of the first one (as in a signal handler, since threads have
different traces: C119): both calls return, and the update that was made by the second one is gone, although whichever
call is made first, both updates are there when the calls are made one after the other. `update_state` assigns every
variable of the Module, the ones it is not given with the values it read when it began. -/
theorem C115_lost_update : ∃ (w : World Nat) (u v : State (PyVal Nat)) (evs : List (ModEvent Nat)),
    (∀ t c, ModEvent.call t c ∈ evs → c = .update 0 [u] ∨ c = .update 0 [v]) ∧
    (∀ k ∈ u.keys, k ∉ v.keys) ∧
    (modEvents 5 (.start w fun _ => (0, [])) evs).log = [(1, .done), (0, .done)] ∧
    (∀ t, (modEvents 5 (.start w fun _ => (0, [])) evs).threads t = .idle) ∧
    v.items = [(py! "w", exParam 2)] ∧
    access (modEvents 5 (.start w fun _ => (0, [])) evs).world.heap (.ref 0) [py! "w"] = some (.val (exParam 1)) ∧
    access (updateState 5 0 [v] (updateState 5 0 [u] w).1).1.heap (.ref 0) [py! "w"] = some (.val (exParam 2)) ∧
    access (updateState 5 0 [u] (updateState 5 0 [v] w).1).1.heap (.ref 0) [py! "w"] = some (.val (exParam 2)) := by
  refine ⟨exWorld, .new [(py! "a/w", exParam 9)], .new [(py! "w", exParam 2)], exOverlap, ?_, by decide, ?_, ?_, by decide,
    by decide +kernel, by decide +kernel, by decide +kernel⟩
  · intro t c hc
    simp only [exOverlap, List.mem_append, List.mem_replicate, and_false, or_false, List.mem_cons, List.not_mem_nil, or_false, ModEvent.call.injEq, reduceCtorEq, false_or] at hc
    rcases hc with ⟨_, rfl⟩ | ⟨_, rfl⟩ <;> simp
  · rfl
  · intro t
    match t with
    | 0 => rfl
    | 1 => rfl
    | t + 2 => rfl

/-- The same with an assignment: `m.w = …` made while `m.update_state` for another variable runs is lost. -/
theorem C115_lost_assignment : ∃ (w : World Nat) (u : State (PyVal Nat)) (evs : List (ModEvent Nat)),
    (∀ t c, ModEvent.call t c ∈ evs → c = .update 0 [u] ∨ c = .set 0 (py! "w") (.val (exParam 2))) ∧
    py! "w" ∉ u.keys ∧
    (modEvents 5 (.start w fun _ => (0, [])) evs).log = [(1, .done), (0, .done)] ∧
    access (modEvents 5 (.start w fun _ => (0, [])) evs).world.heap (.ref 0) [py! "w"] = some (.val (exParam 1)) := by
  refine ⟨exWorld, .new [(py! "a/w", exParam 9)], [.call 0 (.update 0 [.new [(py! "a/w", exParam 9)]]), .step 0,
    .call 1 (.set 0 (py! "w") (.val (exParam 2))), .step 1] ++ List.replicate 30 (.step 0), ?_, by decide, rfl, by decide +kernel⟩
  intro t c hc
  simp only [List.mem_append, List.mem_replicate, and_false, List.mem_cons, List.not_mem_nil, or_false, ModEvent.call.injEq, reduceCtorEq, false_or] at hc
  rcases hc with ⟨_, rfl⟩ | ⟨_, rfl⟩ <;> simp

/-- One thread reads a Module while the other one assigns a variable of it and then one of its submodule. -/
def exTorn : List (ModEvent Nat) :=
  [.call 1 (.get 0), .step 1, .call 0 (.set 0 (py! "w") (.val (exParam 2))), .step 0,
    .call 0 (.set 1 (py! "w") (.val (exParam 9))), .step 0] ++ List.replicate 20 (.step 1)

/-- **A read is not a snapshot.** `get_state` of a Module that another thread, which made it, assigns to can return a State that the Module
had at no moment: here the older variable was assigned first, and only the newer assignment is seen. -/
theorem C115_torn_read : ∃ (w : World Nat) (evs : List (ModEvent Nat)) (s : State (PyVal Nat)),
    (∀ t c, ModEvent.call t c ∈ evs → c = .get 0 ∨ c = .set 0 (py! "w") (.val (exParam 2)) ∨ c = .set 1 (py! "w") (.val (exParam 9))) ∧
    (modEvents 5 (.start w exTraces) evs).log = [(0, .done), (0, .done), (1, .state s)] ∧
    ∀ k, getState 5 (modEvents 5 (.start w exTraces) (evs.take k)).world.heap 0 ≠ some s := by
  refine ⟨exWorld, exTorn, .new [(py! "a/s", exStat 6), (py! "a/w", exParam 9), (py! "w", exParam 1)], ?_, rfl, fun k => ?_⟩
  · intro t c hc
    simp only [exTorn, List.mem_append, List.mem_replicate, and_false, List.mem_cons, List.not_mem_nil, or_false, ModEvent.call.injEq, reduceCtorEq, false_or] at hc
    rcases hc with ⟨_, rfl⟩ | ⟨_, rfl⟩ | ⟨_, rfl⟩ <;> simp
  · have hall : ∀ k ≤ 26, getState 5 (modEvents 5 (.start exWorld exTraces) (exTorn.take k)).world.heap 0 ≠
        some (.new [(py! "a/s", exStat 6), (py! "a/w", exParam 9), (py! "w", exParam 1)]) := by decide +kernel
    rcases Nat.lt_or_ge 26 k with hk | hk
    · rw [List.take_of_length_le (by simp [exTorn]; omega)]
      have := hall 26 (Nat.le_refl _)
      rwa [List.take_of_length_le (by simp [exTorn])] at this
    · exact hall k hk

/-! ### C119 -/

/-- Every Module is as it was, or it was made at the current trace, or attributes can have been deleted. -/
def Assigns (deletes : Bool) (w : World α) (h : Heap α) : Prop :=
  ∀ l : Loc, h[l]? = w.heap[l]? ∨
    ∃ o o' : ModObj α, w.heap[l]? = some o ∧ h[l]? = some o' ∧ o'.trace = o.trace ∧ (o.trace = w.curTrace ∨ deletes = true)

omit [DecidableEq α] in
theorem traceValid_iff {w : World α} {t : Trace} : w.traceValid t = true ↔ t = w.curTrace := by
  cases t
  simp [World.traceValid, World.curTrace, Trace.mk.injEq]

theorem setAttr_assigns {d : Bool} {w w' : World α} {l : Loc} {n : Str} {a : Attr α} (e : setAttr w l n a = .ok w') : Assigns d w w'.heap := by
  unfold setAttr at e
  split at e
  · simp at e
  · next o ho =>
    split at e
    · simp at e
    next hv =>
    split at e
    · simp at e
    split at e
    · simp at e
    · next x hx =>
      cases e
      intro l'
      by_cases h : l = l'
      · subst h
        refine .inr ⟨o, { o with attrs := dset o.attrs n x }, ho, ?_, rfl, .inl (traceValid_iff.1 (by simpa using hv))⟩
        have hl : l < w.heap.length := (List.getElem?_eq_some_iff.1 ho).1
        simp only [World.setAttrs]
        exact List.getElem?_set_self hl
      · exact .inl (by simp [World.setAttrs, List.getElem?_set_ne h])

omit [DecidableEq α] in
theorem delAttr_assigns {w : World α} {h : Heap α} {l : Loc} {n : Str} (e : delAttr w.heap l n = .ok h) : Assigns true w h := by
  unfold delAttr at e
  split at e
  · cases e
  · next o ho =>
    split at e
    · cases e
      intro l'
      by_cases h : l = l'
      · subst h
        exact .inr ⟨o, { o with attrs := ddel o.attrs n }, ho, List.getElem?_set_self (List.getElem?_eq_some_iff.1 ho).1, rfl, .inr rfl⟩
      · exact .inl (List.getElem?_set_ne h)
    · cases e

omit [DecidableEq α] in
theorem popNext_assigns {w : World α} {h : Heap α} {fuel : Nat} {r r' : Popping α} (e : r.next fuel w.heap = .ok (h, r')) : Assigns true w h := by
  unfold Popping.next at e
  split at e
  · cases e; exact fun _ => .inl rfl
  · cases e; exact fun _ => .inl rfl
  · split at e
    · cases e
    · cases e; exact fun _ => .inl rfl
  · split at e
    · split at e
      · cases e; exact fun _ => .inl rfl
      · split at e
        · cases e
        · next h1 hd => cases e; exact delAttr_assigns hd
    · cases e; exact fun _ => .inl rfl

theorem setValueAtPath_assigns {d : Bool} (v : PyVal α) : ∀ (path : List Str) (a : Attr α) {w w' : World α},
    setValueAtPath w a path v = .ok w' → Assigns d w w'.heap := by
  intro path
  induction path with
  | nil => intro a w w' h; cases a <;> simp [setValueAtPath] at h
  | cons p ps ih =>
    intro a w w' h
    cases a with
    | val x => simp [setValueAtPath] at h
    | ref l =>
      cases ps with
      | nil => exact setAttr_assigns h
      | cons q qs =>
        simp only [setValueAtPath] at h
        split at h
        · cases h
        · exact ih _ h

/-- The thread can delete attributes. -/
def ModPc.deletes : ModPc α → Bool
  | .pending c => c.deletes
  | .popping _ => true
  | _ => false

/-- What an event of a thread can do. -/
structure Eventful (t : Nat) (m m' : ModMachine α) : Prop where
  heap : Assigns (m.threads t).deletes (m.view t) m'.world.heap
  traces : m'.traces = m.traces
  pcs : ∀ u, u ≠ t → m'.threads u = m.threads u
  log : ∃ rs : List (ModResult α), m'.log = m.log ++ rs.map fun r => (t, r)

omit [DecidableEq α] in
theorem eventful_goto {m : ModMachine α} {t : Nat} {pc : ModPc α} : Eventful t m (m.goto t pc) :=
  ⟨fun _ => .inl rfl, rfl, fun u hu => by simp [ModMachine.goto, hu], [], by simp [ModMachine.goto]⟩

omit [DecidableEq α] in
theorem eventful_finish {m : ModMachine α} {t : Nat} {r : ModResult α} : Eventful t m (m.finish t r) :=
  ⟨fun _ => .inl rfl, rfl, fun u hu => by simp [ModMachine.finish, ModMachine.goto, hu], [r], by simp [ModMachine.finish]⟩

omit [DecidableEq α] in
theorem eventful_read {m : ModMachine α} {t : Nat} {root : Loc} {us : Option (List (State (PyVal α)))} {r : Option (Reading α)} :
    Eventful t m (m.read t root us r) := by
  cases r with
  | none => exact eventful_finish
  | some r => exact eventful_goto

omit [DecidableEq α] in
theorem eventful_pop {m : ModMachine α} {t : Nat} {r : Except Err (Popping α)} : Eventful t m (m.pop t r) := by
  cases r with
  | error e => exact eventful_finish
  | ok r => exact eventful_goto

omit [DecidableEq α] in
theorem Eventful.put {m m' : ModMachine α} {t : Nat} (hk : Eventful t m m') {h : Heap α}
    (hs : Assigns (m.threads t).deletes (m.view t) h) : Eventful t m (m'.put h) :=
  ⟨hs, hk.traces, hk.pcs, hk.log⟩

theorem event_eventful {fuel : Nat} {m : ModMachine α} {ev : ModEvent α} : Eventful ev.thread m (modEvent fuel m ev) := by
  have hrefl : Eventful ev.thread m m := ⟨fun _ => .inl rfl, rfl, fun _ _ => rfl, [], by simp⟩
  cases ev with
  | call t c =>
    simp only [modEvent, ModEvent.thread]
    split
    · exact eventful_goto
    · exact hrefl
  | abort t => exact eventful_goto
  | step t =>
    simp only [modEvent, ModEvent.thread, modStep]
    cases hp : m.threads t with
    | idle => exact hrefl
    | pending c =>
      cases c with
      | update root us => exact eventful_read
      | get root => exact eventful_read
      | set l n a =>
        simp only
        cases hs : setAttr (m.view t) l n a with
        | error e => exact eventful_finish
        | ok w => exact eventful_finish.put (setAttr_assigns hs)
      | pop root fs =>
        simp only
        split
        · exact eventful_finish
        split
        · exact eventful_finish
        · exact eventful_pop
      | del l n =>
        simp only
        cases hs : delAttr m.world.heap l n with
        | error e => exact eventful_finish
        | ok h =>
          refine eventful_finish.put ?_
          rw [hp]
          exact delAttr_assigns (w := m.view t) hs
      | sow l vt n v =>
        simp only
        cases sowRead m.world.heap l vt n v with
        | error e => exact eventful_finish
        | ok x => exact eventful_goto
    | popping r =>
      simp only
      split
      · exact eventful_finish
      cases hs : r.next fuel m.world.heap with
      | error e => exact eventful_finish
      | ok p =>
        refine eventful_goto.put ?_
        rw [hp]
        exact popNext_assigns (w := m.view t) hs
    | reading root us r =>
      simp only
      split
      · exact eventful_finish
      · exact eventful_goto
      · exact eventful_read
    | assigning root rest =>
      cases rest with
      | nil => exact eventful_finish
      | cons kv rest => exact eventful_goto
    | walking root rest a path v =>
      have hset : Eventful t m (match setValueAtPath (m.view t) a path v with
          | .error e => m.finish t (.raised e)
          | .ok w => (m.goto t (.assigning root rest)).put w.heap) := by
        cases hs : setValueAtPath (m.view t) a path v with
        | error e => exact eventful_finish
        | ok w => exact eventful_goto.put (setValueAtPath_assigns v _ _ hs)
      cases a with
      | val x => exact hset
      | ref l =>
        match path with
        | [] => exact hset
        | [p] => exact hset
        | p :: q :: ps =>
          simp only
          cases hg : varsGet m.world.heap l p with
          | error e => exact eventful_finish
          | ok a => exact eventful_goto

theorem madeAt_event {A : Loc → Prop} {tr : Trace} {fuel : Nat} {m : ModMachine α} {ev : ModEvent α} (h : MadeAt m.world.heap A tr) :
    MadeAt (modEvent fuel m ev).world.heap A tr := by
  intro l o hl ho
  rcases (event_eventful (fuel := fuel) (m := m) (ev := ev)).heap l with h' | ⟨o1, o2, h1, h2, h3, _⟩
  · exact h l o hl (h'.symm.trans ho)
  · rw [ho] at h2
    cases h2
    rw [h3]
    exact h l o1 hl h1

/-- A thread that cannot delete attributes cannot do so after an event other than a call that can. -/
theorem event_deletes {fuel : Nat} {m : ModMachine α} {ev : ModEvent α} (hm : (m.threads ev.thread).deletes = false)
    (hc : ∀ t c, ev = .call t c → c.deletes = false) : ((modEvent fuel m ev).threads ev.thread).deletes = false := by
  have hgoto : ∀ (t : Nat) (pc : ModPc α), pc.deletes = false → ((m.goto t pc).threads t).deletes = false := fun t pc h => by
    rw [goto_pc]; exact h
  have hfin : ∀ (t : Nat) (r : ModResult α), ((m.finish t r).threads t).deletes = false := fun t r => hgoto t .idle rfl
  have hread : ∀ (t : Nat) (root : Loc) us (r : Option (Reading α)), ((m.read t root us r).threads t).deletes = false := fun t root us r => by
    cases r with
    | none => exact hfin t _
    | some r => exact hgoto t _ rfl
  cases ev with
  | call t c =>
    simp only [modEvent, ModEvent.thread] at hm ⊢
    split
    · exact hgoto t _ (hc t c rfl)
    · exact hm
  | abort t => exact hgoto t _ rfl
  | step t =>
    simp only [modEvent, ModEvent.thread, modStep] at hm ⊢
    cases hp : m.threads t with
    | idle => simp only [hp]; rfl
    | pending c =>
      rw [hp] at hm
      cases c with
      | update root us => exact hread ..
      | get root => exact hread ..
      | set l n a =>
        simp only
        split
        · exact hfin ..
        · exact hfin t .done
      | pop root fs => cases hm
      | del l n => cases hm
      | sow l vt n v =>
        simp only
        split
        · exact hfin ..
        · exact hgoto t _ rfl
    | popping r => rw [hp] at hm; cases hm
    | reading root us r =>
      simp only
      split
      · exact hfin ..
      · exact hgoto t _ rfl
      · exact hread ..
    | assigning root rest =>
      cases rest with
      | nil => exact hfin ..
      | cons kv rest => exact hgoto t _ rfl
    | walking root rest a path v =>
      have hset : ((match setValueAtPath (m.view t) a path v with
          | .error e => m.finish t (.raised e)
          | .ok w => (m.goto t (.assigning root rest)).put w.heap).threads t).deletes = false := by
        cases setValueAtPath (m.view t) a path v with
        | error e => exact hfin t _
        | ok w => exact hgoto t (.assigning root rest) rfl
      cases a with
      | val x => exact hset
      | ref l =>
        match path with
        | [] => exact hset
        | [p] => exact hset
        | p :: q :: ps =>
          simp only
          cases varsGet m.world.heap l p with
          | error e => exact hfin t _
          | ok a => exact hgoto t _ rfl

/-- An event of a thread at another trace that does not delete does not change Modules made at this one. -/
theorem foreign_event {A : Loc → Prop} {tr : Trace} {fuel : Nat} {m : ModMachine α} {ev : ModEvent α} (h : MadeAt m.world.heap A tr)
    (hne : traceOf (m.traces ev.thread) ≠ tr) (hdel : (m.threads ev.thread).deletes = false) : OthersEvent A ev.thread m (modEvent fuel m ev) := by
  have he := event_eventful (fuel := fuel) (m := m) (ev := ev)
  refine ⟨fun l hl => ?_, he.traces, he.pcs, he.log⟩
  rcases he.heap l with h' | ⟨o1, o2, h1, _, _, h4 | h4⟩
  · exact h'
  · exact absurd ((h l o1 hl h1).symm.trans h4).symm hne
  · rw [hdel] at h4; cases h4

/-- **C119.** A set of Modules that contains their submodules and were made at the trace of thread `t`, while the other threads are at other
traces (and every thread of a program is): whatever all the threads call on whatever Modules, reads of, assignments to, updates of
and `sow` on these ones included, as long as `t` itself keeps to the set and the others do not delete (`pop_state`, `del`), in every
schedule the calls of `t` return (or raise) what they would if the other threads did not exist, and these Modules are as they would be
then. -/
theorem C119_single_writer {w : World α} {A : Loc → Prop} (hself : SelfContained w.heap A) {tr : Nat → Nat × List Nat} {t : Nat}
    (hmade : MadeAt w.heap A (traceOf (tr t))) (hd : ∀ u, u ≠ t → traceOf (tr u) ≠ traceOf (tr t))
    {evs : List (ModEvent α)} (hown : ∀ c, ModEvent.call t c ∈ evs → c.Within A)
    (hdel : ∀ u c, u ≠ t → ModEvent.call u c ∈ evs → c.deletes = false) (fuel : Nat) :
    let m := modEvents fuel (.start w tr) evs
    let a := modEvents fuel (.start w tr) (evs.filter fun ev => ev.thread == t)
    (m.log.filter fun e => e.1 == t) = a.log ∧ (∀ l, A l → m.world.heap[l]? = a.world.heap[l]?) ∧
      m.threads t = a.threads t := by
  have key : ∀ (evs : List (ModEvent α)) (m a : ModMachine α), m.traces = tr → KeptIn A t m → MadeAt m.world.heap A (traceOf (tr t)) →
      (∀ u, u ≠ t → (m.threads u).deletes = false) →
      SameFor A t m a → (∀ c, ModEvent.call t c ∈ evs → c.Within A) → (∀ u c, u ≠ t → ModEvent.call u c ∈ evs → c.deletes = false) →
      SameFor A t (modEvents fuel m evs) (modEvents fuel a (evs.filter fun ev => ev.thread == t)) := by
    intro evs
    induction evs with
    | nil => intro m a _ _ _ _ hs _ _; exact hs
    | cons ev evs ih =>
      intro m a htr hm hmade hno hs hown hdel
      have hown' : ∀ c, ModEvent.call t c ∈ evs → c.Within A := fun c h => hown c (List.mem_cons_of_mem _ h)
      have hdel' : ∀ u c, u ≠ t → ModEvent.call u c ∈ evs → c.deletes = false := fun u c hu h => hdel u c hu (List.mem_cons_of_mem _ h)
      have he := event_eventful (fuel := fuel) (m := m) (ev := ev)
      have htr' : (modEvent fuel m ev).traces = tr := he.traces.trans htr
      have hno' : ∀ u, u ≠ t → ((modEvent fuel m ev).threads u).deletes = false := by
        intro u hu
        by_cases hev : ev.thread = u
        · subst hev
          exact event_deletes (hno _ hu) (fun t' c h => by subst h; exact hdel t' c hu List.mem_cons_self)
        · rw [he.pcs u (Ne.symm hev)]; exact hno u hu
      by_cases ht : ev.thread = t
      · rw [List.filter_cons_of_pos (by simpa using ht)]
        have hk := event_keeps (A := A) (fuel := fuel) (m := m) (ev := ev) (by rw [ht]; exact hm)
          (fun t' c h => by subst h; cases ht; exact hown c List.mem_cons_self)
        exact ih _ _ htr' ⟨hk.self, ht ▸ hk.pc⟩ (madeAt_event hmade) hno' (own_event_same hm hs ht) hown' hdel'
      · rw [List.filter_cons_of_neg (by simpa using ht)]
        have ho := foreign_event (fuel := fuel) hmade (ev := ev) (by rw [htr]; exact hd _ ht) (hno _ ht)
        exact ih _ _ htr' (ho.kept ht hm) (madeAt_event hmade) hno' (other_event_same ht ho hs) hown' hdel'
  have h := key evs (.start w tr) (.start w tr) rfl ⟨hself, trivial⟩ hmade (fun _ _ => rfl) ⟨⟨fun _ _ => rfl, rfl, rfl⟩, rfl, rfl⟩ hown hdel
  exact ⟨h.log, h.view.heap, h.pc⟩

/-- **C119, the Modules of no thread.** Modules that were made at a trace at which no thread is do not change at all, whatever is
called on them, except that attributes can be deleted. -/
theorem C119_frozen {w : World α} {A : Loc → Prop} {tr : Nat → Nat × List Nat} {s : Trace} (hmade : MadeAt w.heap A s)
    (evs : List (ModEvent α)) (hd : ∀ ev ∈ evs, traceOf (tr ev.thread) ≠ s) (hdel : ∀ u c, ModEvent.call u c ∈ evs → c.deletes = false)
    (fuel : Nat) {l : Loc} (hl : A l) : (modEvents fuel (.start w tr) evs).world.heap[l]? = w.heap[l]? := by
  have key : ∀ (evs : List (ModEvent α)) (m : ModMachine α), m.traces = tr → MadeAt m.world.heap A s → (∀ u, (m.threads u).deletes = false) →
      (∀ ev ∈ evs, traceOf (tr ev.thread) ≠ s) → (∀ u c, ModEvent.call u c ∈ evs → c.deletes = false) →
      (modEvents fuel m evs).world.heap[l]? = m.world.heap[l]? := by
    intro evs
    induction evs with
    | nil => intro m _ _ _ _ _; rfl
    | cons ev evs ih =>
      intro m htr hmade hno hd hdel
      have ho := foreign_event (fuel := fuel) hmade (ev := ev) (by rw [htr]; exact hd _ List.mem_cons_self) (hno _)
      have hno' : ∀ u, ((modEvent fuel m ev).threads u).deletes = false := by
        intro u
        by_cases hev : ev.thread = u
        · subst hev
          exact event_deletes (hno _) (fun t' c h => by subst h; exact hdel t' c List.mem_cons_self)
        · rw [ho.pcs u (Ne.symm hev)]; exact hno u
      have := ih (modEvent fuel m ev) (ho.traces.trans htr) (madeAt_event hmade) hno' (fun ev h => hd ev (List.mem_cons_of_mem _ h))
        (fun u c h => hdel u c (List.mem_cons_of_mem _ h))
      exact this.trans (ho.heap l hl)
  exact key evs (.start w tr) rfl hmade (fun _ => rfl) hd hdel

/-- **C119, the exception.** A thread that assigns an attribute of a Module made at another trace gets TraceContextError, and
nothing is changed. -/
theorem C119_raises {m : ModMachine α} {fuel t : Nat} (ht : m.threads t = .idle) {l : Loc} {o : ModObj α} (ho : m.world.heap[l]? = some o)
    (hne : traceOf (m.traces t) ≠ o.trace) (n : Str) (a : Attr α) :
    let m' := modEvents fuel m [.call t (.set l n a), .step t]
    m'.world = m.world ∧ (∀ u, m'.threads u = m.threads u) ∧ m'.log = m.log ++ [(t, .raised .traceContextError)] := by
  have hv : (m.view t).traceValid o.trace = false := by
    rw [← Bool.not_eq_true, traceValid_iff]
    exact fun h => hne h.symm
  have hset : setAttr (m.view t) l n a = .error .traceContextError := by
    unfold setAttr
    rw [show (m.view t).heap[l]? = some o from ho]
    simp only [hv, if_true]
  have hm : modEvents fuel m [.call t (.set l n a), .step t] = m.finish t (.raised .traceContextError) := by
    show modEvent fuel (modEvent fuel m (.call t (.set l n a))) (.step t) = _
    have h1 : modEvent fuel m (.call t (.set l n a)) = m.goto t (.pending (.set l n a)) := by simp [modEvent, ht]
    rw [h1]
    show modStep fuel t _ = _
    unfold modStep
    rw [goto_pc]
    show (match setAttr (m.view t) l n a with
      | .error e => (m.goto t _).finish t (.raised e)
      | .ok w => ((m.goto t _).finish t .done).put w.heap) = _
    rw [hset]
    exact goto_finish ..
  rw [hm]
  refine ⟨rfl, fun u => ?_, rfl⟩
  simp only [ModMachine.finish, ModMachine.goto]
  split
  · next h => rw [h, ht]
  · rfl

/-- A Net with two variables and a Block, made by thread 0. -/
def exShelf : World Nat :=
  ⟨[⟨exCls (py! "Net"), [(py! "v", .val (exParam 1)), (py! "w", .val (exParam 2)), (py! "b", .ref 1)], 7, false, ⟨0, 0⟩⟩,
    ⟨exCls (py! "Block"), [(py! "w", .val (exParam 5))], 8, false, ⟨0, 0⟩⟩], 9, 0, []⟩

/-- Thread 0 has begun to pop the Parameters when thread 1 pops them. -/
def exTwoPops : List (ModEvent Nat) :=
  [.call 0 (.pop 0 [.ofType cParam]), .step 0, .step 0, .call 1 (.pop 0 [.ofType cParam])] ++ List.replicate 20 (.step 1) ++
    List.replicate 20 (.step 0)

/-- **C119, deleting is not checked.** Thread 1 pops the variables of a Module made by thread 0, while thread 0 pops them: the call of
thread 1 returns some of them, that of thread 0 raises AttributeError, and one variable is neither in a returned State nor in the Module. -/
theorem C119_pop_unchecked : ∃ (evs : List (ModEvent Nat)) (s : State (PyVal Nat)),
    (∀ t c, ModEvent.call t c ∈ evs → c = .pop 0 [.ofType cParam]) ∧
    traceOf (exTraces 1) ≠ traceOf (exTraces 0) ∧ MadeAt exShelf.heap (fun _ => True) (traceOf (exTraces 0)) ∧
    (modEvents 5 (.start exShelf exTraces) evs).log = [(1, .states [s]), (0, .raised .attributeError)] ∧
    getState 5 exShelf.heap 0 = some (.new [(py! "b/w", exParam 5), (py! "v", exParam 1), (py! "w", exParam 2)]) ∧
    getState 5 (modEvents 5 (.start exShelf exTraces) evs).world.heap 0 = some (.new []) ∧ py! "v" ∉ s.keys := by
  refine ⟨exTwoPops, .new [(py! "w", exParam 2), (py! "b/w", exParam 5)], ?_, by decide, ?_, rfl, by decide +kernel, by decide +kernel, by decide⟩
  · intro t c hc
    simp only [exTwoPops, List.mem_append, List.mem_replicate, and_false, List.mem_cons, List.not_mem_nil, or_false, ModEvent.call.injEq, reduceCtorEq, false_or] at hc
    rcases hc with ⟨_, rfl⟩ | ⟨_, rfl⟩ <;> rfl
  · intro l o _ ho
    rcases l with _ | _ | l
    · cases ho; rfl
    · cases ho; rfl
    · simp [exShelf] at ho

/-- What a call raised. -/
def ModResult.exception : ModResult α → Option Err
  | .raised e => some e
  | _ => none

/-- Thread 1 reads the Net of thread 0, updates it and assigns to it, while thread 0 updates it. -/
def exIntruder : List (ModEvent Nat) :=
  [.call 0 (.update 0 [.new [(py! "a/w", exParam 9)]]), .step 0, .call 1 (.set 0 (py! "w") (.val (exParam 6))), .step 1, .step 0,
    .call 1 (.update 0 [.new [(py! "w", exParam 7)]])] ++ List.replicate 30 (.step 1) ++ List.replicate 5 (.step 0) ++
    [.call 1 (.get 0), .step 1] ++ List.replicate 30 (.step 0) ++ List.replicate 20 (.step 1) ++
    [.call 1 (.set 2 (py! "other") (.ref 0)), .step 1]

example : SelfContained exTwoNets.heap (exOwners 0) ∧ MadeAt exTwoNets.heap (exOwners 0) (traceOf (exTraces 0)) ∧
    (∀ u, u ≠ 0 → traceOf (exTraces u) ≠ traceOf (exTraces 0)) ∧ (∀ c, ModEvent.call 0 c ∈ exIntruder → c.Within (exOwners 0)) ∧
    (∀ u c, u ≠ 0 → ModEvent.call u c ∈ exIntruder → c.deletes = false) ∧
    ((modEvents 5 (.start exTwoNets exTraces) exIntruder).log.map fun e => (e.1, e.2.exception)) =
      [(1, some .traceContextError), (1, some .traceContextError), (0, none), (1, none), (1, none)] ∧
    access (modEvents 5 (.start exTwoNets exTraces) exIntruder).world.heap (.ref 0) [py! "b", py! "w"] = some (.val (exParam 9)) ∧
    access (modEvents 5 (.start exTwoNets exTraces) exIntruder).world.heap (.ref 0) [py! "w"] = some (.val (exParam 1)) := by
  refine ⟨?_, ?_, ?_, ?_, ?_, by decide +kernel, by decide +kernel, by decide +kernel⟩
  · intro l o hl ho n b hb
    rcases hl with h | h <;>
    · subst h
      simp only [exTwoNets, exHeap, List.cons_append, List.getElem?_cons_zero, List.getElem?_cons_succ, Option.some.injEq] at ho
      subst ho
      simp at hb
      show b = 0 ∨ b = 1
      first
        | exact .inl hb.2
        | (rcases hb with hb | hb | hb <;> simp [hb.2])
  · intro l o hl ho
    rcases hl with h | h <;>
    · subst h
      simp only [exTwoNets, exHeap, List.cons_append, List.getElem?_cons_zero, List.getElem?_cons_succ, Option.some.injEq] at ho
      subst ho
      rfl
  · intro u hu
    match u with
    | 0 => exact absurd rfl hu
    | 1 => decide
    | u + 2 => simp [exTraces, traceOf]
  · intro c hc
    simp only [exIntruder, List.mem_append, List.mem_replicate, and_false, or_false, false_or, List.mem_cons, List.not_mem_nil, ModEvent.call.injEq, reduceCtorEq] at hc
    simp at hc
    subst hc
    simp [ModCall.Within, exOwners]
  · intro u c hu hc
    simp only [exIntruder, List.mem_append, List.mem_replicate, and_false, or_false, false_or, List.mem_cons, List.not_mem_nil, ModEvent.call.injEq, reduceCtorEq] at hc
    rcases hc with ((⟨_, rfl⟩ | ⟨_, rfl⟩ | ⟨_, rfl⟩) | ⟨_, rfl⟩) | ⟨_, rfl⟩ <;> rfl

end Nnx
