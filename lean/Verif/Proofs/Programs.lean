import Verif.Proofs.History
import Verif.Proofs.Canon
import Verif.Props.ModuleDef
import Verif.Spec.Programs
/-
Programs behave the same on corresponding module graphs.
-/
namespace Nnx
variable {α β : Type}

/-- The Modules in `S` of world `w` correspond through `f` to Modules of world `w'`. -/
structure Bisim (S : Loc → Prop) (f : Loc → Loc) (w w' : World α) : Prop where
  inj : ∀ a b, S a → S b → f a = f b → a = b
  obj : ∀ a, S a → ∃ o o', w.heap[a]? = some o ∧ w'.heap[f a]? = some o' ∧ o'.cls = o.cls ∧ o'.isInit = o.isInit ∧
    w.traceValid o.trace = true ∧ w'.traceValid o'.trace = true ∧
    ∀ n, dget o'.attrs n = (dget o.attrs n).map (Attr.redirect f)
  closed : ∀ a n b, S a → attrAt w.heap a n = some (.ref b) → S b

theorem Bisim.lt {S : Loc → Prop} {f : Loc → Loc} {w w' : World α} (B : Bisim S f w w') {a : Loc} (ha : S a) :
    a < w.heap.length ∧ f a < w'.heap.length := by
  obtain ⟨o, o', ho, ho', _⟩ := B.obj a ha
  exact ⟨(List.getElem?_eq_some_iff.1 ho).1, (List.getElem?_eq_some_iff.1 ho').1⟩

theorem Bisim.attr {S : Loc → Prop} {f : Loc → Loc} {w w' : World α} (B : Bisim S f w w') {a : Loc} (ha : S a)
    (n : Str) : attrAt w'.heap (f a) n = (attrAt w.heap a n).map (Attr.redirect f) := by
  obtain ⟨o, o', ho, ho', _, _, _, _, hat⟩ := B.obj a ha
  simp only [attrAt, ho, ho', hat]

theorem Bisim.setObj {S : Loc → Prop} {f : Loc → Loc} {w w' : World α} (B : Bisim S f w w') {a : Loc} (ha : S a)
    {o o' : ModObj α} (ho : w.heap[a]? = some o) (ho' : w'.heap[f a]? = some o')
    {as as' : Dict Str (Attr α)} (hat : ∀ n, dget as' n = (dget as n).map (Attr.redirect f))
    (hcl : ∀ n b, dget as n = some (.ref b) → S b) :
    Bisim S f { w with heap := w.heap.set a { o with attrs := as } }
      { w' with heap := w'.heap.set (f a) { o' with attrs := as' } } := by
  have hl := B.lt ha
  refine ⟨B.inj, ?_, ?_⟩
  · intro b hb
    obtain ⟨p, p', hp, hp', h1, h2, h3, h4, h5⟩ := B.obj b hb
    by_cases e : b = a
    · subst e
      rw [ho] at hp; cases hp
      rw [ho'] at hp'; cases hp'
      refine ⟨{ o with attrs := as }, { o' with attrs := as' }, ?_, ?_, h1, h2, h3, h4, hat⟩
      · exact List.getElem?_set_self hl.1
      · exact List.getElem?_set_self hl.2
    · refine ⟨p, p', ?_, ?_, h1, h2, h3, h4, h5⟩
      · exact (List.getElem?_set_ne (fun h => e h.symm)).trans hp
      · exact (List.getElem?_set_ne (fun h => e (B.inj _ _ hb ha h.symm))).trans hp'
  · intro b n c hb hc
    by_cases e : b = a
    · subst e
      simp only [attrAt, List.getElem?_set_self hl.1] at hc
      exact hcl n c hc
    · have : attrAt (w.heap.set a { o with attrs := as }) b n = attrAt w.heap b n := by
        simp only [attrAt, List.getElem?_set_ne (fun h => e h.symm)]
      exact B.closed b n c hb (this ▸ hc)

theorem redirect_congr {S : Loc → Prop} {f g : Loc → Loc} (h : ∀ a, S a → f a = g a) {x : Attr α}
    (hx : ∀ b, x = .ref b → S b) : x.redirect f = x.redirect g := by
  cases x with
  | val v => rfl
  | ref b => simp only [Attr.redirect, h b (hx b rfl)]

variable [DecidableEq α]

omit [DecidableEq α] in
theorem Bisim.new {S : Loc → Prop} {f : Loc → Loc} {w w' : World α} (B : Bisim S f w w') (c : Cls) :
    ∃ f', f' w.heap.length = w'.heap.length ∧ (∀ a, S a → f' a = f a) ∧
      Bisim (fun a => S a ∨ a = w.heap.length) f' (newModule c w).1 (newModule c w').1 := by
  refine ⟨fun a => if a = w.heap.length then w'.heap.length else f a, if_pos rfl, ?_, ?_⟩
  · intro a ha
    exact if_neg (Nat.ne_of_lt (B.lt ha).1)
  have hold : ∀ a, S a → (if a = w.heap.length then w'.heap.length else f a) = f a :=
    fun a ha => if_neg (Nat.ne_of_lt (B.lt ha).1)
  refine ⟨?_, ?_, ?_⟩
  · intro a b ha hb e
    rcases ha with ha | rfl <;> rcases hb with hb | rfl
    · rw [hold a ha, hold b hb] at e
      exact B.inj a b ha hb e
    · rw [hold a ha, if_pos rfl] at e
      exact absurd e (Nat.ne_of_lt (B.lt ha).2)
    · rw [hold b hb, if_pos rfl] at e
      exact absurd e.symm (Nat.ne_of_lt (B.lt hb).2)
    · rfl
  · intro a ha
    rcases ha with ha | rfl
    · obtain ⟨o, o', ho, ho', h1, h2, h3, h4, h5⟩ := B.obj a ha
      have hl := B.lt ha
      refine ⟨o, o', ?_, ?_, h1, h2, h3, h4, ?_⟩
      · simp only [newModule, List.getElem?_append_left hl.1, ho]
      · rw [hold a ha]
        simp only [newModule, List.getElem?_append_left hl.2, ho']
      · intro n
        rw [h5 n]
        cases hx : dget o.attrs n with
        | none => rfl
        | some x =>
          simp only [Option.map_some, Option.some.injEq]
          refine redirect_congr (S := S) (fun b hb => (hold b hb).symm) ?_
          rintro b rfl
          exact B.closed a n b ha (by simp only [attrAt, ho, hx])
    · refine ⟨⟨c, [], w.nextId + 1, false, w.curTrace⟩, ⟨c, [], w'.nextId + 1, false, w'.curTrace⟩, ?_, ?_, rfl, rfl, ?_, ?_, ?_⟩
      · simp [newModule]
      · simp [newModule]
      · simp [World.traceValid, World.curTrace, newModule]
      · simp [World.traceValid, World.curTrace, newModule]
      · intro n; rfl
  · intro a n b ha hb
    rcases ha with ha | rfl
    · have hl := (B.lt ha).1
      simp only [attrAt, newModule, List.getElem?_append_left hl] at hb
      exact .inl (B.closed a n b ha hb)
    · simp [attrAt, newModule, dget] at hb

theorem Bisim.stored {f : Loc → Loc} (old : Option (Attr α)) (x : Attr α) :
    storedAttr (old.map (Attr.redirect f)) (x.redirect f) = (storedAttr old x).map (Attr.redirect f) := by
  cases old with
  | none =>
    cases x with
    | ref b => rfl
    | val v =>
      cases v <;> simp only [storedAttr, Option.map_none, Attr.redirect, Except.map]
      next c v m => cases copy (.cont c v m) <;> rfl
  | some y =>
    cases y with
    | ref a =>
      cases x with
      | ref b => rfl
      | val v =>
        cases v <;> simp only [storedAttr, Option.map_some, Attr.redirect, Except.map]
        next c v m => cases copy (.cont c v m) <;> rfl
    | val u =>
      cases x with
      | ref b => cases u <;> rfl
      | val v =>
        cases u with
        | cont c x m =>
          simp only [storedAttr, Option.map_some, Attr.redirect, Except.map]
          cases replace (.cont c x m) [(py! "value", v)] <;> rfl
        | _ =>
          cases v <;> simp only [storedAttr, Option.map_some, Attr.redirect, Except.map]
          next c v m => cases copy (.cont c v m) <;> rfl

theorem Bisim.setAttr {S : Loc → Prop} {f : Loc → Loc} {w w' : World α} (B : Bisim S f w w') {a : Loc} (ha : S a)
    (n : Str) {x : Attr α} (hx : ∀ b, x = .ref b → S b) :
    (∃ e, Nnx.setAttr w a n x = .error e ∧ Nnx.setAttr w' (f a) n (x.redirect f) = .error e) ∨
    (∃ v v', Nnx.setAttr w a n x = .ok v ∧ Nnx.setAttr w' (f a) n (x.redirect f) = .ok v' ∧ Bisim S f v v') := by
  obtain ⟨o, o', ho, ho', h1, h2, h3, h4, h5⟩ := B.obj a ha
  simp only [Nnx.setAttr, ho, ho', h3, h4, Bool.true_eq_false, if_false, h5, Bisim.stored]
  by_cases hn : n = py! "_module__state"
  · exact .inl ⟨_, by rw [if_pos hn], by rw [if_pos hn]⟩
  · rw [if_neg hn, if_neg hn]
    cases hs : storedAttr (dget o.attrs n) x with
    | error e => exact .inl ⟨e, rfl, rfl⟩
    | ok y =>
      refine .inr ⟨_, _, rfl, rfl, ?_⟩
      refine B.setObj ha ho ho' ?_ ?_
      · intro k
        by_cases e : k = n
        · subst e; simp only [dget_dset_self, Option.map_some]
        · simp only [dget_dset_ne _ _ (Ne.symm e), h5]
      · intro k b hk
        by_cases e : k = n
        · subst e
          rw [dget_dset_self] at hk
          cases hk
          cases x with
          | ref c => exact hx _ (by rw [storedAttr_ref hs])
          | val v => obtain ⟨y, hy⟩ := storedAttr_val hs; cases hy
        · rw [dget_dset_ne _ _ (Ne.symm e)] at hk
          exact B.closed a k b ha (by simp only [attrAt, ho, hk])

omit [DecidableEq α] in
theorem Bisim.delAttr {S : Loc → Prop} {f : Loc → Loc} {w w' : World α} (B : Bisim S f w w') {a : Loc} (ha : S a)
    (hn : ∀ o, w.heap[a]? = some o → DNodup o.attrs) (hn' : ∀ o, w'.heap[f a]? = some o → DNodup o.attrs) (n : Str) :
    (∃ e, Nnx.delAttr w.heap a n = .error e ∧ Nnx.delAttr w'.heap (f a) n = .error e) ∨
    (∃ h h', Nnx.delAttr w.heap a n = .ok h ∧ Nnx.delAttr w'.heap (f a) n = .ok h' ∧
      Bisim S f { w with heap := h } { w' with heap := h' }) := by
  obtain ⟨o, o', ho, ho', h1, h2, h3, h4, h5⟩ := B.obj a ha
  have hh : dhas o'.attrs n = dhas o.attrs n := by
    simp only [dhas, h5]
    cases dget o.attrs n <;> rfl
  simp only [Nnx.delAttr, ho, ho', hh]
  by_cases hd : dhas o.attrs n = true
  · rw [if_pos hd, if_pos hd]
    refine .inr ⟨_, _, rfl, rfl, ?_⟩
    refine B.setObj ha ho ho' ?_ ?_
    · intro k
      rw [dget_ddel (hn' _ ho'), dget_ddel (hn _ ho)]
      by_cases e : k = n
      · simp [e]
      · rw [if_neg (fun h => e h.symm), if_neg (fun h => e h.symm), h5]
    · intro k b hk
      rw [dget_ddel (hn _ ho)] at hk
      split at hk
      · cases hk
      · exact B.closed a k b ha (by simp only [attrAt, ho, hk])
  · rw [if_neg hd, if_neg hd]
    exact .inl ⟨_, rfl, rfl⟩

omit [DecidableEq α] in
theorem Bisim.reaches {S : Loc → Prop} {f : Loc → Loc} {w w' : World α} (B : Bisim S f w w') {a b : Loc} {p : List Str}
    (hw : Walk w.heap a p b) : S a → S b := by
  induction hw with
  | here _ => exact id
  | step e _ ih => exact fun ha => ih (B.closed _ _ _ ha e)

omit [DecidableEq α] in
theorem Bisim.iso {S : Loc → Prop} {f : Loc → Loc} {w w' : World α} (B : Bisim S f w w') {a : Loc} (ha : S a) :
    GraphIso w.heap a w'.heap (f a) f := by
  refine ⟨rfl, ?_, ?_, ?_⟩
  · rintro b c ⟨p, hb⟩ ⟨q, hc⟩ e
    exact B.inj b c (B.reaches hb ha) (B.reaches hc ha) e
  · rintro b o ⟨p, hb⟩ ho
    obtain ⟨p, p', hp, hp', h1, h2, _⟩ := B.obj b (B.reaches hb ha)
    rw [ho] at hp; cases hp
    exact ⟨p', hp', h1, h2⟩
  · rintro b ⟨p, hb⟩ n
    exact B.attr (B.reaches hb ha) n

omit [DecidableEq α] in
theorem Bisim.getState {S : Loc → Prop} {f : Loc → Loc} {w w' : World α} (B : Bisim S f w w') (wf : WFHeap w.heap)
    (wf' : WFHeap w'.heap) {a : Loc} (ha : S a) {k k' : Nat} (hk : w.heap.length < k) (hk' : w'.heap.length < k') :
    ∃ s d, partitionModule k w.heap a [] = .ok ([s], d) ∧ partitionModule k' w'.heap (f a) [] = .ok ([s], d) ∧
      Nnx.getState k w.heap a = some s ∧ Nnx.getState k' w'.heap (f a) = some s := by
  obtain ⟨s, d, h1, h2⟩ := C24_partition_canonical wf wf' (B.lt ha).1 (B.lt ha).2
    ((B.iso ha).sameGraph wf (B.lt ha).1) hk hk'
  refine ⟨s, d, h1, h2, ?_, ?_⟩
  · simp only [partitionModule] at h1
    split at h1
    · next d s hd hs => cases h1; exact hs
    · cases h1
  · simp only [partitionModule] at h2
    split at h2
    · next d s hd hs => cases h2; exact hs
    · cases h2

/-! ### Programs -/

theorem Steps.trans {K K1 K2 : List Loc} {w w1 w2 : World α} (a : Steps K w K1 w1) (b : Steps K1 w1 K2 w2) :
    Steps K w K2 w2 := by
  induction a with
  | done => exact b
  | more s _ ih => exact .more s (ih b)

omit [DecidableEq α] in
theorem value_wf {w : World α} (wf : WFWorld w) {l : Loc} {n : Str} {v : PyVal α} (e : attrAt w.heap l n = some (.val v)) :
    ∀ c x m, some (Shown.value v) = some (.value (.cont c x m)) → WFContainer (.cont c x m) := by
  intro c x m h
  cases h
  exact wf.heap.conts l n c x m e

omit [DecidableEq α] in
theorem module_wf {h : Heap α} {l : Loc} :
    ∀ c x m, shown h (.ref l) = some (.value (.cont c x m)) → WFContainer (.cont c x m) := by
  intro c x m e
  simp only [shown] at e
  cases ho : h[l]? with
  | none => rw [ho] at e; cases e
  | some o => rw [ho] at e; cases e

omit [DecidableEq α] in
theorem state_wf {w : World α} (wf : WFWorld w) {l : Loc} (hl : l < w.heap.length) {k : Nat} {s : State (PyVal α)}
    (hs : getState k w.heap l = some s) : ∀ p v, s.get p = some v → WFVal v := fun p v hp =>
  (getState_good wf.heap hl hs p v (dget_mem hp)).1

/-- Running a program is a history of API calls. -/
theorem Prog.steps (p : Prog α β) : ∀ (K H : List Loc) (w : World α), p.Good → WFWorld w →
    (∀ k ∈ H, k < w.heap.length) → (∀ k ∈ K, k ∈ H) →
    ∃ H', Steps H w H' (p.run K w).1 := by
  induction p with
  | ret b => exact fun K H w _ _ _ _ => ⟨H, .done⟩
  | fail e => exact fun K H w _ _ _ _ => ⟨H, .done⟩
  | get m n k ih =>
    intro K H w hg wf hH hK
    simp only [Prog.run]
    split
    · exact ⟨H, .done⟩
    next l hl =>
    split
    · exact ih _ K H w (hg _ (fun _ _ _ h => by cases h)) wf hH hK
    · next b hb =>
      have s := Step.read (hK l (List.mem_of_getElem? hl)) hb
      obtain ⟨H', h⟩ := ih (shown w.heap (.ref b)) (K ++ [b]) (b :: H) w (hg _ module_wf) wf (s.confined wf hH).2.2.1 (by
        intro x hx
        rcases List.mem_append.1 hx with hx | hx
        · exact List.mem_cons_of_mem _ (hK x hx)
        · rw [List.mem_singleton.1 hx]; exact List.mem_cons_self)
      exact ⟨H', .more s h⟩
    · next v hv => exact ih _ K H w (hg _ (value_wf wf hv)) wf hH hK
  | same m m' k ih =>
    intro K H w hg wf hH hK
    simp only [Prog.run]
    split
    · exact ih _ K H w (hg _) wf hH hK
    · exact ⟨H, .done⟩
  | set m n v k ih =>
    intro K H w hg wf hH hK
    simp only [Prog.run]
    split
    · exact ⟨H, .done⟩
    next l hl =>
    split
    · exact ih _ K H w (hg.2.2 _) wf hH hK
    · next w1 hw =>
      have s := Step.assign (hK l (List.mem_of_getElem? hl)) hg.1 hg.2.1 hw
      have c := s.confined wf hH
      obtain ⟨H', h⟩ := ih none K H w1 (hg.2.2 _) c.1.wf c.2.2.1 hK
      exact ⟨H', .more s h⟩
  | link m n m' k ih =>
    intro K H w hg wf hH hK
    simp only [Prog.run]
    split
    · next l l' hl hl' =>
      split
      · exact ih _ K H w (hg.2 _) wf hH hK
      · next w1 hw =>
        have s := Step.link (hK l (List.mem_of_getElem? hl)) (hK l' (List.mem_of_getElem? hl')) hg.1 hw
        have c := s.confined wf hH
        obtain ⟨H', h⟩ := ih none K H w1 (hg.2 _) c.1.wf c.2.2.1 hK
        exact ⟨H', .more s h⟩
    · exact ⟨H, .done⟩
  | del m n k ih =>
    intro K H w hg wf hH hK
    simp only [Prog.run]
    split
    · exact ⟨H, .done⟩
    next l hl =>
    split
    · exact ih _ K H w (hg _) wf hH hK
    · next h1 hw =>
      have s := Step.delete (hK l (List.mem_of_getElem? hl)) hw
      have c := s.confined wf hH
      obtain ⟨H', h⟩ := ih none K H { w with heap := h1 } (hg _) c.1.wf c.2.2.1 hK
      exact ⟨H', .more s h⟩
  | new c k ih =>
    intro K H w hg wf hH hK
    simp only [Prog.run]
    have s := Step.create (K := H) (w := w) c
    have cf := s.confined wf hH
    obtain ⟨H', h⟩ := ih (K ++ [(newModule c w).2]) ((newModule c w).2 :: H) (newModule c w).1 hg cf.1.wf cf.2.2.1 (by
        intro x hx
        rcases List.mem_append.1 hx with hx | hx
        · exact List.mem_cons_of_mem _ (hK x hx)
        · rw [List.mem_singleton.1 hx]; exact List.mem_cons_self)
    exact ⟨H', .more s h⟩
  | state m k ih =>
    intro K H w hg wf hH hK
    simp only [Prog.run]
    split
    · exact ⟨H, .done⟩
    next l hl =>
    split
    · exact ⟨H, .done⟩
    · next s hs =>
      exact ih _ K H w (hg _ (state_wf wf (hH l (hK l (List.mem_of_getElem? hl))) hs)) wf hH hK

omit [DecidableEq α] in
/-- What identifies a Module object, apart from its attributes. -/
def objInfo (w : World α) (l : Loc) : Option (Cls × Nat × Bool × Trace) :=
  (w.heap[l]?).map fun o => (o.cls, o.uid, o.isInit, o.trace)

omit [DecidableEq α] in
/-- Traces, classes, ids, flags and creation traces are kept. -/
structure Keeps (w w' : World α) : Prop where
  jax : w'.jaxTrace = w.jaxTrace
  stack : w'.nnxStack = w.nnxStack
  len : w.heap.length ≤ w'.heap.length
  info : ∀ l : Loc, l < w.heap.length → objInfo w' l = objInfo w l

omit [DecidableEq α] in
theorem Keeps.refl (w : World α) : Keeps w w := ⟨rfl, rfl, Nat.le_refl _, fun _ _ => rfl⟩

omit [DecidableEq α] in
theorem Keeps.trans {w w1 w2 : World α} (a : Keeps w w1) (b : Keeps w1 w2) : Keeps w w2 :=
  ⟨b.jax.trans a.jax, b.stack.trans a.stack, Nat.le_trans a.len b.len,
    fun l hl => (b.info l (Nat.lt_of_lt_of_le hl a.len)).trans (a.info l hl)⟩

omit [DecidableEq α] in
theorem Keeps.set {w : World α} {l : Loc} {o : ModObj α} (ho : w.heap[l]? = some o) (as : Dict Str (Attr α)) :
    Keeps w { w with heap := w.heap.set l { o with attrs := as } } := by
  refine ⟨rfl, rfl, by simp, ?_⟩
  intro a _
  by_cases e : l = a
  · subst e
    simp only [objInfo, List.getElem?_set_self (List.getElem?_eq_some_iff.1 ho).1, ho, Option.map_some]
  · simp only [objInfo, List.getElem?_set_ne e]

theorem Keeps.setAttr {w w1 : World α} {l n x} (e : setAttr w l n x = .ok w1) : Keeps w w1 := by
  unfold Nnx.setAttr at e
  split at e
  · cases e
  · next o ho =>
    split at e
    · cases e
    · split at e
      · cases e
      · split at e
        · cases e
        · cases e; exact .set ho _

omit [DecidableEq α] in
theorem Keeps.delAttr {w : World α} {l n h} (e : delAttr w.heap l n = .ok h) : Keeps w { w with heap := h } := by
  unfold Nnx.delAttr at e
  split at e
  · cases e
  · next o ho =>
    split at e
    · cases e; exact .set ho _
    · cases e

/-- A program does not change the current traces, and keeps what identifies the existing Modules. -/
theorem Prog.keeps (p : Prog α β) : ∀ (K : List Loc) (w : World α), Keeps w (p.run K w).1 := by
  induction p with
  | ret b => exact fun K w => .refl w
  | fail e => exact fun K w => .refl w
  | get m n k ih =>
    intro K w
    simp only [Prog.run]
    split
    · exact .refl w
    · split <;> exact ih _ _ _
  | same m m' k ih =>
    intro K w
    simp only [Prog.run]
    split
    · exact ih _ _ _
    · exact .refl w
  | set m n v k ih =>
    intro K w
    simp only [Prog.run]
    split
    · exact .refl w
    · split
      · exact ih _ _ _
      · next w1 hw => exact (Keeps.setAttr hw).trans (ih none K w1)
  | link m n m' k ih =>
    intro K w
    simp only [Prog.run]
    split
    · split
      · exact ih _ _ _
      · next w1 hw => exact (Keeps.setAttr hw).trans (ih none K w1)
    · exact .refl w
  | del m n k ih =>
    intro K w
    simp only [Prog.run]
    split
    · exact .refl w
    · split
      · exact ih _ _ _
      · next h hw => exact (Keeps.delAttr hw).trans (ih none K { w with heap := h })
  | new c k ih =>
    intro K w
    have h : Keeps w (newModule c w).1 := by
      refine ⟨rfl, rfl, by simp [newModule], ?_⟩
      intro l hl
      simp only [objInfo, newModule, List.getElem?_append_left hl]
    exact h.trans (ih _ (newModule c w).1)
  | state m k ih =>
    intro K w
    simp only [Prog.run]
    split
    · exact .refl w
    · split
      · exact .refl w
      · exact ih _ _ _

/-- A history changes nothing outside a closed set of Modules that contains its handles. -/
theorem Steps.same {K K' : List Loc} {w w' : World α} (r : Steps K w K' w') : ∀ (A : Loc → Prop), WFWorld w →
    (∀ k ∈ K, k < w.heap.length) → Closed w.heap A → (∀ k ∈ K, A k) →
    ∀ a : Loc, a < w.heap.length → ¬ A a → w'.heap[a]? = w.heap[a]? := by
  induction r with
  | done => exact fun _ _ _ _ _ _ _ _ => rfl
  | @more K w K1 w1 K' w' s _ ih =>
    intro A wf hK hA hKA a ha hna
    obtain ⟨cf, hK1, hlt, _⟩ := s.confined wf hK
    have hreg : ∀ x, Region w K x → A x := by
      rintro x ⟨k, hk, p, hp⟩
      exact hp.closed hA (hKA k hk)
    have h1 := cf.same a ha (fun h => hna (hreg a h))
    rw [← h1]
    refine ih (fun x => A x ∨ w.heap.length ≤ x) cf.wf hlt ?_ ?_ a (Nat.lt_of_lt_of_le ha cf.len) ?_
    · intro x n y hx e
      by_cases hr : Region w K x ∨ w.heap.length ≤ x
      · rcases cf.closed x n y hr e with h | h
        · exact .inl (hreg y h)
        · exact .inr h
      · have hx' := hx.resolve_right (fun h => hr (.inr h))
        have hlt' : x < w.heap.length := Nat.lt_of_not_le (fun h => hr (.inr h))
        have : attrAt w.heap x n = attrAt w1.heap x n := by
          simp only [attrAt, cf.same x hlt' (fun h => hr (.inl h))]
        exact .inl (hA x n y hx' (this.trans e))
    · intro k hk
      rcases hK1 k hk with h | h
      · exact .inl (hreg k h)
      · exact .inr h
    · rintro (h | h)
      · exact hna h
      · exact Nat.lt_irrefl _ (Nat.lt_of_lt_of_le ha h)

theorem Step.wfWorld {K K' : List Loc} {w w' : World α} (s : Step K w K' w') (wf : WFWorld w)
    (hK : ∀ k ∈ K, k < w.heap.length) : WFWorld w' := (s.confined wf hK).1.wf

/-- **Programs cannot tell corresponding graphs apart.** -/
theorem Prog.bisim (p : Prog α β) : p.Good → ∀ (S : Loc → Prop) (f : Loc → Loc) (K : List Loc) (w w' : World α),
    Bisim S f w w' → WFWorld w → WFWorld w' → (∀ k ∈ K, S k) →
    ∃ S' f', (∀ a, S a → S' a ∧ f' a = f a) ∧ Bisim S' f' (p.run K w).1 (p.run (K.map f) w').1 ∧
      (p.run K w).2 = (p.run (K.map f) w').2 := by
  induction p with
  | ret b => exact fun _ S f K w w' B _ _ _ => ⟨S, f, fun a ha => ⟨ha, rfl⟩, B, rfl⟩
  | fail e => exact fun _ S f K w w' B _ _ _ => ⟨S, f, fun a ha => ⟨ha, rfl⟩, B, rfl⟩
  | get m n k ih =>
    intro hg S f K w w' B wf wf' hK
    simp only [Prog.run, List.getElem?_map]
    cases hl : K[m]? with
    | none => exact ⟨S, f, fun a ha => ⟨ha, rfl⟩, B, rfl⟩
    | some l =>
      have hS := hK l (List.mem_of_getElem? hl)
      simp only [Option.map_some, B.attr hS]
      cases ha : attrAt w.heap l n with
      | none => exact ih _ (hg _ (fun _ _ _ h => by cases h)) S f K w w' B wf wf' hK
      | some a =>
        cases a with
        | val v => exact ih _ (hg _ (value_wf wf ha)) S f K w w' B wf wf' hK
        | ref b =>
          have hb := B.closed l n b hS ha
          have hsh : shown w'.heap (.ref (f b)) = shown w.heap (.ref b) := by
            obtain ⟨o, o', ho, ho', h1, h2, _⟩ := B.obj b hb
            simp only [shown, ho, ho', Option.map_some, h1, h2]
          simp only [Option.map_some, Attr.redirect, hsh]
          have := ih (shown w.heap (.ref b)) (hg _ module_wf) S f (K ++ [b]) w w' B wf wf' (by
            intro x hx
            rcases List.mem_append.1 hx with hx | hx
            · exact hK x hx
            · rw [List.mem_singleton.1 hx]; exact hb)
          rwa [List.map_append] at this
  | same m m' k ih =>
    intro hg S f K w w' B wf wf' hK
    simp only [Prog.run, List.getElem?_map]
    cases hl : K[m]? with
    | none => exact ⟨S, f, fun a ha => ⟨ha, rfl⟩, B, rfl⟩
    | some l =>
      cases hl' : K[m']? with
      | none => exact ⟨S, f, fun a ha => ⟨ha, rfl⟩, B, rfl⟩
      | some l' =>
        have e : decide (f l = f l') = decide (l = l') :=
          decide_eq_decide.2 ⟨B.inj l l' (hK l (List.mem_of_getElem? hl)) (hK l' (List.mem_of_getElem? hl')), fun h => h ▸ rfl⟩
        simp only [Option.map_some, e]
        exact ih _ (hg _) S f K w w' B wf wf' hK
  | set m n v k ih =>
    intro hg S f K w w' B wf wf' hK
    simp only [Prog.run, List.getElem?_map]
    cases hl : K[m]? with
    | none => exact ⟨S, f, fun a ha => ⟨ha, rfl⟩, B, rfl⟩
    | some l =>
      have hS := hK l (List.mem_of_getElem? hl)
      simp only [Option.map_some]
      rcases B.setAttr hS n (x := .val v) (by intro b hb; cases hb) with ⟨e, h1, h2⟩ | ⟨u, u', h1, h2, B'⟩
      · simp only [Attr.redirect] at h2
        simp only [h1, h2]
        exact ih _ (hg.2.2 _) S f K w w' B wf wf' hK
      · simp only [Attr.redirect] at h2
        simp only [h1, h2]
        refine ih _ (hg.2.2 _) S f K u u' B' ?_ ?_ hK
        · exact (Step.assign (K := [l]) (by simp) hg.1 hg.2.1 h1).wfWorld wf (by simpa using (B.lt hS).1)
        · exact (Step.assign (K := [f l]) (by simp) hg.1 hg.2.1 h2).wfWorld wf' (by simpa using (B.lt hS).2)
  | link m n m' k ih =>
    intro hg S f K w w' B wf wf' hK
    simp only [Prog.run, List.getElem?_map]
    cases hl : K[m]? with
    | none => exact ⟨S, f, fun a ha => ⟨ha, rfl⟩, B, rfl⟩
    | some l =>
      cases hl' : K[m']? with
      | none => exact ⟨S, f, fun a ha => ⟨ha, rfl⟩, B, rfl⟩
      | some l' =>
        have hS := hK l (List.mem_of_getElem? hl)
        have hS' := hK l' (List.mem_of_getElem? hl')
        simp only [Option.map_some]
        rcases B.setAttr hS n (x := .ref l') (by intro b hb; cases hb; exact hS') with ⟨e, h1, h2⟩ | ⟨u, u', h1, h2, B'⟩
        · simp only [Attr.redirect] at h2
          simp only [h1, h2]
          exact ih _ (hg.2 _) S f K w w' B wf wf' hK
        · simp only [Attr.redirect] at h2
          simp only [h1, h2]
          refine ih _ (hg.2 _) S f K u u' B' ?_ ?_ hK
          · exact (Step.link (K := [l, l']) (by simp) (by simp) hg.1 h1).wfWorld wf (by simpa using ⟨(B.lt hS).1, (B.lt hS').1⟩)
          · exact (Step.link (K := [f l, f l']) (by simp) (by simp) hg.1 h2).wfWorld wf' (by simpa using ⟨(B.lt hS).2, (B.lt hS').2⟩)
  | del m n k ih =>
    intro hg S f K w w' B wf wf' hK
    simp only [Prog.run, List.getElem?_map]
    cases hl : K[m]? with
    | none => exact ⟨S, f, fun a ha => ⟨ha, rfl⟩, B, rfl⟩
    | some l =>
      have hS := hK l (List.mem_of_getElem? hl)
      simp only [Option.map_some]
      rcases B.delAttr hS (fun o => wf.heap.nodup _ o) (fun o => wf'.heap.nodup _ o) n with ⟨e, h1, h2⟩ | ⟨u, u', h1, h2, B'⟩
      · simp only [h1, h2]
        exact ih _ (hg _) S f K w w' B wf wf' hK
      · simp only [h1, h2]
        refine ih _ (hg _) S f K _ _ B' ?_ ?_ hK
        · exact (Step.delete (K := [l]) (by simp) h1).wfWorld wf (by simpa using (B.lt hS).1)
        · exact (Step.delete (K := [f l]) (by simp) h2).wfWorld wf' (by simpa using (B.lt hS).2)
  | new c k ih =>
    intro hg S f K w w' B wf wf' hK
    obtain ⟨f1, hn, hf, B1⟩ := B.new c
    obtain ⟨S', f', hS, B', e⟩ := ih hg _ f1 (K ++ [w.heap.length]) _ _ B1
      ((Step.create (K := []) c).wfWorld wf (by simp)) ((Step.create (K := []) c).wfWorld wf' (by simp)) (by
        intro x hx
        rcases List.mem_append.1 hx with hx | hx
        · exact .inl (hK x hx)
        · exact .inr (List.mem_singleton.1 hx))
    have hmap : (K ++ [w.heap.length]).map f1 = K.map f ++ [w'.heap.length] := by
      rw [List.map_append, List.map_singleton, hn]
      congr 1
      exact List.map_congr_left fun x hx => hf x (hK x hx)
    rw [hmap] at B' e
    exact ⟨S', f', fun a ha => ⟨(hS a (.inl ha)).1, (hS a (.inl ha)).2.trans (hf a ha)⟩, B', e⟩
  | state m k ih =>
    intro hg S f K w w' B wf wf' hK
    simp only [Prog.run, List.getElem?_map]
    cases hl : K[m]? with
    | none => exact ⟨S, f, fun a ha => ⟨ha, rfl⟩, B, rfl⟩
    | some l =>
      have hS := hK l (List.mem_of_getElem? hl)
      obtain ⟨s, d, _, _, h1, h2⟩ := B.getState wf.heap wf'.heap hS (Nat.lt_succ_self _) (Nat.lt_succ_self _)
      simp only [Option.map_some, h1, h2]
      exact ih _ (hg _ (state_wf wf (B.lt hS).1 h1)) S f K w w' B wf wf' hK

/-! ### Functions that behave like programs -/

omit [DecidableEq α] in
/-- What is confined to a closed set is confined to any larger closed set. -/
theorem Confined.mono {A A' : Loc → Prop} {w w' : World α} (c : Confined A w w') (hsub : ∀ a, A a → A' a)
    (hA : Closed w.heap A') : Confined A' w w' := by
  refine ⟨c.wf, c.len, fun l hl h => c.same l hl (fun h' => h (hsub l h')), ?_, c.stable⟩
  intro x n y hx e
  by_cases hr : A x ∨ w.heap.length ≤ x
  · exact (c.closed x n y hr e).imp (hsub y) id
  · have hx' := hx.resolve_right (fun h => hr (.inr h))
    have hlt : x < w.heap.length := Nat.lt_of_not_le (fun h => hr (.inr h))
    have : attrAt w.heap x n = attrAt w'.heap x n := by
      simp only [attrAt, c.same x hlt (fun h => hr (.inl h))]
    exact .inl (hA x n y hx' (this.trans e))

/-- A history is confined to any closed set of Modules that contains its handles. -/
theorem Steps.confined {K K' : List Loc} {w w' : World α} (r : Steps K w K' w') : ∀ (A : Loc → Prop), WFWorld w →
    (∀ k ∈ K, k < w.heap.length) → Closed w.heap A → (∀ k ∈ K, A k) → Confined A w w' := by
  induction r with
  | done => exact fun A wf _ hA _ => .refl wf hA
  | @more K w K1 w1 K' w' s _ ih =>
    intro A wf hK hA hKA
    obtain ⟨cf, hK1, hlt, _⟩ := s.confined wf hK
    have hreg : ∀ x, Region w K x → A x := by
      rintro x ⟨k, hk, p, hp⟩
      exact hp.closed hA (hKA k hk)
    have c := cf.mono hreg hA
    exact c.trans (ih _ cf.wf hlt c.closed fun k hk => (hK1 k hk).imp (hreg k) id)

/-- A function of one Module that cannot tell corresponding module graphs apart, changes only what it can reach, and keeps the
traces and what identifies the existing Modules. -/
structure Parametric (F : Loc → World α → World α × Except Err β) : Prop where
  bisim : ∀ (S : Loc → Prop) (f : Loc → Loc) (l : Loc) (w w' : World α), Bisim S f w w' → WFWorld w → WFWorld w' → S l →
    ∃ S' f', (∀ a, S a → S' a ∧ f' a = f a) ∧ Bisim S' f' (F l w).1 (F (f l) w').1 ∧ (F l w).2 = (F (f l) w').2
  confined : ∀ (A : Loc → Prop) (l : Loc) (w : World α), WFWorld w → Closed w.heap A → A l → l < w.heap.length →
    Confined A w (F l w).1
  keeps : ∀ (l : Loc) (w : World α), WFWorld w → l < w.heap.length → Keeps w (F l w).1

theorem Prog.Good.parametric {p : Prog α β} (hp : p.Good) : Parametric p.call := by
  refine ⟨?_, ?_, fun l w _ _ => p.keeps [l] w⟩
  · intro S f l w w' B wf wf' hl
    exact p.bisim hp S f [l] w w' B wf wf' (by simpa using hl)
  · intro A l w wf hA hl hlt
    obtain ⟨H, st⟩ := p.steps [l] [l] w hp wf (by simpa using hlt) (fun _ h => h)
    exact st.confined A wf (by simpa using hlt) hA (by simpa using hl)

theorem Parametric.wf {F : Loc → World α → World α × Except Err β} (hF : Parametric F) {l : Loc} {w : World α} (wf : WFWorld w)
    (hl : l < w.heap.length) : WFWorld (F l w).1 :=
  (hF.confined (fun _ => True) l w wf (fun _ _ _ _ _ => trivial) trivial hl).wf

end Nnx
