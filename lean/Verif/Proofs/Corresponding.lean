import Verif.Proofs.Bisim
import Verif.Proofs.SameLimit
/-
Updating, partitioning and merging on corresponding module graphs.
-/
namespace Nnx
variable {α : Type}

/-- `get_state` with the same recursion limit. -/
theorem Bisim.getState_same {S : Loc → Prop} {f : Loc → Loc} {w w' : World α} (B : Bisim S f w w') (wf : WFHeap w.heap)
    (wf' : WFHeap w'.heap) {a : Loc} (ha : S a) (k : Nat) : Nnx.getState k w'.heap (f a) = Nnx.getState k w.heap a := by
  have hr : ∃ p, Walk w.heap a p a ∧ Walk w'.heap (f a) p (f a) := ⟨[], .here (B.lt ha).1, .here (B.lt ha).2⟩
  cases e : Nnx.getState k w.heap a with
  | some t => exact (B.sim wf wf' ha).getState_some hr e
  | none =>
    cases e' : Nnx.getState k w'.heap (f a) with
    | none => rfl
    | some t =>
      obtain ⟨g, B', hg⟩ := B.symm
      have ha' : ∃ x, S x ∧ f x = f a := ⟨a, ha, rfl⟩
      have := (B'.sim wf' wf ha').getState_some (b := g (f a)) ⟨[], .here (B'.lt ha').1, .here (B'.lt ha').2⟩ e'
      rw [hg a ha, e] at this
      cases this

theorem Bisim.moduleDef_same {S : Loc → Prop} {f : Loc → Loc} {w w' : World α} (B : Bisim S f w w') (wf : WFHeap w.heap)
    (wf' : WFHeap w'.heap) {a : Loc} (ha : S a) (k : Nat) : Nnx.getModuleDef k w'.heap (f a) = Nnx.getModuleDef k w.heap a := by
  have hr : ∃ p, Walk w.heap a p a ∧ Walk w'.heap (f a) p (f a) := ⟨[], .here (B.lt ha).1, .here (B.lt ha).2⟩
  cases e : Nnx.getModuleDef k w.heap a with
  | some t => exact (B.sim wf wf' ha).getModuleDef_some hr e
  | none =>
    cases e' : Nnx.getModuleDef k w'.heap (f a) with
    | none => rfl
    | some t =>
      obtain ⟨g, B', hg⟩ := B.symm
      have ha' : ∃ x, S x ∧ f x = f a := ⟨a, ha, rfl⟩
      have := (B'.sim wf' wf ha').getModuleDef_some (b := g (f a)) ⟨[], .here (B'.lt ha').1, .here (B'.lt ha').2⟩ e'
      rw [hg a ha, e] at this
      cases this

/-- `partition` with the same recursion limit. -/
theorem Bisim.partition_same {S : Loc → Prop} {f : Loc → Loc} {w w' : World α} (B : Bisim S f w w') (wf : WFHeap w.heap)
    (wf' : WFHeap w'.heap) {a : Loc} (ha : S a) (k : Nat) (fs : List (Filter α)) :
    partitionModule k w'.heap (f a) fs = partitionModule k w.heap a fs := by
  simp only [partitionModule, B.getState_same wf wf' ha, B.moduleDef_same wf wf' ha]

/-! ### Updating -/

variable [DecidableEq α]

theorem Bisim.setValueAtPath {S : Loc → Prop} {f : Loc → Loc} {w w' : World α} (B : Bisim S f w w') (v : PyVal α) :
    ∀ (p : List Str) (x : Attr α), (∀ b, x = .ref b → S b) →
    (∃ e, Nnx.setValueAtPath w x p v = .error e ∧ Nnx.setValueAtPath w' (x.redirect f) p v = .error e) ∨
    (∃ u u', Nnx.setValueAtPath w x p v = .ok u ∧ Nnx.setValueAtPath w' (x.redirect f) p v = .ok u' ∧ Bisim S f u u') := by
  intro p
  induction p with
  | nil => intro x hx; cases x <;> exact .inl ⟨_, rfl, rfl⟩
  | cons n p ih =>
    intro x hx
    cases x with
    | val y => left; cases p <;> exact ⟨_, rfl, rfl⟩
    | ref b =>
      have hb := hx b rfl
      cases p with
      | nil => exact B.setAttr hb n (x := .val v) (fun _ h => by cases h)
      | cons m p =>
        simp only [Attr.redirect, Nnx.setValueAtPath, varsGet]
        obtain ⟨o, o', ho, ho', _, _, _, _, h5⟩ := B.obj b hb
        simp only [ho, ho', h5]
        cases hd : dget o.attrs n with
        | none => exact .inl ⟨_, rfl, rfl⟩
        | some y =>
          simp only [Option.map_some]
          refine ih y ?_
          rintro c rfl
          exact B.closed b n c hb (by simp only [attrAt, ho, hd])

theorem Bisim.assignAll {S : Loc → Prop} {f : Loc → Loc} {a : Loc} (ha : S a) :
    ∀ (es : List (Str × PyVal α)) {w w' : World α}, Bisim S f w w' →
    Bisim S f (Nnx.assignAll a es w).1 (Nnx.assignAll (f a) es w').1 ∧ (Nnx.assignAll (f a) es w').2 = (Nnx.assignAll a es w).2 := by
  intro es
  induction es with
  | nil => exact fun B => ⟨B, rfl⟩
  | cons e es ih =>
    intro w w' B
    obtain ⟨p, v⟩ := e
    have h := B.setValueAtPath v (splitSlash p) (.ref a) (fun b h => by cases h; exact ha)
    simp only [Attr.redirect] at h
    rcases h with ⟨e, h1, h2⟩ | ⟨u, u', h1, h2, B'⟩
    · simp only [Nnx.assignAll, h1, h2]; exact ⟨B, trivial⟩
    · simp only [Nnx.assignAll, h1, h2]; exact ih B'

/-- `update_state` on corresponding Modules. -/
theorem Bisim.updateState {S : Loc → Prop} {f : Loc → Loc} {w w' : World α} (B : Bisim S f w w') (wf : WFHeap w.heap)
    (wf' : WFHeap w'.heap) {a : Loc} (ha : S a) (k : Nat) (us : List (State (PyVal α))) :
    Bisim S f (Nnx.updateState k a us w).1 (Nnx.updateState k (f a) us w').1 ∧
      (Nnx.updateState k (f a) us w').2 = (Nnx.updateState k a us w).2 := by
  simp only [Nnx.updateState, B.getState_same wf wf' ha]
  cases Nnx.getState k w.heap a with
  | none => exact ⟨B, rfl⟩
  | some s => exact B.assignAll ha _

theorem setValueAtPath_keeps (v : PyVal α) : ∀ (p : List Str) (x : Attr α) {w w' : World α},
    Nnx.setValueAtPath w x p v = .ok w' → Keeps w w' := by
  intro p
  induction p with
  | nil => intro x w w' e; cases x <;> cases e
  | cons n p ih =>
    intro x w w' e
    cases x with
    | val y => cases p <;> cases e
    | ref b =>
      cases p with
      | nil => exact Keeps.setAttr e
      | cons m p =>
        simp only [Nnx.setValueAtPath] at e
        split at e
        · cases e
        · exact ih _ e

theorem assignAll_keeps (root : Loc) : ∀ (es : List (Str × PyVal α)) (w : World α), Keeps w (Nnx.assignAll root es w).1 := by
  intro es
  induction es with
  | nil => exact fun w => .refl w
  | cons e es ih =>
    intro w
    obtain ⟨p, v⟩ := e
    simp only [Nnx.assignAll]
    split
    · exact .refl w
    · next h => exact (setValueAtPath_keeps v _ _ h).trans (ih _)

theorem updateState_keeps (k : Nat) (l : Loc) (us : List (State (PyVal α))) (w : World α) : Keeps w (Nnx.updateState k l us w).1 := by
  unfold Nnx.updateState
  split
  · exact .refl w
  · exact assignAll_keeps _ _ _

/-! ### Merging -/

omit [DecidableEq α] in
/-- Building a Module keeps the world well formed. -/
theorem BuildSpec.wfWorld {h : Heap α} (wf : WFHeap h) {root : Loc} {w w1 : World α} {f : Loc → Loc} (b : BuildSpec h root w w1 f)
    (wfw : WFWorld w) : WFWorld w1 := by
  have hnew : ∀ j : Nat, w.heap.length ≤ j → j < w1.heap.length → ∃ l o u, Reaches h root l ∧ f l = j ∧ h[l]? = some o ∧
      w.nextId < u ∧ u ≤ w1.nextId ∧ w1.heap[j]? = some (rebuilt f o u w.curTrace) := by
    intro j h1 h2
    obtain ⟨l, hl, rfl⟩ := b.surj j h1 h2
    obtain ⟨p, hp⟩ := hl
    have ho : h[l]? = some (h[l]'hp.lt) := List.getElem?_eq_getElem hp.lt
    obtain ⟨u, hu1, hu2, hu⟩ := b.new l _ ⟨p, hp⟩ ho
    exact ⟨l, _, u, ⟨p, hp⟩, rfl, ho, hu1, hu2, hu⟩
  have hold : ∀ j : Nat, j < w.heap.length → ∀ n, attrAt w1.heap j n = attrAt w.heap j n := by
    intro j hj n
    simp only [attrAt, b.old j hj]
  have hattr : ∀ (j : Nat) n x, w.heap.length ≤ j → attrAt w1.heap j n = some x → ∃ l, Reaches h root l ∧ f l = j ∧
      ((∃ v, x = .val v ∧ attrAt h l n = some (.val v)) ∨ ∃ l', x = .ref (f l') ∧ attrAt h l n = some (.ref l')) := by
    intro j n x hj e
    obtain ⟨l, o, u, hl, rfl, ho, _⟩ := hnew j hj (attrAt_some_lt e)
    refine ⟨l, hl, rfl, ?_⟩
    rw [b.attr wf hl n] at e
    cases ha : attrAt h l n with
    | none => rw [ha] at e; cases e
    | some y =>
      rw [ha] at e
      cases y with
      | ref l' => cases e; exact .inr ⟨l', rfl, rfl⟩
      | val v =>
        simp only at e
        split at e
        · cases e; exact .inl ⟨v, rfl, rfl⟩
        · cases e
  refine ⟨⟨?_, ?_, ?_, ?_, ?_, ?_⟩, ?_⟩
  · intro j o ho
    by_cases hj : j < w.heap.length
    · rw [b.old j hj] at ho; exact wfw.heap.nodup j o ho
    · obtain ⟨l, o', u, _, _, _, _, _, hu⟩ := hnew j (Nat.le_of_not_lt hj) (List.getElem?_eq_some_iff.1 ho).1
      rw [hu] at ho; cases ho
      exact rebuilt_nodup _ _ _ _
  · intro j n l' e
    by_cases hj : j < w.heap.length
    · rw [hold j hj] at e; exact Nat.lt_of_lt_of_le (wfw.heap.refs _ _ _ e) b.len
    · obtain ⟨l, hl, rfl, ⟨v, h1, _⟩ | ⟨c, h1, h2⟩⟩ := hattr j n _ (Nat.le_of_not_lt hj) e
      · cases h1
      · cases h1; exact b.lt (hl.step wf h2)
  · intro j j' o o' ho ho' hu
    by_cases hj : j < w.heap.length <;> by_cases hj' : j' < w.heap.length
    · rw [b.old j hj] at ho; rw [b.old j' hj'] at ho'; exact wfw.heap.uids _ _ _ _ ho ho' hu
    · obtain ⟨_, _, u, _, _, _, h1, _, hu'⟩ := hnew j' (Nat.le_of_not_lt hj') (List.getElem?_eq_some_iff.1 ho').1
      rw [hu'] at ho'; cases ho'
      rw [b.old j hj] at ho
      have := wfw.ids _ _ ho
      rw [hu] at this
      exact absurd this (Nat.not_le.2 h1)
    · obtain ⟨_, _, u, _, _, _, h1, _, hu'⟩ := hnew j (Nat.le_of_not_lt hj) (List.getElem?_eq_some_iff.1 ho).1
      rw [hu'] at ho; cases ho
      rw [b.old j' hj'] at ho'
      have := wfw.ids _ _ ho'
      rw [← hu] at this
      exact absurd this (Nat.not_le.2 h1)
    · exact b.uniq j j' o o' (Nat.le_of_not_lt hj) (Nat.le_of_not_lt hj') ho ho' hu
  · intro j n c v m e
    by_cases hj : j < w.heap.length
    · rw [hold j hj] at e; exact wfw.heap.conts _ _ _ _ _ e
    · obtain ⟨l, _, rfl, ⟨v, h1, h2⟩ | ⟨c, h1, h2⟩⟩ := hattr j n _ (Nat.le_of_not_lt hj) e
      · cases h1; exact wf.conts _ _ _ _ _ h2
      · cases h1
  · intro j n a e
    by_cases hj : j < w.heap.length
    · rw [hold j hj] at e; exact wfw.heap.slash _ _ _ e
    · obtain ⟨l, _, rfl, ⟨v, _, h2⟩ | ⟨c, _, h2⟩⟩ := hattr j n _ (Nat.le_of_not_lt hj) e <;> exact wf.slash _ _ _ h2
  · intro j n a e
    by_cases hj : j < w.heap.length
    · rw [hold j hj] at e; exact wfw.heap.reserved _ _ _ e
    · obtain ⟨l, _, rfl, ⟨v, _, h2⟩ | ⟨c, _, h2⟩⟩ := hattr j n _ (Nat.le_of_not_lt hj) e <;> exact wf.reserved _ _ _ h2
  · intro j o ho
    by_cases hj : j < w.heap.length
    · rw [b.old j hj] at ho; exact Nat.le_trans (wfw.ids _ _ ho) b.ids
    · obtain ⟨_, _, u, _, _, _, _, h2, hu⟩ := hnew j (Nat.le_of_not_lt hj) (List.getElem?_eq_some_iff.1 ho).1
      rw [hu] at ho; cases ho
      exact h2

omit [DecidableEq α] in
/-- Modules built from one definition in two worlds correspond. -/
theorem BuildSpec.bisim {h : Heap α} (wf : WFHeap h) {root : Loc} (hroot : root < h.length) {u v u' v' : World α} {f f' : Loc → Loc}
    (b : BuildSpec h root u v f) (b' : BuildSpec h root u' v' f') :
    ∃ g, g u.heap.length = u'.heap.length ∧ Bisim (fun x => u.heap.length ≤ x ∧ x < v.heap.length) g v v' := by
  classical
  have hr : Reaches h root root := ⟨[], .here hroot⟩
  have hsome : ∀ x : Nat, u.heap.length ≤ x ∧ x < v.heap.length → ∃ l, Reaches h root l ∧ f l = x := fun x hx => b.surj x hx.1 hx.2
  let inv : Loc → Loc := fun x => if hx : ∃ l, Reaches h root l ∧ f l = x then hx.choose else root
  have hinv : ∀ l, Reaches h root l → inv (f l) = l := by
    intro l hl
    have hx : ∃ l', Reaches h root l' ∧ f l' = f l := ⟨l, hl, rfl⟩
    simp only [inv, dif_pos hx]
    exact b.inj _ _ hx.choose_spec.1 hl hx.choose_spec.2
  refine ⟨fun x => f' (inv x), ?_, ?_, ?_, ?_⟩
  · rw [← b.base]
    simp only [hinv root hr]
    exact b'.base
  · intro x y hx hy e
    obtain ⟨l, hl, rfl⟩ := hsome x hx
    obtain ⟨m, hm, rfl⟩ := hsome y hy
    simp only [hinv l hl, hinv m hm] at e
    rw [b'.inj _ _ hl hm e]
  · intro x hx
    obtain ⟨l, hl, rfl⟩ := hsome x hx
    obtain ⟨p, hp⟩ := hl
    have hl : Reaches h root l := ⟨p, hp⟩
    have ho : h[l]? = some (h[l]'hp.lt) := List.getElem?_eq_getElem hp.lt
    obtain ⟨i, _, _, hi⟩ := b.new l _ hl ho
    obtain ⟨i', _, _, hi'⟩ := b'.new l _ hl ho
    refine ⟨_, rebuilt f' (h[l]'hp.lt) i' u'.curTrace, hi, by simp only [hinv l hl]; exact hi', rfl, rfl, ?_, ?_, ?_⟩
    · rw [traceValid_of b.jax b.stack]; exact traceValid_eq.2 rfl
    · rw [traceValid_of b'.jax b'.stack]; exact traceValid_eq.2 rfl
    · intro n
      rw [rebuilt_get f' (wf.nodup _ _ ho), rebuilt_get f (wf.nodup _ _ ho)]
      cases hd : dget (h[l]'hp.lt).attrs n with
      | none => rfl
      | some y =>
        cases y with
        | ref c =>
          have hc : Reaches h root c := hl.step wf (n := n) (by simp only [attrAt, ho, hd])
          simp only [Option.map_some, Attr.redirect, hinv c hc]
        | val y =>
          simp only
          split <;> rfl
  · intro x n y hx e
    obtain ⟨l, hl, rfl⟩ := hsome x hx
    rw [b.attr wf hl n] at e
    cases ha : attrAt h l n with
    | none => rw [ha] at e; cases e
    | some z =>
      rw [ha] at e
      cases z with
      | ref c => cases e; exact ⟨b.ge c, b.lt (hl.step wf ha)⟩
      | val z =>
        simp only at e
        split at e <;> cases e

/-- `v` is the world `u` with new Modules, which have no references to others. -/
structure Added (u v : World α) : Prop where
  wf : WFWorld v
  len : u.heap.length ≤ v.heap.length
  old : ∀ a : Loc, a < u.heap.length → v.heap[a]? = u.heap[a]?
  jax : v.jaxTrace = u.jaxTrace
  stack : v.nnxStack = u.nnxStack
  closed : Closed v.heap (fun x => u.heap.length ≤ x)

omit [DecidableEq α] in
theorem GoodUpdates.entries {ss : List (State (PyVal α))} (hg : GoodUpdates ss) {k : Str} {v : PyVal α}
    (h : (k, v) ∈ ((State.new [] : State (PyVal α)) :: ss).foldl (fun d t => dupdate d t.items) []) :
    WFVal v ∧ isReserved ((splitSlash k).getLastD []) = false := by
  rcases mem_foldl_dupdate _ _ _ _ (by simp [DNodup]) h with h | ⟨t, ht, h⟩
  · cases h
  · rcases List.mem_cons.1 ht with rfl | ht
    · cases h
    · exact hg t ht k v h

/-- Merging a definition with any States adds Modules. -/
theorem mergeDef_added {h : Heap α} (wf : WFHeap h) {root : Loc} (hroot : root < h.length) {k : Nat} {d : ModuleDef α}
    (hd : getModuleDef k h root = some d) {ss : List (State (PyVal α))} (hg : GoodUpdates ss) {u : World α} (wfu : WFWorld u) :
    Added u (mergeDef d ss u).1 ∧ u.heap.length < (mergeDef d ss u).1.heap.length ∧
      ∀ l, (mergeDef d ss u).2 = .ok l → l = u.heap.length := by
  obtain ⟨v, f, hb, b⟩ := getModuleDef_build wf hroot hd u
  have hr : Reaches h root root := ⟨[], .here hroot⟩
  have hlt : u.heap.length < v.heap.length := b.base ▸ b.lt hr
  have hcl : Closed v.heap (fun x => u.heap.length ≤ x) := by
    intro x n y hx e
    obtain ⟨l, hl, rfl⟩ := b.surj x hx (attrAt_some_lt e)
    rw [b.attr wf hl n] at e
    cases ha : attrAt h l n with
    | none => rw [ha] at e; cases e
    | some z =>
      rw [ha] at e
      cases z with
      | ref c => cases e; exact b.ge c
      | val z =>
        simp only at e
        split at e <;> cases e
  simp only [mergeDef, hb, updateModule]
  have c := confined_assignAll (A := fun x => u.heap.length ≤ x) u.heap.length _ v _ _ (b.wfWorld wf wfu) hcl (Nat.le_refl _) hlt
    (fun k v h => hg.entries h) rfl
  have ka := assignAll_keeps u.heap.length (((State.new [] : State (PyVal α)) :: ss).foldl (fun d t => dupdate d t.items) []) v
  have A : Added u (assignAll u.heap.length (((State.new [] : State (PyVal α)) :: ss).foldl (fun d t => dupdate d t.items) []) v).1 := by
    refine ⟨c.1.wf, Nat.le_trans b.len c.1.len, ?_, ka.jax.trans b.jax, ka.stack.trans b.stack, ?_⟩
    · intro a ha
      exact (c.1.same a (Nat.lt_of_lt_of_le ha b.len) (Nat.not_le.2 ha)).trans (b.old a ha)
    · intro x n y hx e
      rcases c.1.closed x n y (.inl hx) e with h | h
      · exact h
      · exact Nat.le_trans b.len h
  have hl := c.2
  generalize assignAll u.heap.length (((State.new [] : State (PyVal α)) :: ss).foldl (fun d t => dupdate d t.items) []) v = r at A hl ⊢
  obtain ⟨r1, _ | e⟩ := r
  · exact ⟨A, by simp only at hl ⊢; rw [hl]; exact hlt, fun l h => by cases h; rfl⟩
  · exact ⟨A, by simp only at hl ⊢; rw [hl]; exact hlt, fun l h => by cases h⟩

/-- Merging a definition with the same States in two worlds gives corresponding Modules, or the same exception. -/
theorem mergeDef_bisim {h : Heap α} (wf : WFHeap h) {root : Loc} (hroot : root < h.length) {k : Nat} {d : ModuleDef α}
    (hd : getModuleDef k h root = some d) (ss : List (State (PyVal α))) (u u' : World α) :
    ∃ g S, g u.heap.length = u'.heap.length ∧ S u.heap.length ∧ Bisim S g (mergeDef d ss u).1 (mergeDef d ss u').1 ∧
      (((mergeDef d ss u).2 = .ok u.heap.length ∧ (mergeDef d ss u').2 = .ok u'.heap.length) ∨
        ∃ e, (mergeDef d ss u).2 = .error e ∧ (mergeDef d ss u').2 = .error e) := by
  obtain ⟨v, f, hb, b⟩ := getModuleDef_build wf hroot hd u
  obtain ⟨v', f', hb', b'⟩ := getModuleDef_build wf hroot hd u'
  obtain ⟨g, hgu, B⟩ := b.bisim wf hroot b'
  have hr : Reaches h root root := ⟨[], .here hroot⟩
  have hlt : u.heap.length < v.heap.length := b.base ▸ b.lt hr
  obtain ⟨B', e⟩ := B.assignAll (a := u.heap.length) ⟨Nat.le_refl _, hlt⟩
    (((State.new [] : State (PyVal α)) :: ss).foldl (fun d t => dupdate d t.items) [])
  rw [hgu] at B' e
  refine ⟨g, fun x => u.heap.length ≤ x ∧ x < v.heap.length, hgu, ⟨Nat.le_refl _, hlt⟩, ?_⟩
  simp only [mergeDef, hb, hb', updateModule]
  generalize Nnx.assignAll u.heap.length (((State.new [] : State (PyVal α)) :: ss).foldl (fun d t => dupdate d t.items) []) v = r at *
  generalize Nnx.assignAll u'.heap.length (((State.new [] : State (PyVal α)) :: ss).foldl (fun d t => dupdate d t.items) []) v' = r' at *
  obtain ⟨r1, _ | e1⟩ := r <;> obtain ⟨r1', _ | e1'⟩ := r'
  · exact ⟨B', .inl ⟨rfl, rfl⟩⟩
  · cases e
  · cases e
  · cases e; exact ⟨B', .inr ⟨_, rfl, rfl⟩⟩

end Nnx
