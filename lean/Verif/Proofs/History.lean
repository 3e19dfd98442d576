import Verif.Proofs.Graph
import Verif.Spec.History
/-
Every API call preserves well-formedness and only touches what the caller can reach.
-/
namespace Nnx
variable {α : Type} [DecidableEq α]

/-! ### Regions -/

omit [DecidableEq α] in
/-- A set of modules that references do not leave. -/
def Closed (h : Heap α) (A : Loc → Prop) : Prop :=
  ∀ l n l', A l → attrAt h l n = some (.ref l') → A l'

omit [DecidableEq α] in
/-- The step from `w` to `w'` keeps the world well formed, changes only modules in `A` and adds new ones;
references do not leave `A` and the new modules. -/
structure Confined (A : Loc → Prop) (w w' : World α) : Prop where
  wf : WFWorld w'
  len : w.heap.length ≤ w'.heap.length
  same : ∀ l : Loc, l < w.heap.length → ¬ A l → w'.heap[l]? = w.heap[l]?
  closed : Closed w'.heap (fun l => A l ∨ w.heap.length ≤ l)
  stable : ∀ (l : Loc) (o : ModObj α), w.heap[l]? = some o → ∃ o', w'.heap[l]? = some o' ∧ o'.uid = o.uid ∧
    o'.cls = o.cls ∧ o'.trace = o.trace

omit [DecidableEq α] in
theorem Confined.refl {A : Loc → Prop} {w : World α} (wf : WFWorld w) (hA : Closed w.heap A) : Confined A w w := by
  refine ⟨wf, Nat.le_refl _, fun _ _ _ => rfl, ?_, fun l o ho => ⟨o, ho, rfl, rfl, rfl⟩⟩
  intro l n l' hl e
  rcases hl with hl | hl
  · exact .inl (hA _ _ _ hl e)
  · exact absurd (attrAt_some_lt e) (Nat.not_lt.2 hl)

omit [DecidableEq α] in
theorem Confined.trans {A : Loc → Prop} {w w1 w2 : World α} (h1 : Confined A w w1)
    (h2 : Confined (fun l => A l ∨ w.heap.length ≤ l) w1 w2) : Confined A w w2 := by
  refine ⟨h2.wf, Nat.le_trans h1.len h2.len, ?_, ?_, ?_⟩
  · intro l hl hA
    rw [h2.same l (Nat.lt_of_lt_of_le hl h1.len), h1.same l hl hA]
    rintro (h | h)
    · exact hA h
    · exact Nat.lt_irrefl _ (Nat.lt_of_lt_of_le hl h)
  · intro l n l' hl e
    have : (A l' ∨ w.heap.length ≤ l') ∨ w1.heap.length ≤ l' := h2.closed l n l' (.inl hl) e
    rcases this with h | h
    · exact h
    · exact .inr (Nat.le_trans h1.len h)
  · intro l o ho
    obtain ⟨o1, e1, a1, b1, c1⟩ := h1.stable l o ho
    obtain ⟨o2, e2, a2, b2, c2⟩ := h2.stable l o1 e1
    exact ⟨o2, e2, a2.trans a1, b2.trans b1, c2.trans c1⟩

omit [DecidableEq α] in
/-- When no module is added. -/
theorem Confined.trans' {A : Loc → Prop} {w w1 w2 : World α} (h1 : Confined A w w1)
    (hlen : w1.heap.length = w.heap.length) (h2 : Closed w1.heap A → Confined A w1 w2) : Confined A w w2 := by
  have hcl : Closed w1.heap A := by
    intro l n l' hl e
    rcases h1.closed l n l' (.inl hl) e with h | h
    · exact h
    · have := h1.wf.heap.refs _ _ _ e
      rw [hlen] at this
      exact absurd this (Nat.not_lt.2 h)
  have h2 := h2 hcl
  refine ⟨h2.wf, by rw [← hlen]; exact h2.len, ?_, ?_, ?_⟩
  · intro l hl hA
    rw [h2.same l (by rw [hlen]; exact hl) hA, h1.same l hl hA]
  · intro l n l' hl e
    have := h2.closed l n l' (by rw [hlen]; exact hl) e
    rw [hlen] at this; exact this
  · intro l o ho
    obtain ⟨o1, e1, a1, b1, c1⟩ := h1.stable l o ho
    obtain ⟨o2, e2, a2, b2, c2⟩ := h2.stable l o1 e1
    exact ⟨o2, e2, a2.trans a1, b2.trans b1, c2.trans c1⟩

/-! ### Changing one module -/

omit [DecidableEq α] in
/-- Replacing the module at `l` by one with the same id keeps a world well formed and confined. -/
theorem confined_set {A : Loc → Prop} {w : World α} (wf : WFWorld w) (hA : Closed w.heap A) {l : Loc}
    (hl : A l) {o o' : ModObj α} (ho : w.heap[l]? = some o) (hu : o'.uid = o.uid) (hcls : o'.cls = o.cls)
    (htr : o'.trace = o.trace) (hn : DNodup o'.attrs)
    (hat : ∀ n a, dget o'.attrs n = some a → dget o.attrs n = some a ∨
      (GoodName n ∧ ((∃ v, a = .val v ∧ WFVal v) ∨ ∃ l', a = .ref l' ∧ A l' ∧ l' < w.heap.length))) :
    Confined A w { w with heap := w.heap.set l o' } := by
  have hlt := (List.getElem?_eq_some_iff.1 ho).1
  have hget : ∀ l' : Loc, (w.heap.set l o')[l']? = if l = l' then some o' else w.heap[l']? := by
    intro l'
    rw [List.getElem?_set]
    simp [hlt]
  have hattr : ∀ l' n a, attrAt (w.heap.set l o') l' n = some a → attrAt w.heap l' n = some a ∨
      (l' = l ∧ GoodName n ∧ ((∃ v, a = .val v ∧ WFVal v) ∨ ∃ l', a = .ref l' ∧ A l' ∧ l' < w.heap.length)) := by
    intro l' n a e
    simp only [attrAt, hget] at e
    by_cases hll : l = l'
    · subst hll
      simp only [if_true] at e
      rcases hat n a e with h | h
      · left; simp only [attrAt, ho]; exact h
      · exact .inr ⟨rfl, h⟩
    · simp only [hll, if_false] at e
      exact .inl e
  refine ⟨⟨⟨?_, ?_, ?_, ?_, ?_, ?_⟩, ?_⟩, ?_, ?_, ?_, ?_⟩
  · intro l' x hx
    simp only [hget] at hx
    split at hx
    · simp only [Option.some.injEq] at hx; subst hx; exact hn
    · exact wf.heap.nodup _ _ hx
  · intro l' n b e
    simp only [List.length_set]
    rcases hattr _ _ _ e with h | ⟨_, _, h | ⟨c, h, _, hc⟩⟩
    · exact wf.heap.refs _ _ _ h
    · obtain ⟨v, h, _⟩ := h; cases h
    · cases h; exact hc
  · intro l1 l2 x y hx hy hxy
    simp only [hget] at hx hy
    have key : ∀ (k : Loc) (z : ModObj α), (if l = k then some o' else w.heap[k]?) = some z →
        ∃ z0, w.heap[k]? = some z0 ∧ z0.uid = z.uid := by
      intro k z hz
      split at hz
      · next hk =>
        simp only [Option.some.injEq] at hz
        subst hk; subst hz
        exact ⟨o, ho, hu.symm⟩
      · exact ⟨z, hz, rfl⟩
    obtain ⟨x0, hx0, hxu⟩ := key _ _ hx
    obtain ⟨y0, hy0, hyu⟩ := key _ _ hy
    exact wf.heap.uids _ _ _ _ hx0 hy0 (by rw [hxu, hyu, hxy])
  · intro l' n c v m e
    rcases hattr _ _ _ e with h | ⟨_, _, h | ⟨c, h, _, hc⟩⟩
    · exact wf.heap.conts _ _ _ _ _ h
    · obtain ⟨v, h, hw⟩ := h; cases h; exact hw.cont
    · cases h
  · intro l' n a e
    rcases hattr _ _ _ e with h | ⟨_, h, _⟩
    · exact wf.heap.slash _ _ _ h
    · exact h.1
  · intro l' n a e
    rcases hattr _ _ _ e with h | ⟨_, h, _⟩
    · exact wf.heap.reserved _ _ _ h
    · exact h.2
  · intro l' x hx
    simp only [hget] at hx
    split at hx
    · simp only [Option.some.injEq] at hx; subst hx; rw [hu]; exact wf.ids _ _ ho
    · exact wf.ids _ _ hx
  · simp
  · intro l' _ hl'
    simp only [hget]
    rw [if_neg]
    rintro rfl
    exact hl' hl
  · intro l1 n l2 hl1 e
    rcases hattr _ _ _ e with h | ⟨_, _, h | ⟨c, h, hc, _⟩⟩
    · rcases hl1 with hl1 | hl1
      · exact .inl (hA _ _ _ hl1 h)
      · exact absurd (attrAt_some_lt h) (Nat.not_lt.2 hl1)
    · obtain ⟨v, h, _⟩ := h; cases h
    · cases h; exact .inl hc
  · intro l' x hx
    simp only [hget]
    split
    · next h =>
      subst h
      rw [ho] at hx; cases hx
      exact ⟨o', rfl, hu, hcls, htr⟩
    · exact ⟨x, hx, rfl, rfl, rfl⟩

omit [DecidableEq α] in
theorem wfOld {w : World α} (wf : WFWorld w) (l : Loc) (n : Str) : ∀ c x m,
    attrAt w.heap l n = some (.val (.cont c x m)) → WFContainer (.cont c x m) :=
  fun _ _ _ e => wf.heap.conts _ _ _ _ _ e

theorem confined_setAttr_val {A : Loc → Prop} {w w' : World α} (wf : WFWorld w) (hA : Closed w.heap A) {l : Loc}
    (hl : A l) {n : Str} {v : PyVal α} (hn : GoodName n) (hv : WFVal v)
    (e : setAttr w l n (.val v) = .ok w') : Confined A w w' ∧ w'.heap.length = w.heap.length := by
  obtain ⟨o, a, ho, ht, hne, ha, rfl⟩ := setAttr_ok_iff.1 e
  refine ⟨confined_set wf hA hl ho (o' := { o with attrs := dset o.attrs n a }) rfl rfl rfl
    (dnodup_dset (wf.heap.nodup _ _ ho) _ _) ?_, by simp [World.setAttrs]⟩
  intro n' b hb
  simp only [dget_dset] at hb
  split at hb
  · next h =>
    subst h
    simp only [Option.some.injEq] at hb
    subst hb
    right
    refine ⟨hn, .inl ?_⟩
    by_cases hc : Compatible (attrAt w.heap l n) v
    · rw [storedAttr_ok (wfOld wf l n) hv hc] at ha
      simp only [Except.ok.injEq] at ha
      exact ⟨_, ha.symm, hv.newValue (wfOld wf l n)⟩
    · rw [storedAttr_error (wfOld wf l n) hv hc] at ha
      cases ha
  · exact .inl hb

theorem storedAttr_ref {old : Option (Attr α)} {l : Loc} {a : Attr α}
    (e : storedAttr old (.ref l) = .ok a) : a = .ref l := by
  unfold storedAttr at e
  split at e
  · next h => cases h
  · cases e
  · next h => cases h
  · simp only [Except.ok.injEq] at e; exact e.symm

theorem confined_setAttr_ref {A : Loc → Prop} {w w' : World α} (wf : WFWorld w) (hA : Closed w.heap A) {l l' : Loc}
    (hl : A l) {n : Str} (hn : GoodName n) (hl' : A l') (hlt : l' < w.heap.length)
    (e : setAttr w l n (.ref l') = .ok w') : Confined A w w' ∧ w'.heap.length = w.heap.length := by
  obtain ⟨o, a, ho, ht, hne, ha, rfl⟩ := setAttr_ok_iff.1 e
  refine ⟨confined_set wf hA hl ho (o' := { o with attrs := dset o.attrs n a }) rfl rfl rfl
    (dnodup_dset (wf.heap.nodup _ _ ho) _ _) ?_, by simp [World.setAttrs]⟩
  intro n' b hb
  simp only [dget_dset] at hb
  split at hb
  · next h =>
    subst h
    simp only [Option.some.injEq] at hb
    subst hb
    exact .inr ⟨hn, .inr ⟨l', storedAttr_ref ha, hl', hlt⟩⟩
  · exact .inl hb

omit [DecidableEq α] in
theorem confined_delAttr {A : Loc → Prop} {w : World α} (wf : WFWorld w) (hA : Closed w.heap A) {l : Loc}
    (hl : A l) {n : Str} {h' : Heap α} (e : delAttr w.heap l n = .ok h') :
    Confined A w { w with heap := h' } ∧ h'.length = w.heap.length := by
  unfold delAttr at e
  split at e
  · cases e
  · next o ho =>
    split at e
    · simp only [Except.ok.injEq] at e
      subst e
      refine ⟨confined_set wf hA hl ho (o' := { o with attrs := ddel o.attrs n }) rfl rfl rfl
        (dnodup_ddel (wf.heap.nodup _ _ ho) _) ?_, by simp⟩
      intro n' b hb
      simp only [dget_ddel (wf.heap.nodup _ _ ho)] at hb
      split at hb
      · cases hb
      · exact .inl hb
    · cases e

omit [DecidableEq α] in
theorem confined_setIsInit {A : Loc → Prop} {w w' : World α} (wf : WFWorld w) (hA : Closed w.heap A) {l : Loc}
    (hl : A l) {b : Bool} {r : Option Err} (e : setIsInit b l w = (w', r)) :
    Confined A w w' ∧ w'.heap.length = w.heap.length := by
  unfold setIsInit at e
  split at e
  · simp only [Prod.mk.injEq] at e
    rw [← e.1]
    exact ⟨.refl wf hA, rfl⟩
  · next o ho =>
    simp only [Prod.mk.injEq] at e
    rw [← e.1]
    refine ⟨confined_set wf hA hl ho (o' := { o with isInit := b }) rfl rfl rfl (wf.heap.nodup l o ho) ?_, by simp⟩
    intro n a h
    exact .inl h

omit [DecidableEq α] in
theorem confined_newModule {A : Loc → Prop} {w : World α} (wf : WFWorld w) (hA : Closed w.heap A) (c : Cls) :
    Confined A w (newModule c w).1 := by
  have hget : ∀ (l : Loc) (o : ModObj α), (newModule c w).1.heap[l]? = some o →
      w.heap[l]? = some o ∨ (l = w.heap.length ∧ o = ⟨c, [], w.nextId + 1, false, w.curTrace⟩) := by
    intro l o e
    simp only [newModule] at e
    rw [List.getElem?_append] at e
    split at e
    · exact .inl e
    · next h =>
      right
      have := (List.getElem?_eq_some_iff.1 e).1
      simp only [List.length_cons, List.length_nil] at this
      have h0 : l - w.heap.length = 0 := Nat.lt_one_iff.1 this
      rw [h0] at e
      simp only [List.getElem?_cons_zero, Option.some.injEq] at e
      exact ⟨Nat.le_antisymm (Nat.sub_eq_zero_iff_le.1 h0) (Nat.le_of_not_lt h), e.symm⟩
  have hattr : ∀ l n a, attrAt (newModule c w).1.heap l n = some a → attrAt w.heap l n = some a := by
    intro l n a e
    unfold attrAt at e
    split at e
    · next o ho =>
      rcases hget _ _ ho with h | ⟨_, h⟩
      · simp only [attrAt, h]; exact e
      · rw [h] at e; cases e
    · cases e
  have hlen : (newModule c w).1.heap.length = w.heap.length + 1 := by simp [newModule]
  refine ⟨⟨⟨?_, ?_, ?_, ?_, ?_, ?_⟩, ?_⟩, ?_, ?_, ?_, ?_⟩
  · intro l o ho
    rcases hget _ _ ho with h | ⟨_, h⟩
    · exact wf.heap.nodup _ _ h
    · rw [h]; simp [DNodup]
  · intro l n l' e
    rw [hlen]
    exact Nat.lt_succ_of_lt (wf.heap.refs _ _ _ (hattr _ _ _ e))
  · intro l l' o o' ho ho' hu
    rcases hget _ _ ho with h | ⟨h1, h⟩ <;> rcases hget _ _ ho' with h' | ⟨h1', h'⟩
    · exact wf.heap.uids _ _ _ _ h h' hu
    · have := wf.ids _ _ h; rw [hu, h'] at this; simp at this; omega
    · have := wf.ids _ _ h'; rw [← hu, h] at this; simp at this; omega
    · rw [h1, h1']
  · intro l n cc v m e; exact wf.heap.conts _ _ _ _ _ (hattr _ _ _ e)
  · intro l n a e; exact wf.heap.slash _ _ _ (hattr _ _ _ e)
  · intro l n a e; exact wf.heap.reserved _ _ _ (hattr _ _ _ e)
  · intro l o ho
    show o.uid ≤ w.nextId + 1
    rcases hget _ _ ho with h | ⟨_, h⟩
    · exact Nat.le_succ_of_le (wf.ids _ _ h)
    · rw [h]; simp
  · rw [hlen]; exact Nat.le_succ _
  · intro l hl _
    simp only [newModule]
    rw [List.getElem?_append_left hl]
  · intro l n l' hl e
    have e := hattr _ _ _ e
    rcases hl with hl | hl
    · exact .inl (hA _ _ _ hl e)
    · exact absurd (attrAt_some_lt e) (Nat.not_lt.2 hl)
  · intro l o ho
    refine ⟨o, ?_, rfl, rfl, rfl⟩
    simp only [newModule]
    rw [List.getElem?_append_left (List.getElem?_eq_some_iff.1 ho).1]
    exact ho

/-! ### Compound operations -/

theorem setValueAtPath_ok : ∀ {parts : List Str} {w w' : World α} {root : Loc} {v : PyVal α},
    root < w.heap.length → WFHeap w.heap → setValueAtPath w (.ref root) parts v = .ok w' →
    ∃ p n l, parts = p ++ [n] ∧ Walk w.heap root p l ∧ setAttr w l n (.val v) = .ok w' := by
  intro parts
  induction parts with
  | nil => intro w w' root v _ _ e; simp [setValueAtPath] at e
  | cons n parts ih =>
    intro w w' root v hr wf e
    cases parts with
    | nil => exact ⟨[], n, root, rfl, .here hr, by simpa [setValueAtPath] using e⟩
    | cons m parts =>
      rw [setValueAtPath] at e
      split at e
      · cases e
      · next a ha =>
        have hat : attrAt w.heap root n = some a := by
          unfold varsGet at ha
          split at ha
          · cases ha
          · next o ho =>
            split at ha
            · cases ha
            · next a' ha' => cases ha; simp only [attrAt, ho]; exact ha'
        cases a with
        | val x => simp [setValueAtPath] at e
        | ref c =>
          obtain ⟨p, k, l, hp, hw, hs⟩ := ih (wf.refs _ _ _ hat) wf e
          exact ⟨n :: p, k, l, by rw [hp]; rfl, .step hat hw, hs⟩

omit [DecidableEq α] in
theorem Walk.closed {h : Heap α} {A : Loc → Prop} (hA : Closed h A) {a b : Loc} {p : List Str} (w : Walk h a p b) :
    A a → A b := by
  induction w with
  | here _ => exact id
  | step e _ ih => exact fun ha => ih (hA _ _ _ ha e)

theorem confined_assignAll {A : Loc → Prop} (root : Loc) : ∀ (E : List (Str × PyVal α)) (w w' : World α) (r : Option Err),
    WFWorld w → Closed w.heap A → A root → root < w.heap.length →
    (∀ k v, (k, v) ∈ E → WFVal v ∧ isReserved ((splitSlash k).getLastD []) = false) →
    assignAll root E w = (w', r) → Confined A w w' ∧ w'.heap.length = w.heap.length := by
  intro E
  induction E with
  | nil =>
    intro w w' r wf hA _ _ _ e
    simp only [assignAll, Prod.mk.injEq] at e
    rw [← e.1]; exact ⟨.refl wf hA, rfl⟩
  | cons x E ih =>
    obtain ⟨k, v⟩ := x
    intro w w' r wf hA hr hlt hE e
    rw [assignAll] at e
    split at e
    · simp only [Prod.mk.injEq] at e
      rw [← e.1]; exact ⟨.refl wf hA, rfl⟩
    · next w1 hs =>
      obtain ⟨p, n, l, hp, hw, hset⟩ := setValueAtPath_ok hlt wf.heap hs
      obtain ⟨hv, hres⟩ := hE k v List.mem_cons_self
      have hn : GoodName n := by
        refine ⟨splitSlash_parts_noslash k n (by rw [hp]; simp), ?_⟩
        rw [hp] at hres
        simpa [List.getLastD_eq_getLast?] using hres
      obtain ⟨hc, hlen⟩ := confined_setAttr_val wf hA (hw.closed hA hr) hn hv hset
      have hlast : w'.heap.length = w1.heap.length → w'.heap.length = w.heap.length := fun h => by rw [h, hlen]
      have hcl : Closed w1.heap A := by
        intro a m b ha hab
        rcases hc.closed a m b (.inl ha) hab with h | h
        · exact h
        · have := hc.wf.heap.refs _ _ _ hab
          rw [hlen] at this
          exact absurd this (Nat.not_lt.2 h)
      have := ih w1 w' r hc.wf hcl hr (by rw [hlen]; exact hlt) (fun k v h => hE k v (List.mem_cons_of_mem _ h)) e
      exact ⟨hc.trans' hlen (fun _ => this.1), hlast this.2⟩

omit [DecidableEq α] in
theorem getLastD_append_single (p : List Str) (n : Str) : (p ++ [n]).getLastD [] = n := by
  simp [List.getLastD_eq_getLast?]

omit [DecidableEq α] in
/-- The entries of a module's own state are valid update entries. -/
theorem getState_good {h : Heap α} (wf : WFHeap h) {root : Loc} (hroot : root < h.length) {fuel : Nat}
    {s : State (PyVal α)} (hs : getState fuel h root = some s) :
    ∀ k v, (k, v) ∈ s.items → WFVal v ∧ isReserved ((splitSlash k).getLastD []) = false := by
  obtain ⟨vs, S', dfs, hcan, hget⟩ := getState_spec wf hroot hs
  obtain ⟨hn, hr, hw, hF⟩ := dfs.complete wf isOrder_sort hroot
  intro k v hkv
  have : s.get k = some v := mem_dget hcan.nodup hkv
  obtain ⟨x, hx, n, ha, hv, rfl⟩ := (hget k v).1 this
  refine ⟨wfVal_of_node wf ha hv, ?_⟩
  rw [split_join (by simp)]
  · rw [getLastD_append_single]
    exact wf.reserved _ _ _ ha
  · intro s hs'
    rcases List.mem_append.1 hs' with h' | h'
    · exact (hw x hx).noSlash wf s h'
    · simp at h'; subst h'; exact wf.slash _ _ _ ha

omit [DecidableEq α] in
theorem lastOf_mem {V : Type _} {e : List (Str × V)} {k : Str} {v : V} (h : lastOf e k = some v) : (k, v) ∈ e := by
  induction e with
  | nil => simp [lastOf] at h
  | cons x e ih =>
    obtain ⟨k', v'⟩ := x
    simp only [lastOf] at h
    cases hl : lastOf e k with
    | some y =>
      rw [hl] at h
      simp only [Option.some.injEq] at h
      subst h
      exact List.mem_cons_of_mem _ (ih hl)
    | none =>
      rw [hl] at h
      simp only at h
      split at h
      · next hk => cases h; subst hk; exact List.mem_cons_self
      · cases h

omit [DecidableEq α] in
theorem mem_foldl_dupdate : ∀ (ss : List (State (PyVal α))) (d : Dict Str (PyVal α)) (k : Str) (v : PyVal α),
    DNodup d → (k, v) ∈ ss.foldl (fun d t => dupdate d t.items) d → (k, v) ∈ d ∨ ∃ t ∈ ss, (k, v) ∈ t.items := by
  intro ss
  induction ss with
  | nil => intro d k v _ h; exact .inl h
  | cons t ss ih =>
    intro d k v hd h
    rw [List.foldl_cons] at h
    rcases ih _ k v (dnodup_dupdate hd _) h with h | ⟨t', ht', h⟩
    · have h := mem_dget (dnodup_dupdate hd _) h
      rw [dget_dupdate] at h
      cases hl : lastOf t.items k with
      | some v' =>
        rw [hl] at h
        simp only [Option.orElse_some, Option.some.injEq] at h
        subst h
        exact .inr ⟨t, List.mem_cons_self, lastOf_mem hl⟩
      | none =>
        rw [hl] at h
        simp only [Option.orElse_none] at h
        exact .inl (dget_mem h)
    · exact .inr ⟨t', List.mem_cons_of_mem _ ht', h⟩

theorem confined_updateState {A : Loc → Prop} {w w' : World α} (wf : WFWorld w) (hA : Closed w.heap A) {l : Loc}
    (hl : A l) (hlt : l < w.heap.length) {us : List (State (PyVal α))} (hus : GoodUpdates us) {fuel : Nat}
    {r : Option Err} (e : updateState fuel l us w = (w', r)) :
    Confined A w w' ∧ w'.heap.length = w.heap.length := by
  unfold updateState at e
  split at e
  · simp only [Prod.mk.injEq] at e
    rw [← e.1]; exact ⟨.refl wf hA, rfl⟩
  · next s hs =>
    refine confined_assignAll l _ w w' r wf hA hl hlt ?_ e
    intro k v hkv
    rcases mem_foldl_dupdate _ _ _ _ (by simp [DNodup]) hkv with h | ⟨t, ht, h⟩
    · cases h
    · rcases List.mem_cons.1 ht with rfl | ht
      · exact getState_good wf.heap hlt hs k v h
      · exact hus t ht k v h

theorem confined_clone {A : Loc → Prop} {w w' : World α} (wf : WFWorld w) (hA : Closed w.heap A) {l : Loc}
    (hlt : l < w.heap.length) {fuel : Nat} {r : Except Err Loc}
    (e : cloneModule fuel l w = (w', r)) :
    Confined A w w' ∧ ∀ l', r = .ok l' → l' = w.heap.length := by
  unfold cloneModule at e
  split at e
  · simp only [Prod.mk.injEq] at e
    rw [← e.1, ← e.2]
    exact ⟨.refl wf hA, fun l' h => by cases h⟩
  · next ss d hp =>
    unfold partitionModule at hp
    split at hp
    · next d' s hd hs =>
      simp only [Except.ok.injEq, Prod.mk.injEq] at hp
      obtain ⟨rfl, rfl⟩ := hp
      obtain ⟨w2, f, hm, sp⟩ := mergeDef_spec wf.heap hlt hd hs (pieces_self (getState_canonical hs)) (w := w) wf.heap.conts
      rw [hm] at e
      simp only [Prod.mk.injEq] at e
      rw [← e.1, ← e.2]
      refine ⟨⟨⟨sp.wf wf.heap wf.heap wf.ids, ?_⟩, sp.len, ?_, ?_, ?_⟩, fun l' h => by cases h; rfl⟩
      · intro l o ho
        by_cases hl : l < w.heap.length
        · rw [sp.old _ hl] at ho; exact Nat.le_trans (wf.ids _ _ ho) sp.ids
        · exact (sp.fresh _ _ (Nat.le_of_not_lt hl) ho).2.1
      · intro l hl _; exact sp.old l hl
      · intro a n b ha hab
        by_cases hl : a < w.heap.length
        · have : attrAt w.heap a n = some (.ref b) := by
            simp only [attrAt, sp.old _ hl] at hab ⊢; exact hab
          rcases ha with ha | ha
          · exact .inl (hA _ _ _ ha this)
          · exact absurd hl (Nat.not_lt.2 ha)
        · obtain ⟨a0, ha0, rfl⟩ := sp.surj a (Nat.le_of_not_lt hl) (attrAt_some_lt hab)
          rw [sp.iso.attr _ ha0] at hab
          cases hat : attrAt w.heap a0 n with
          | none => rw [hat] at hab; simp at hab
          | some x =>
            rw [hat] at hab
            cases x with
            | val v => simp [Attr.redirect] at hab
            | ref c =>
              simp only [Option.map_some, Attr.redirect, Option.some.injEq, Attr.ref.injEq] at hab
              rw [← hab]
              exact .inr (sp.ge c)
      · intro l o ho
        exact ⟨o, by rw [sp.old _ (List.getElem?_eq_some_iff.1 ho).1]; exact ho, rfl, rfl, rfl⟩
    · cases hp

theorem confined_sow {A : Loc → Prop} {w w' : World α} (wf : WFWorld w) (hA : Closed w.heap A) {l : Loc}
    (hl : A l) {vt : Cls} {n : Str} {v : PyVal α} (hn : GoodName n) (e : sow l vt n v w = .ok w') :
    Confined A w w' ∧ w'.heap.length = w.heap.length := by
  unfold sow at e
  split at e
  · cases e
  · split at e
    · cases e
    · split at e
      · split at e
        · cases e
        · split at e
          · cases e
          · split at e
            · exact confined_setAttr_val wf hA hl hn (.inl (by simp [PyVal.Plain])) e
            · cases e
      · cases e
      · split at e
        · cases e
        · split at e
          · cases e
          · next x hx =>
            rw [construct_plain (by simp [PyVal.Plain])] at hx
            rcases classInit_plain_cases (c := vt) (v := .tup [v]) (by simp [PyVal.Plain]) (md := [])
              (by simp [DNodup]) with ⟨h, _⟩ | ⟨m, h, _, _, hwf, _⟩
            · rw [h] at hx; cases hx
            · rw [h] at hx; cases hx
              exact confined_setAttr_val wf hA hl hn (.inr hwf) e

omit [DecidableEq α] in
theorem Confined.closed' {A : Loc → Prop} {w w' : World α} (c : Confined A w w')
    (hlen : w'.heap.length = w.heap.length) : Closed w'.heap A := by
  intro a m b ha hab
  rcases c.closed a m b (.inl ha) hab with h | h
  · exact h
  · have := c.wf.heap.refs _ _ _ hab
    rw [hlen] at this
    exact absurd this (Nat.not_lt.2 h)

omit [DecidableEq α] in
theorem confined_popRec {A : Loc → Prop} (preds : List (Pred α)) (fuel : Nat) : ∀ (l : Loc) (w : World α)
    (idx : List Nat) (parts : List Str) (states : List (Dict Str (PyVal α))) (h' : Heap α) (r),
    WFWorld w → Closed w.heap A → A l → popRec preds fuel l w.heap idx parts states = (h', r) →
    Confined A w { w with heap := h' } ∧ h'.length = w.heap.length := by
  induction fuel with
  | zero =>
    intro l w idx parts states h' r wf hA hl e
    simp only [popRec, Prod.mk.injEq] at e
    rw [← e.1]; exact ⟨.refl wf hA, rfl⟩
  | succ fuel ih =>
    intro l w idx parts states h' r wf hA hl e
    rw [popRec] at e
    split at e
    · simp only [Prod.mk.injEq] at e
      rw [← e.1]; exact ⟨.refl wf hA, rfl⟩
    · next o ho =>
      split at e
      · simp only [Prod.mk.injEq] at e
        rw [← e.1]; exact ⟨.refl wf hA, rfl⟩
      · have inner : ∀ (as : List (Str × Attr α)) (w : World α) (idx : List Nat)
            (states : List (Dict Str (PyVal α))) (h' : Heap α) (r), WFWorld w → Closed w.heap A →
            (∀ n l', (n, Attr.ref l') ∈ as → A l') →
            popAttrs (popRec preds fuel) preds l as w.heap idx parts states = (h', r) →
            Confined A w { w with heap := h' } ∧ h'.length = w.heap.length := by
          intro as
          induction as with
          | nil =>
            intro w idx states h' r wf hA _ e
            simp only [popAttrs, Prod.mk.injEq] at e
            rw [← e.1]; exact ⟨.refl wf hA, rfl⟩
          | cons a as iha =>
            obtain ⟨n, a⟩ := a
            intro w idx states h' r wf hA has e
            have has' : ∀ n l', (n, Attr.ref l') ∈ as → A l' := fun n l' h => has n l' (List.mem_cons_of_mem _ h)
            cases a with
            | ref l' =>
              rw [popAttrs] at e
              split at e
              · next h1 err he =>
                simp only [Prod.mk.injEq] at e
                rw [← e.1]
                exact ih _ _ _ _ _ _ _ wf hA (has n l' List.mem_cons_self) he
              · next h1 idx1 st1 he =>
                obtain ⟨c1, len1⟩ := ih _ _ _ _ _ _ _ wf hA (has n l' List.mem_cons_self) he
                have := iha { w with heap := h1 } idx1 st1 h' r c1.wf (c1.closed' len1) has' e
                exact ⟨c1.trans' len1 (fun _ => this.1), this.2.trans len1⟩
            | val v =>
              rw [popAttrs] at e
              split at e
              · split at e
                · exact iha w _ _ h' r wf hA has' e
                · split at e
                  · simp only [Prod.mk.injEq] at e
                    rw [← e.1]; exact ⟨.refl wf hA, rfl⟩
                  · next h1 he =>
                    obtain ⟨c1, len1⟩ := confined_delAttr wf hA hl he
                    have := iha { w with heap := h1 } _ _ h' r c1.wf (c1.closed' len1) has' e
                    exact ⟨c1.trans' len1 (fun _ => this.1), this.2.trans len1⟩
              · exact iha w _ _ h' r wf hA has' e
        have hrefs : ∀ n l', (n, Attr.ref l') ∈ o.attrs → A l' :=
          fun n l' h => hA _ _ _ hl (attrAt_of_mem wf.heap ho h)
        split at e
        · next h1 err he =>
          simp only [Prod.mk.injEq] at e
          rw [← e.1]
          exact inner _ _ _ _ _ _ wf hA hrefs he
        · next h1 idx1 st1 he =>
          simp only [Prod.mk.injEq] at e
          rw [← e.1]
          exact inner _ _ _ _ _ _ wf hA hrefs he

omit [DecidableEq α] in
theorem confined_popState {A : Loc → Prop} {w : World α} (wf : WFWorld w) (hA : Closed w.heap A) {l : Loc}
    (hl : A l) {fuel : Nat} {fs : List (Filter α)} {h' : Heap α} {r}
    (e : popState fuel l fs w.heap = (h', r)) : Confined A w { w with heap := h' } ∧ h'.length = w.heap.length := by
  unfold popState at e
  split at e
  · simp only [Prod.mk.injEq] at e
    rw [← e.1]; exact ⟨.refl wf hA, rfl⟩
  · split at e
    · simp only [Prod.mk.injEq] at e
      rw [← e.1]; exact ⟨.refl wf hA, rfl⟩
    · split at e
      · next he =>
        simp only [Prod.mk.injEq] at e
        rw [← e.1]; exact confined_popRec _ _ _ _ _ _ _ _ _ wf hA hl he
      · next he =>
        simp only [Prod.mk.injEq] at e
        rw [← e.1]; exact confined_popRec _ _ _ _ _ _ _ _ _ wf hA hl he

omit [DecidableEq α] in
/-- `_on_all` with a function that is confined is confined. -/
theorem confined_onAll {A : Loc → Prop} (ty : Cls) (fn : Loc → World α → World α × Option Err)
    (hfn : ∀ (l : Loc) (w w' : World α) (r : Option Err), A l → WFWorld w → Closed w.heap A →
      fn l w = (w', r) → Confined A w w' ∧ w'.heap.length = w.heap.length) (fuel : Nat) :
    ∀ (l : Loc) (w w' : World α) (visited : List Nat) (r), WFWorld w → Closed w.heap A → A l →
      onAll World.heap ty fn fuel l w visited = (w', r) →
      Confined A w w' ∧ w'.heap.length = w.heap.length := by
  induction fuel with
  | zero =>
    intro l w w' visited r wf hA hl e
    simp only [onAll, Prod.mk.injEq] at e
    rw [← e.1]; exact ⟨.refl wf hA, rfl⟩
  | succ fuel ih =>
    intro l w w' visited r wf hA hl e
    have inner : ∀ (as : List (Str × Attr α)) (w w' : World α) (visited : List Nat) (r), WFWorld w →
        Closed w.heap A → (∀ n l', (n, Attr.ref l') ∈ as → A l') →
        onAllAttrs (onAll World.heap ty fn fuel) as w visited = (w', r) →
        Confined A w w' ∧ w'.heap.length = w.heap.length := by
      intro as
      induction as with
      | nil =>
        intro w w' visited r wf hA _ e
        simp only [onAllAttrs, Prod.mk.injEq] at e
        rw [← e.1]; exact ⟨.refl wf hA, rfl⟩
      | cons a as iha =>
        obtain ⟨n, a⟩ := a
        intro w w' visited r wf hA has e
        have has' : ∀ n l', (n, Attr.ref l') ∈ as → A l' := fun n l' h => has n l' (List.mem_cons_of_mem _ h)
        cases a with
        | val v => rw [onAllAttrs] at e; exact iha _ _ _ _ wf hA has' e
        | ref l' =>
          rw [onAllAttrs] at e
          split at e
          · next he =>
            simp only [Prod.mk.injEq] at e
            rw [← e.1]; exact ih _ _ _ _ _ wf hA (has n l' List.mem_cons_self) he
          · next w1 v1 he =>
            obtain ⟨c1, len1⟩ := ih _ _ _ _ _ wf hA (has n l' List.mem_cons_self) he
            have := iha _ _ _ _ c1.wf (c1.closed' len1) has' e
            exact ⟨c1.trans' len1 (fun _ => this.1), this.2.trans len1⟩
    rw [onAll] at e
    split at e
    · simp only [Prod.mk.injEq] at e
      rw [← e.1]; exact ⟨.refl wf hA, rfl⟩
    · next o ho =>
      split at e
      · simp only [Prod.mk.injEq] at e
        rw [← e.1]; exact ⟨.refl wf hA, rfl⟩
      · have hcall : ∀ w1 r1, (if o.cls.isSub ty = true then fn l w else (w, none)) = (w1, r1) →
            Confined A w w1 ∧ w1.heap.length = w.heap.length := by
          intro w1 r1 h
          split at h
          · exact hfn _ _ _ _ hl wf hA h
          · simp only [Prod.mk.injEq] at h
            rw [← h.1]; exact ⟨.refl wf hA, rfl⟩
        split at e
        · next hc =>
          simp only [Prod.mk.injEq] at e
          rw [← e.1]; exact hcall _ _ hc
        · next w1 hc =>
          obtain ⟨c1, len1⟩ := hcall _ _ hc
          split at e
          · simp only [Prod.mk.injEq] at e
            rw [← e.1]; exact ⟨c1, len1⟩
          · next o' ho' =>
            have := inner _ _ _ _ _ c1.wf (c1.closed' len1)
              (fun n l' h => (c1.closed' len1) _ _ _ hl (attrAt_of_mem c1.wf.heap ho' h)) e
            exact ⟨c1.trans' len1 (fun _ => this.1), this.2.trans len1⟩

omit [DecidableEq α] in
theorem confined_flags {A : Loc → Prop} {w w' : World α} (wf : WFWorld w) (hA : Closed w.heap A) {l : Loc}
    (hl : A l) {fuel : Nat} {ty : Cls} {b : Bool} {r : Option Err}
    (e : forEach World.heap fuel l ty (setIsInit b) w = (w', r)) :
    Confined A w w' ∧ w'.heap.length = w.heap.length := by
  unfold forEach at e
  have hfn : ∀ (l : Loc) (w w' : World α) (r : Option Err), A l → WFWorld w → Closed w.heap A →
      setIsInit b l w = (w', r) → Confined A w w' ∧ w'.heap.length = w.heap.length :=
    fun l w w' r hl wf hA e => confined_setIsInit wf hA hl e
  split at e
  · next he =>
    simp only [Prod.mk.injEq] at e
    rw [← e.1]; exact confined_onAll ty _ hfn fuel _ _ _ _ _ wf hA hl he
  · next he =>
    simp only [Prod.mk.injEq] at e
    rw [← e.1]; exact confined_onAll ty _ hfn fuel _ _ _ _ _ wf hA hl he

/-! ### Steps -/

omit [DecidableEq α] in
/-- What can be reached from a list of handles. -/
def Region (w : World α) (K : List Loc) (l : Loc) : Prop := ∃ k ∈ K, Reaches w.heap k l

omit [DecidableEq α] in
theorem region_closed {w : World α} (wf : WFWorld w) (K : List Loc) : Closed w.heap (Region w K) := by
  rintro l n l' ⟨k, hk, h⟩ e
  exact ⟨k, hk, h.step wf.heap e⟩

theorem Step.confined {K K' : List Loc} {w w' : World α} (s : Step K w K' w') (wf : WFWorld w)
    (hK : ∀ k ∈ K, k < w.heap.length) :
    Confined (Region w K) w w' ∧ (∀ k ∈ K', Region w K k ∨ w.heap.length ≤ k) ∧
    (∀ k ∈ K', k < w'.heap.length) ∧ ∀ k ∈ K, k ∈ K' := by
  have hcl := region_closed wf K
  have hreg : ∀ k ∈ K, Region w K k := fun k hk => ⟨k, hk, [], .here (hK k hk)⟩
  have sameK : ∀ {w' : World α}, Confined (Region w K) w w' ∧ w'.heap.length = w.heap.length →
      Confined (Region w K) w w' ∧ (∀ k ∈ K, Region w K k ∨ w.heap.length ≤ k) ∧
      (∀ k ∈ K, k < w'.heap.length) ∧ ∀ k ∈ K, k ∈ K :=
    fun h => ⟨h.1, fun k hk => .inl (hreg k hk), fun k hk => by rw [h.2]; exact hK k hk, fun _ h => h⟩
  cases s with
  | @read l n l' hl e =>
    have h1 : Region w K l' := hcl _ _ _ (hreg _ hl) e
    refine ⟨.refl wf hcl, ?_, ?_, fun k hk => List.mem_cons_of_mem _ hk⟩
    · intro k hk
      rcases List.mem_cons.1 hk with rfl | hk
      · exact .inl h1
      · exact .inl (hreg k hk)
    · intro k hk
      rcases List.mem_cons.1 hk with rfl | hk
      · exact wf.heap.refs _ _ _ e
      · exact hK k hk
  | assign hl hn hv e => exact sameK (confined_setAttr_val wf hcl (hreg _ hl) hn hv e)
  | link hl hl' hn e => exact sameK (confined_setAttr_ref wf hcl (hreg _ hl) hn (hreg _ hl') (hK _ hl') e)
  | delete hl e => exact sameK (confined_delAttr wf hcl (hreg _ hl) e)
  | create c =>
    have := confined_newModule wf hcl c
    refine ⟨this, ?_, ?_, fun k hk => List.mem_cons_of_mem _ hk⟩
    · intro k hk
      rcases List.mem_cons.1 hk with rfl | hk
      · exact .inr (Nat.le_refl _)
      · exact .inl (hreg k hk)
    · intro k hk
      rcases List.mem_cons.1 hk with rfl | hk
      · simp [newModule]
      · exact Nat.lt_of_lt_of_le (hK k hk) this.len
  | @clone fuel _ l l' hl e =>
    obtain ⟨c1, hl'⟩ := confined_clone wf hcl (hK _ hl) e
    have hl' := hl' _ rfl
    subst hl'
    refine ⟨c1, ?_, ?_, fun k hk => List.mem_cons_of_mem _ hk⟩
    · intro k hk
      rcases List.mem_cons.1 hk with rfl | hk
      · exact .inr (Nat.le_refl _)
      · exact .inl (hreg k hk)
    · have hlen : w.heap.length < w'.heap.length := by
        have hlt := hK _ hl
        unfold cloneModule at e
        split at e
        · simp at e
        · next ss d hp =>
          unfold partitionModule at hp
          split at hp
          · next d' s hd hs =>
            simp only [Except.ok.injEq, Prod.mk.injEq] at hp
            obtain ⟨rfl, rfl⟩ := hp
            obtain ⟨w2, f, hm, sp⟩ := mergeDef_spec wf.heap hlt hd hs (pieces_self (getState_canonical hs)) (w := w) wf.heap.conts
            rw [hm] at e
            simp only [Prod.mk.injEq] at e
            rw [← e.1]
            obtain ⟨o', ho', _⟩ := sp.iso.obj _ _ ⟨[], .here hlt⟩ (List.getElem?_eq_getElem hlt)
            rw [sp.iso.root] at ho'
            exact (List.getElem?_eq_some_iff.1 ho').1
          · cases hp
      intro k hk
      rcases List.mem_cons.1 hk with rfl | hk
      · exact hlen
      · exact Nat.lt_of_lt_of_le (hK k hk) c1.len
  | update hl hus e => exact sameK (confined_updateState wf hcl (hreg _ hl) (hK _ hl) hus e)
  | pop hl e => exact sameK (confined_popState wf hcl (hreg _ hl) e)
  | sow hl hn hv e => exact sameK (confined_sow wf hcl (hreg _ hl) hn e)
  | flags hl e => exact sameK (confined_flags wf hcl (hreg _ hl) e)
  | trace j s =>
    refine sameK ⟨⟨⟨wf.heap, wf.ids⟩, Nat.le_refl _, fun _ _ _ => rfl, ?_,
      fun l o ho => ⟨o, ho, rfl, rfl, rfl⟩⟩, rfl⟩
    exact (Confined.refl wf hcl).closed

omit [DecidableEq α] in
/-- Walks within an unchanged region. -/
theorem walk_same {h h' : Heap α} {B : Loc → Prop} (hB : Closed h B) (hlen : h.length ≤ h'.length)
    (hsame : ∀ l : Loc, B l → l < h.length → h'[l]? = h[l]?) {a b : Loc} {p : List Str} (ha : B a) (hlt : a < h.length)
    (hrefs : ∀ (l : Loc) (n : Str) (l' : Loc), attrAt h l n = some (.ref l') → l' < h.length) :
    Walk h' a p b ↔ Walk h a p b := by
  constructor
  · intro w
    induction w with
    | here _ => exact .here hlt
    | @step a b c n p e _ ih =>
      have e' : attrAt h a n = some (.ref b) := by
        simp only [attrAt, hsame _ ha hlt] at e ⊢; exact e
      exact .step e' (ih (hB _ _ _ ha e') (hrefs _ _ _ e'))
  · intro w
    induction w with
    | here h => exact .here (Nat.lt_of_lt_of_le h hlen)
    | @step a b c n p e _ ih =>
      have e' : attrAt h' a n = some (.ref b) := by
        simp only [attrAt, hsame _ ha hlt]; exact e
      exact .step e' (ih (hB _ _ _ ha e) (hrefs _ _ _ e))

/-- A call by one party leaves everything another party can reach unchanged, and they stay apart. -/
theorem Step.other {A A' B : List Loc} {w w' : World α} (s : Step A w A' w') (wf : WFWorld w)
    (hA : ∀ a ∈ A, a < w.heap.length) (hB : ∀ b ∈ B, b < w.heap.length) (hap : Apart w A B) :
    (∀ b ∈ B, ∀ l, Reaches w.heap b l → w'.heap[l]? = w.heap[l]?) ∧
    (∀ b ∈ B, ∀ l, Reaches w'.heap b l ↔ Reaches w.heap b l) ∧ Apart w' A' B := by
  obtain ⟨c, hA', hA'lt, _⟩ := s.confined wf hA
  have hnA : ∀ b ∈ B, ∀ l, Reaches w.heap b l → ¬ Region w A l := by
    rintro b hb l hbl ⟨a, ha, hal⟩
    exact hap a ha b hb l hal hbl
  have h1 : ∀ b ∈ B, ∀ l, Reaches w.heap b l → w'.heap[l]? = w.heap[l]? := by
    intro b hb l hbl
    refine c.same l ?_ (hnA b hb l hbl)
    obtain ⟨p, hp⟩ := hbl
    exact hp.lt
  have h2 : ∀ b ∈ B, ∀ l, Reaches w'.heap b l ↔ Reaches w.heap b l := by
    intro b hb l
    have key : ∀ p, Walk w'.heap b p l ↔ Walk w.heap b p l := fun p =>
      walk_same (region_closed wf [b]) c.len (by
        rintro l' ⟨k, hk, hkl⟩ _
        simp only [List.mem_singleton] at hk
        subst hk
        exact h1 _ hb l' hkl) ⟨b, by simp, [], .here (hB b hb)⟩ (hB b hb) wf.heap.refs
    exact ⟨fun ⟨p, hp⟩ => ⟨p, (key p).1 hp⟩, fun ⟨p, hp⟩ => ⟨p, (key p).2 hp⟩⟩
  refine ⟨h1, h2, ?_⟩
  intro a ha b hb l hal hbl
  have hbl' := (h2 b hb l).1 hbl
  have hin : Region w A l ∨ w.heap.length ≤ l := by
    obtain ⟨p, hp⟩ := hal
    exact hp.closed c.closed (hA' a ha)
  rcases hin with h | h
  · exact hnA b hb l hbl' h
  · obtain ⟨p, hp⟩ := hbl'
    exact absurd hp.lt (Nat.not_lt.2 h)

end Nnx
