import Verif.Proofs.GetState
import Mathlib.Data.List.Forall2
/-
Assigning values at paths.
-/
namespace Nnx
variable {α : Type} [DecidableEq α]

theorem storedAttr_ok {old : Option (Attr α)} {v : PyVal α}
    (hold : ∀ c x m, old = some (.val (.cont c x m)) → WFContainer (.cont c x m)) (hv : WFVal v)
    (hc : Compatible old v) : storedAttr old (.val v) = .ok (.val (newValue old v)) := by
  cases old with
  | none =>
    rcases hv with hv | hv
    · cases v <;> simp_all [storedAttr, newValue, PyVal.Plain]
    · have := copy_wf hv
      cases hv with
      | mk _ _ _ _ _ => simp [storedAttr, newValue, this, Except.map]
  | some a =>
    cases a with
    | ref l =>
      rcases hv with hv | hv
      · cases v <;> simp_all [storedAttr, newValue, PyVal.Plain]
      · have := copy_wf hv
        cases hv with
        | mk _ _ _ _ _ => simp [storedAttr, newValue, this, Except.map]
    | val x =>
      by_cases hx : ∃ c y m, x = .cont c y m
      · obtain ⟨c, y, m, rfl⟩ := hx
        have hwf := hold c y m rfl
        rcases hv with hv | hv
        · have hvo : v.valueOf = v := by cases v <;> simp_all [PyVal.valueOf, PyVal.Plain]
          simp [storedAttr, newValue, replace_value_plain hwf hv, Except.map, hvo]
        · cases hv with
          | @mk d z n hp hn h1 h2 h3 =>
            obtain ⟨rfl, hs⟩ := hc c y m d z n rfl rfl
            have := (mdEq_iff hwf.nodup hn).2 hs
            simp [storedAttr, newValue, replace_value_cont hwf hp, this, Except.map, PyVal.valueOf]
      · have e1 : newValue (some (.val x)) v = v := by
          cases x <;> simp_all [newValue]
        rw [e1]
        rcases hv with hv | hv
        · cases x <;> cases v <;> simp_all [storedAttr, PyVal.Plain]
        · have := copy_wf hv
          cases hv with
          | mk _ _ _ _ _ => cases x <;> simp_all [storedAttr, Except.map]

theorem storedAttr_error {old : Option (Attr α)} {v : PyVal α}
    (hold : ∀ c x m, old = some (.val (.cont c x m)) → WFContainer (.cont c x m)) (hv : WFVal v)
    (hc : ¬ Compatible old v) : storedAttr old (.val v) = .error .valueError := by
  simp only [Compatible, Classical.not_forall] at hc
  obtain ⟨c, x, m, d, y, n, rfl, rfl, hne⟩ := hc
  have hwf := hold c x m rfl
  rcases hv with hv | hv
  · simp [PyVal.Plain] at hv
  · simp only [storedAttr, replace_value_cont hwf hv.plain]
    rw [if_neg]
    · rfl
    · rintro ⟨h1, h2⟩
      exact hne ⟨h1, (mdEq_iff hwf.nodup hv.nodup).1 h2⟩

omit [DecidableEq α] in
theorem map_val {x : Except Err (PyVal α)} {a : Attr α} (e : x.map Attr.val = .ok a) : ∃ y, a = .val y := by
  cases x with
  | error _ => simp [Except.map] at e
  | ok y => simp [Except.map] at e; exact ⟨y, e.symm⟩

/-- Whatever is assigned, the attribute ends up holding a non-Module. -/
theorem storedAttr_val {old : Option (Attr α)} {v : PyVal α} {a : Attr α}
    (e : storedAttr old (.val v) = .ok a) : ∃ x, a = .val x := by
  unfold storedAttr at e
  split at e
  · exact map_val e
  · next h => cases h
  · exact map_val e
  · simp only [Except.ok.injEq] at e; exact ⟨v, e.symm⟩

omit [DecidableEq α] in
theorem varsGet_eq {h : Heap α} {l : Loc} {n : Str} {a : Attr α} (e : attrAt h l n = some a) :
    varsGet h l n = .ok a := by
  unfold attrAt at e
  split at e
  · next o ho => simp [varsGet, ho, e]
  · cases e

theorem setValueAtPath_eq {w : World α} {root l : Loc} {p : List Str} (hw : Walk w.heap root p l) (n : Str)
    (v : PyVal α) : setValueAtPath w (.ref root) (p ++ [n]) v = setAttr w l n (.val v) := by
  induction hw with
  | here _ => rfl
  | @step a b c m q ha hb ih =>
    have : ∃ x y, q ++ [n] = x :: y := by cases q <;> simp
    obtain ⟨x, y, hxy⟩ := this
    rw [List.cons_append, hxy, setValueAtPath, varsGet_eq ha]
    simp only
    rw [← hxy, ih]

/-- The conditions under which `setAttr` succeeds, and its effect. -/
theorem setAttr_ok_iff {w w' : World α} {l : Loc} {n : Str} {x : Attr α} :
    setAttr w l n x = .ok w' ↔ ∃ o a, w.heap[l]? = some o ∧ w.traceValid o.trace = true ∧
      n ≠ py! "_module__state" ∧ storedAttr (attrAt w.heap l n) x = .ok a ∧
      w' = w.setAttrs l o (dset o.attrs n a) := by
  unfold setAttr
  cases ho : w.heap[l]? with
  | none => simp
  | some o =>
    simp only [Option.some.injEq, exists_and_left, exists_eq_left']
    have hat : attrAt w.heap l n = dget o.attrs n := by simp [attrAt, ho]
    rw [hat]
    cases ht : w.traceValid o.trace with
    | false => simp
    | true =>
      simp only [Bool.true_eq_false, if_false, true_and]
      by_cases hn : n = py! "_module__state"
      · simp [hn]
      · rw [if_neg hn]
        cases hs : storedAttr (dget o.attrs n) x with
        | error e => simp
        | ok a => simp [hn, eq_comm]

omit [DecidableEq α] in
theorem attrAt_setAttrs {w : World α} {l : Loc} {o : ModObj α} (ho : w.heap[l]? = some o) (n : Str) (a : Attr α)
    (l' : Loc) (n' : Str) : attrAt (w.setAttrs l o (dset o.attrs n a)).heap l' n' =
      if l' = l ∧ n' = n then some a else attrAt w.heap l' n' := by
  have hl := (List.getElem?_eq_some_iff.1 ho).1
  simp only [attrAt, World.setAttrs]
  by_cases h : l' = l
  · subst h
    rw [List.getElem?_set_self hl]
    simp only [dget_dset, ho, true_and]
    by_cases hn : n = n'
    · simp [hn]
    · rw [if_neg hn, if_neg (fun e => hn e.symm)]
  · rw [List.getElem?_set]
    rw [if_neg (fun e => h e.symm)]
    simp [h]

omit [DecidableEq α] in
theorem SameObjects.refl (w : World α) : SameObjects w w :=
  ⟨rfl, fun l o o' h h' => by rw [h] at h'; cases h'; exact ⟨rfl, rfl, rfl, rfl⟩, rfl, rfl, rfl⟩

omit [DecidableEq α] in
theorem SameObjects.trans {w w1 w2 : World α} (h1 : SameObjects w w1) (h2 : SameObjects w1 w2) :
    SameObjects w w2 := by
  refine ⟨h2.len.trans h1.len, ?_, h2.nextId.trans h1.nextId, h2.jax.trans h1.jax, h2.stack.trans h1.stack⟩
  intro l o o' h h'
  have hl : l < w1.heap.length := by rw [h1.len]; exact (List.getElem?_eq_some_iff.1 h).1
  have e := List.getElem?_eq_getElem hl
  obtain ⟨a1, a2, a3, a4⟩ := h1.obj l o _ h e
  obtain ⟨b1, b2, b3, b4⟩ := h2.obj l _ o' e h'
  exact ⟨b1.trans a1, b2.trans a2, b3.trans a3, b4.trans a4⟩

omit [DecidableEq α] in
theorem SameObjects.setAttrs {w : World α} {l : Loc} {o : ModObj α} (ho : w.heap[l]? = some o)
    (attrs : Dict Str (Attr α)) : SameObjects w (w.setAttrs l o attrs) := by
  refine ⟨by simp [World.setAttrs], ?_, rfl, rfl, rfl⟩
  intro l' a a' h h'
  have hl := (List.getElem?_eq_some_iff.1 ho).1
  simp only [World.setAttrs] at h'
  by_cases e : l' = l
  · subst e
    rw [List.getElem?_set_self hl] at h'
    rw [ho] at h; cases h; cases h'
    exact ⟨rfl, rfl, rfl, rfl⟩
  · rw [List.getElem?_set, if_neg (fun e' => e e'.symm)] at h'
    rw [h] at h'; cases h'
    exact ⟨rfl, rfl, rfl, rfl⟩

omit [DecidableEq α] in
/-- Two heaps with the same references have the same walks. -/
theorem Walk.congr {h h' : Heap α} (hlen : h'.length = h.length)
    (href : ∀ l n b, attrAt h l n = some (.ref b) → attrAt h' l n = some (.ref b)) {a b : Loc} {p : List Str}
    (w : Walk h a p b) : Walk h' a p b := by
  induction w with
  | here hl => exact .here (by rw [hlen]; exact hl)
  | step ha _ ih => exact .step (href _ _ _ ha) ih

/-- Assign a list of values to attributes given by (module, name). -/
def runCells : List ((Loc × Str) × PyVal α) → World α → World α × Option Err
  | [], w => (w, none)
  | (c, v) :: rest, w =>
    match setAttr w c.1 c.2 (.val v) with
    | .error e => (w, some e)
    | .ok w => runCells rest w

/-- The entries resolved to attributes. -/
def Resolves (h : Heap α) (root : Loc) (path : Str) (c : Loc × Str) : Prop :=
  ∃ p, splitSlash path = p ++ [c.2] ∧ Walk h root p c.1

/-- `assignAll` is the sequence of assignments to the addressed attributes, provided none of them
holds a Module. -/
theorem assignAll_eq_runCells (root : Loc) : ∀ (E : List (Str × PyVal α)) (cs : List ((Loc × Str) × PyVal α)) (w : World α),
    List.Forall₂ (fun e c => Resolves w.heap root e.1 c.1 ∧ c.2 = e.2 ∧ ∀ l, attrAt w.heap c.1.1 c.1.2 ≠ some (.ref l)) E cs →
    assignAll root E w = runCells cs w := by
  intro E
  induction E with
  | nil => intro cs w h; cases h; rfl
  | cons e E ih =>
    intro cs w h
    cases h with
    | @cons _ c _ cs hc hcs =>
      obtain ⟨path, v⟩ := e
      obtain ⟨⟨l, n⟩, v'⟩ := c
      obtain ⟨⟨p, hp, hw⟩, rfl, hnr⟩ := hc
      simp only at hp hw hnr
      rw [assignAll, hp, setValueAtPath_eq hw, runCells]
      simp only
      cases hs : setAttr w l n (.val v') with
      | error _ => rfl
      | ok w1 =>
        simp only
        obtain ⟨o, a, ho, ht, hn, ha, rfl⟩ := setAttr_ok_iff.1 hs
        obtain ⟨x, rfl⟩ := storedAttr_val ha
        apply ih
        refine hcs.imp ?_
        rintro e c ⟨⟨p, hp, hw⟩, hv, hnr'⟩
        refine ⟨⟨p, hp, hw.congr (SameObjects.setAttrs ho _).len ?_⟩, hv, ?_⟩
        · intro l' n' b hb
          rw [attrAt_setAttrs ho]
          rw [if_neg]
          · exact hb
          · rintro ⟨rfl, rfl⟩; exact hnr _ hb
        · intro b
          rw [attrAt_setAttrs ho]
          split
          · simp
          · exact hnr' b

/-- The values assigned to attribute `(l, n)`, in order. -/
def cellVals (cs : List ((Loc × Str) × PyVal α)) (l : Loc) (n : Str) : List (PyVal α) :=
  (cs.filter (fun c => decide (c.1 = (l, n)))).map (·.2)

/-- Assigning values one after the other: each must be compatible with what is there. -/
inductive Assigned : Option (Attr α) → List (PyVal α) → Option (Attr α) → Prop
  | nil {old} : Assigned old [] old
  | cons {old v vs new} : Compatible old v → Assigned (some (.val (newValue old v))) vs new →
      Assigned old (v :: vs) new

omit [DecidableEq α] in
theorem WFVal.newValue {old : Option (Attr α)} {v : PyVal α}
    (hold : ∀ c x m, old = some (.val (.cont c x m)) → WFContainer (.cont c x m)) (hv : WFVal v) :
    WFVal (newValue old v) := by
  unfold Nnx.newValue
  split
  · next c x m =>
    right
    apply (hold c x m rfl).with_value
    rcases hv with hv | hv
    · cases v <;> simp_all [PyVal.valueOf, PyVal.Plain]
    · cases hv with | mk hp _ _ _ _ => exact hp
  · exact hv

omit [DecidableEq α] in
theorem WFVal.cont {c : Cls} {x : PyVal α} {m : Md α} (h : WFVal (.cont c x m)) : WFContainer (.cont c x m) := by
  rcases h with h | h
  · simp [PyVal.Plain] at h
  · exact h

/-- Effect of a successful sequence of assignments on every attribute. -/
theorem runCells_effect : ∀ (cs : List ((Loc × Str) × PyVal α)) (w w' : World α),
    (∀ l n c x m, attrAt w.heap l n = some (.val (.cont c x m)) → WFContainer (.cont c x m)) →
    (∀ c ∈ cs, WFVal c.2) → runCells cs w = (w', none) →
    SameObjects w w' ∧ (∀ l n, Assigned (attrAt w.heap l n) (cellVals cs l n) (attrAt w'.heap l n)) ∧
    (∀ c ∈ cs, ∃ o, w.heap[c.1.1]? = some o ∧ w.traceValid o.trace = true ∧ c.1.2 ≠ py! "_module__state") := by
  intro cs
  induction cs with
  | nil =>
    intro w w' _ _ e
    simp only [runCells, Prod.mk.injEq, and_true] at e
    subst e
    exact ⟨.refl _, fun l n => .nil, by simp⟩
  | cons c cs ih =>
    intro w w' hwf hv e
    obtain ⟨⟨l, n⟩, v⟩ := c
    rw [runCells] at e
    simp only at e
    split at e
    · simp at e
    · next w1 hs =>
      obtain ⟨o, a, ho, ht, hn, ha, rfl⟩ := setAttr_ok_iff.1 hs
      have hold : ∀ c x m, attrAt w.heap l n = some (.val (.cont c x m)) → WFContainer (.cont c x m) :=
        fun c x m h => hwf l n c x m h
      have hvv : WFVal v := hv _ List.mem_cons_self
      have hcompat : Compatible (attrAt w.heap l n) v := by
        by_cases hc : Compatible (attrAt w.heap l n) v
        · exact hc
        · rw [storedAttr_error hold hvv hc] at ha; cases ha
      rw [storedAttr_ok hold hvv hcompat] at ha
      cases ha
      have hso := SameObjects.setAttrs ho (dset o.attrs n (.val (newValue (attrAt w.heap l n) v)))
      obtain ⟨h1, h2, h3⟩ := ih _ _ (by
        intro l' n' c x m hx
        rw [attrAt_setAttrs ho] at hx
        split at hx
        · simp only [Option.some.injEq, Attr.val.injEq] at hx
          have := WFVal.newValue hold hvv
          rw [hx] at this
          exact this.cont
        · exact hwf _ _ _ _ _ hx) (fun c hc => hv c (List.mem_cons_of_mem _ hc)) e
      refine ⟨hso.trans h1, ?_, ?_⟩
      · intro l' n'
        have := h2 l' n'
        rw [attrAt_setAttrs ho] at this
        by_cases hcell : l' = l ∧ n' = n
        · obtain ⟨rfl, rfl⟩ := hcell
          rw [if_pos ⟨rfl, rfl⟩] at this
          simp only [cellVals, List.filter_cons, decide_true, if_true, List.map_cons]
          exact .cons hcompat this
        · rw [if_neg hcell] at this
          have hne : ¬ ((l, n) = (l', n')) := by
            simp only [Prod.mk.injEq]
            rintro ⟨rfl, rfl⟩; exact hcell ⟨rfl, rfl⟩
          simp only [cellVals, List.filter_cons, hne, decide_false]
          exact this
      · intro c hc
        rcases List.mem_cons.1 hc with rfl | hc
        · exact ⟨o, ho, ht, hn⟩
        · obtain ⟨o', ho', ht', hn'⟩ := h3 c hc
          have hl : c.1.1 < w.heap.length := by
            rw [← hso.len]; exact (List.getElem?_eq_some_iff.1 ho').1
          refine ⟨_, List.getElem?_eq_getElem hl, ?_, hn'⟩
          obtain ⟨_, _, _, ht2⟩ := hso.obj _ _ _ (List.getElem?_eq_getElem hl) ho'
          rw [← ht2]
          exact ht'

/-- A sequence of compatible assignments to modules of the current trace succeeds. -/
theorem runCells_success : ∀ (cs : List ((Loc × Str) × PyVal α)) (w : World α),
    (∀ l n c x m, attrAt w.heap l n = some (.val (.cont c x m)) → WFContainer (.cont c x m)) →
    (∀ c ∈ cs, WFVal c.2) →
    (∀ c ∈ cs, ∃ o, w.heap[c.1.1]? = some o ∧ w.traceValid o.trace = true ∧ c.1.2 ≠ py! "_module__state") →
    (∀ l n, ∃ new, Assigned (attrAt w.heap l n) (cellVals cs l n) new) →
    ∃ w', runCells cs w = (w', none) := by
  intro cs
  induction cs with
  | nil => intro w _ _ _ _; exact ⟨w, rfl⟩
  | cons c cs ih =>
    intro w hwf hv ht hass
    obtain ⟨⟨l, n⟩, v⟩ := c
    have hold : ∀ c x m, attrAt w.heap l n = some (.val (.cont c x m)) → WFContainer (.cont c x m) :=
      fun c x m h => hwf l n c x m h
    have hvv : WFVal v := hv _ List.mem_cons_self
    obtain ⟨o, ho, htr, hn⟩ := ht _ List.mem_cons_self
    simp only at ho hn
    obtain ⟨new, hnew⟩ := hass l n
    simp only [cellVals, List.filter_cons, decide_true, if_true, List.map_cons] at hnew
    cases hnew with
    | cons hcompat hrest =>
    have hset : setAttr w l n (.val v) = .ok (w.setAttrs l o (dset o.attrs n (.val (newValue (attrAt w.heap l n) v)))) :=
      setAttr_ok_iff.2 ⟨o, _, ho, htr, hn, storedAttr_ok hold hvv hcompat, rfl⟩
    have hso := SameObjects.setAttrs ho (dset o.attrs n (.val (newValue (attrAt w.heap l n) v)))
    rw [runCells]
    simp only [hset]
    apply ih
    · intro l' n' c x m hx
      rw [attrAt_setAttrs ho] at hx
      split at hx
      · simp only [Option.some.injEq, Attr.val.injEq] at hx
        have := WFVal.newValue hold hvv
        rw [hx] at this
        exact this.cont
      · exact hwf _ _ _ _ _ hx
    · exact fun c hc => hv c (List.mem_cons_of_mem _ hc)
    · intro c hc
      obtain ⟨o', ho', ht', hn'⟩ := ht c (List.mem_cons_of_mem _ hc)
      have hl : c.1.1 < (w.setAttrs l o (dset o.attrs n (.val (newValue (attrAt w.heap l n) v)))).heap.length := by
        rw [hso.len]; exact (List.getElem?_eq_some_iff.1 ho').1
      refine ⟨_, List.getElem?_eq_getElem hl, ?_, hn'⟩
      obtain ⟨_, _, _, ht2⟩ := hso.obj _ _ _ ho' (List.getElem?_eq_getElem hl)
      rw [ht2]
      exact ht'
    · intro l' n'
      obtain ⟨new', hnew'⟩ := hass l' n'
      rw [attrAt_setAttrs ho]
      by_cases hcell : l' = l ∧ n' = n
      · obtain ⟨rfl, rfl⟩ := hcell
        rw [if_pos ⟨rfl, rfl⟩]
        exact ⟨_, hrest⟩
      · rw [if_neg hcell]
        have hne : ¬ ((l, n) = (l', n')) := by
          simp only [Prod.mk.injEq]
          rintro ⟨rfl, rfl⟩; exact hcell ⟨rfl, rfl⟩
        simp only [cellVals, List.filter_cons, hne, decide_false] at hnew'
        exact ⟨_, hnew'⟩

end Nnx
