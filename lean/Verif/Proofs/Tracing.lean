import Verif.Spec.Tracing
import Verif.Props.ModuleUpdate
/-
What a call of the API can do to Modules of other traces: remove attributes, nothing else.
-/
namespace Nnx
variable {α : Type}

/-- `w'` has the Modules of `w`; those of other traces have at most lost attributes. New Modules are of the current trace. -/
structure Moved (w w' : World α) : Prop where
  cur : w'.curTrace = w.curTrace
  len : w.heap.length ≤ w'.heap.length
  old : ∀ (l : Loc) (o : ModObj α), w.heap[l]? = some o → ∃ o', w'.heap[l]? = some o' ∧ o'.trace = o.trace ∧
    (o.trace ≠ w.curTrace → ∀ x ∈ o'.attrs, x ∈ o.attrs)
  new : ∀ (l : Loc) (o' : ModObj α), w.heap.length ≤ l → w'.heap[l]? = some o' → o'.trace = w.curTrace

theorem Moved.refl (w : World α) : Moved w w :=
  ⟨rfl, Nat.le_refl _, fun l o ho => ⟨o, ho, rfl, fun _ _ h => h⟩, fun l o hl ho => by
    have := (List.getElem?_eq_some_iff.1 ho).1
    exact absurd this (Nat.not_lt.2 hl)⟩

theorem Moved.trans {w1 w2 w3 : World α} (h : Moved w1 w2) (k : Moved w2 w3) : Moved w1 w3 := by
  refine ⟨k.cur.trans h.cur, Nat.le_trans h.len k.len, fun l o ho => ?_, fun l o hl ho => ?_⟩
  · obtain ⟨o2, e2, t2, s2⟩ := h.old l o ho
    obtain ⟨o3, e3, t3, s3⟩ := k.old l o2 e2
    exact ⟨o3, e3, t3.trans t2, fun ht x hx => s2 ht x (s3 (by rw [t2, h.cur]; exact ht) x hx)⟩
  · by_cases hlt : l < w2.heap.length
    · obtain ⟨o3, e3, t3, _⟩ := k.old l _ (List.getElem?_eq_getElem hlt)
      rw [ho] at e3; cases e3
      rw [t3]
      exact h.new l _ hl (List.getElem?_eq_getElem hlt)
    · rw [k.new l o (Nat.not_lt.1 hlt) ho]; exact h.cur

/-- One Module is replaced by one of the same trace, which has at most lost attributes unless the trace is the current one. -/
theorem moved_set {w : World α} {l : Loc} {o o' : ModObj α} (ho : w.heap[l]? = some o) (ht : o'.trace = o.trace)
    (hs : o.trace ≠ w.curTrace → ∀ x ∈ o'.attrs, x ∈ o.attrs) : Moved w { w with heap := w.heap.set l o' } := by
  have hlt := (List.getElem?_eq_some_iff.1 ho).1
  refine ⟨rfl, by simp, fun l1 o1 h1 => ?_, fun l1 o1 hl h1 => ?_⟩
  · by_cases he : l1 = l
    · subst he
      rw [ho] at h1; cases h1
      exact ⟨o', by simp [hlt], ht, hs⟩
    · exact ⟨o1, by simp [Ne.symm he, h1], rfl, fun _ _ h => h⟩
  · have := (List.getElem?_eq_some_iff.1 h1).1
    simp only [List.length_set] at this
    exact absurd this (Nat.not_lt.2 hl)

theorem mem_of_ddel {β : Type} : ∀ {d : Dict Str β} {k : Str} {x : Str × β}, x ∈ ddel d k → x ∈ d := by
  intro d
  induction d with
  | nil => intro k x h; simp [ddel] at h
  | cons y d ih =>
    intro k x h
    obtain ⟨k', v'⟩ := y
    rw [ddel] at h
    split at h
    · exact List.mem_cons_of_mem _ h
    · rcases List.mem_cons.1 h with h | h
      · exact h ▸ List.mem_cons_self
      · exact List.mem_cons_of_mem _ (ih h)

variable [DecidableEq α]

theorem moved_setAttr {w w' : World α} {l : Loc} {n : Str} {x : Attr α} (h : setAttr w l n x = .ok w') : Moved w w' := by
  obtain ⟨o, a, ho, ht, _, _, rfl⟩ := setAttr_ok_iff.1 h
  exact moved_set ho rfl fun hne => absurd (traceValid_eq.1 ht) hne

omit [DecidableEq α] in
theorem moved_delAttr {w : World α} {l : Loc} {n : Str} {h' : Heap α} (h : delAttr w.heap l n = .ok h') : Moved w { w with heap := h' } := by
  unfold delAttr at h
  split at h
  · cases h
  · next o ho =>
    split at h
    · cases h
      exact moved_set ho rfl fun _ x hx => mem_of_ddel hx
    · cases h

omit [DecidableEq α] in
theorem moved_new (c : Cls) (w : World α) : Moved w (newModule c w).1 := by
  refine ⟨rfl, by simp [newModule], fun l o ho => ⟨o, ?_, rfl, fun _ _ h => h⟩, fun l o hl ho => ?_⟩
  · simp only [newModule]
    rw [List.getElem?_append_left (List.getElem?_eq_some_iff.1 ho).1]
    exact ho
  · simp only [newModule] at ho
    rw [List.getElem?_append_right hl] at ho
    cases hi : l - w.heap.length with
    | zero => rw [hi] at ho; simp at ho; rw [← ho]
    | succ i => rw [hi] at ho; simp at ho

omit [DecidableEq α] in
/-- Building Modules leaves the others as they are. -/
theorem buildSubs_kept : ∀ (s : Subs α) (w : World α) (im : Dict Nat Loc) {r}, buildSubs s w im = .ok r →
    r.2.1.curTrace = w.curTrace ∧ w.heap.length ≤ r.2.1.heap.length ∧ (∀ l < w.heap.length, r.2.1.heap[l]? = w.heap[l]?) ∧
    ∀ (l : Loc) (o : ModObj α), w.heap.length ≤ l → r.2.1.heap[l]? = some o → o.trace = w.curTrace := by
  intro s
  induction s with
  | nil =>
    intro w im r h
    simp only [buildSubs, Except.ok.injEq] at h
    subst h
    refine ⟨rfl, Nat.le_refl _, fun _ _ => rfl, fun l o hl ho => ?_⟩
    exact absurd (List.getElem?_eq_some_iff.1 ho).1 (Nat.not_lt.2 hl)
  | ref name i rest ih =>
    intro w im r h
    simp only [buildSubs] at h
    split at h
    · cases h
    · split at h
      · cases h
      · next e =>
        cases h
        have := ih _ _ e
        exact this
  | sub name c i subs statics isInit rest ih1 ih2 =>
    intro w im r h
    simp only [buildSubs] at h
    split at h
    · cases h
    · split at h
      · cases h
      · next ch w1 im1 e1 =>
        split at h
        · cases h
        · next ls w2 im2 e2 =>
          cases h
          obtain ⟨a1, a2, a3, a4⟩ := ih1 _ _ e1
          obtain ⟨b1, b2, b3, b4⟩ := ih2 _ _ e2
          have hd : (w.allocDummy c).curTrace = w.curTrace := rfl
          have hl : (w.allocDummy c).heap.length = w.heap.length + 1 := by simp [World.allocDummy]
          have hf : ∀ st ch b, (w1.finish w.heap.length c st ch b).curTrace = w1.curTrace := fun _ _ _ => rfl
          have hfl : ∀ st ch b, (w1.finish w.heap.length c st ch b).heap.length = w1.heap.length := fun _ _ _ => by simp [World.finish]
          simp only [hf, hfl] at a1 a2 a3 a4 b1 b2 b3 b4
          rw [hl] at a2 a3 a4
          rw [hd] at a1 a4
          refine ⟨b1.trans a1, by simp only; omega, fun l hlt => ?_, fun l o hle ho => ?_⟩
          · rw [b3 l (by omega)]
            simp only [World.finish]
            rw [List.getElem?_set, if_neg (Nat.ne_of_gt hlt), a3 l (by omega)]
            simp only [World.allocDummy]
            rw [List.getElem?_append_left hlt]
          · by_cases hlt : l < w1.heap.length
            · rw [b3 l hlt] at ho
              simp only [World.finish] at ho
              rw [List.getElem?_set] at ho
              split at ho
              · split at ho
                · cases ho; exact a1
                · cases ho
              · next hne => exact a4 l o (Nat.lt_of_le_of_ne hle hne) ho
            · rw [b4 l o (Nat.not_lt.1 hlt) ho]; exact a1

omit [DecidableEq α] in
theorem moved_build {d : ModuleDef α} {w w' : World α} {l : Loc} (h : buildModule d w = .ok (l, w')) : Moved w w' := by
  unfold buildModule at h
  simp only at h
  split at h
  · cases h
  · next ch w1 im e =>
    cases h
    obtain ⟨a1, a2, a3, a4⟩ := buildSubs_kept _ _ _ e
    simp only at a1 a2 a3 a4
    have hd : (w.allocDummy d.cls).curTrace = w.curTrace := rfl
    have hl : (w.allocDummy d.cls).heap.length = w.heap.length + 1 := by simp [World.allocDummy]
    rw [hl] at a2 a3 a4
    rw [hd] at a1 a4
    refine ⟨a1, by simp only [World.finish, List.length_set]; omega, fun l o ho => ⟨o, ?_, rfl, fun _ _ h => h⟩, fun l o hle ho => ?_⟩
    · have hlt := (List.getElem?_eq_some_iff.1 ho).1
      simp only [World.finish]
      rw [List.getElem?_set, if_neg (Nat.ne_of_gt hlt), a3 l (by omega)]
      simp only [World.allocDummy]
      rw [List.getElem?_append_left hlt]
      exact ho
    · simp only [World.finish] at ho
      rw [List.getElem?_set] at ho
      split at ho
      · split at ho
        · cases ho; exact a1
        · cases ho
      · next hne => exact a4 l o (Nat.lt_of_le_of_ne hle hne) ho

theorem moved_setValue {w w' : World α} {v : PyVal α} : ∀ (ps : List Str) (a : Attr α), setValueAtPath w a ps v = .ok w' → Moved w w' := by
  intro ps
  induction ps with
  | nil => intro a h; cases a <;> simp [setValueAtPath] at h
  | cons p ps ih =>
    intro a h
    cases a with
    | val x => simp [setValueAtPath] at h
    | ref l =>
      cases ps with
      | nil => exact moved_setAttr (by simpa [setValueAtPath] using h)
      | cons q ps =>
        rw [setValueAtPath] at h
        split at h
        · cases h
        · exact ih _ h

theorem moved_assignAll (root : Loc) : ∀ (E : List (Str × PyVal α)) (w w' : World α) (r : Option Err), assignAll root E w = (w', r) → Moved w w' := by
  intro E
  induction E with
  | nil => intro w w' r e; simp only [assignAll, Prod.mk.injEq] at e; rw [← e.1]; exact .refl _
  | cons x E ih =>
    intro w w' r e
    obtain ⟨k, v⟩ := x
    rw [assignAll] at e
    split at e
    · simp only [Prod.mk.injEq] at e; rw [← e.1]; exact .refl _
    · next w1 hs => exact (moved_setValue _ _ hs).trans (ih _ _ _ e)

theorem moved_merge {d : ModuleDef α} {ss : List (State (PyVal α))} {w w' : World α} {r : Except Err Loc} (h : mergeDef d ss w = (w', r)) :
    Moved w w' := by
  unfold mergeDef at h
  split at h
  · cases h; exact .refl _
  · next l w1 e =>
    split at h
    · next w2 hu => cases h; exact (moved_build e).trans (moved_assignAll _ _ _ _ _ hu)
    · next w2 _ hu => cases h; exact (moved_build e).trans (moved_assignAll _ _ _ _ _ hu)

omit [DecidableEq α] in
theorem moved_popAttrs {w0 : World α} {rec : Loc → Heap α → List Nat → List Str → List (Dict Str (PyVal α)) → PopResult α} {preds : List (Pred α)} {l : Loc}
    (hrec : ∀ l' h idx ps st h' r, rec l' h idx ps st = (h', r) → Moved { w0 with heap := h } { w0 with heap := h' }) :
    ∀ (as : List (Str × Attr α)) (h : Heap α) (idx : List Nat) (ps : List Str) (st : List (Dict Str (PyVal α))) (h' : Heap α) r,
    popAttrs rec preds l as h idx ps st = (h', r) → Moved { w0 with heap := h } { w0 with heap := h' } := by
  intro as
  induction as with
  | nil => intro h idx ps st h' r e; cases e; exact .refl _
  | cons x as ih =>
    intro h idx ps st h' r e
    obtain ⟨n, a⟩ := x
    cases a with
    | ref l' =>
      simp only [popAttrs] at e
      split at e
      · next h1 _ e1 => cases e; exact hrec _ _ _ _ _ _ _ e1
      · next h1 _ _ e1 => exact (hrec _ _ _ _ _ _ _ e1).trans (ih _ _ _ _ _ _ e)
    | val v =>
      simp only [popAttrs] at e
      split at e
      · split at e
        · exact ih _ _ _ _ _ _ e
        · split at e
          · cases e; exact .refl _
          · next h1 e1 => exact (moved_delAttr (w := { w0 with heap := h }) e1).trans (ih _ _ _ _ _ _ e)
      · exact ih _ _ _ _ _ _ e

omit [DecidableEq α] in
theorem moved_popRec (w0 : World α) (preds : List (Pred α)) : ∀ (fuel : Nat) (l : Loc) (h : Heap α) (idx : List Nat) (ps : List Str)
    (st : List (Dict Str (PyVal α))) (h' : Heap α) r, popRec preds fuel l h idx ps st = (h', r) → Moved { w0 with heap := h } { w0 with heap := h' } := by
  intro fuel
  induction fuel with
  | zero => intro l h idx ps st h' r e; cases e; exact .refl _
  | succ fuel ih =>
    intro l h idx ps st h' r e
    rw [popRec] at e
    split at e
    · cases e; exact .refl _
    · split at e
      · cases e; exact .refl _
      · split at e
        · next h1 _ e1 => cases e; exact moved_popAttrs (fun _ _ _ _ _ _ _ e => ih _ _ _ _ _ _ _ e) _ _ _ _ _ _ _ e1
        · next h1 _ _ e1 => cases e; exact moved_popAttrs (fun _ _ _ _ _ _ _ e => ih _ _ _ _ _ _ _ e) _ _ _ _ _ _ _ e1

omit [DecidableEq α] in
theorem moved_pop {w : World α} {fuel : Nat} {l : Loc} {fs : List (Filter α)} {h' : Heap α} {r} (h : popState fuel l fs w.heap = (h', r)) :
    Moved w { w with heap := h' } := by
  unfold popState at h
  split at h
  · cases h; exact .refl _
  · split at h
    · cases h; exact .refl _
    · split at h
      · next h1 _ e1 => cases h; exact moved_popRec w _ _ _ _ _ _ _ _ _ e1
      · next h1 _ _ e1 => cases h; exact moved_popRec w _ _ _ _ _ _ _ _ _ e1

theorem moved_sow {w w' : World α} {l : Loc} {vt : Cls} {n : Str} {v : PyVal α} (h : sow l vt n v w = .ok w') : Moved w w' := by
  unfold sow at h
  split at h
  · cases h
  · split at h
    · cases h
    · split at h
      · split at h
        · cases h
        · split at h
          · cases h
          · split at h
            · exact moved_setAttr h
            · cases h
      · cases h
      · split at h
        · cases h
        · split at h
          · cases h
          · exact moved_setAttr h

omit [DecidableEq α] in
theorem moved_setIsInit {b : Bool} {l : Loc} {w w' : World α} {r : Option Err} (h : setIsInit b l w = (w', r)) : Moved w w' := by
  unfold setIsInit at h
  split at h
  · cases h; exact .refl _
  · next o ho => cases h; exact moved_set ho rfl fun _ _ h => h

omit [DecidableEq α] in
theorem moved_onAllAttrs {rec : Loc → World α → List Nat → World α × Except Err (List Nat)}
    (hrec : ∀ l w v w' r, rec l w v = (w', r) → Moved w w') : ∀ (as : List (Str × Attr α)) (w : World α) (v : List Nat) (w' : World α) r,
    onAllAttrs rec as w v = (w', r) → Moved w w' := by
  intro as
  induction as with
  | nil => intro w v w' r e; cases e; exact .refl _
  | cons x as ih =>
    intro w v w' r e
    obtain ⟨n, a⟩ := x
    cases a with
    | ref l' =>
      simp only [onAllAttrs] at e
      split at e
      · next e1 => cases e; exact hrec _ _ _ _ _ e1
      · next e1 => exact (hrec _ _ _ _ _ e1).trans (ih _ _ _ _ e)
    | val _ => simp only [onAllAttrs] at e; exact ih _ _ _ _ e

omit [DecidableEq α] in
theorem moved_onAll {ty : Cls} {b : Bool} : ∀ (fuel : Nat) (l : Loc) (w : World α) (v : List Nat) (w' : World α) r,
    onAll World.heap ty (setIsInit b) fuel l w v = (w', r) → Moved w w' := by
  intro fuel
  induction fuel with
  | zero => intro l w v w' r e; cases e; exact .refl _
  | succ fuel ih =>
    intro l w v w' r e
    rw [onAll] at e
    split at e
    · cases e; exact .refl _
    · split at e
      · cases e; exact .refl _
      · have hfn : ∀ {w1 : World α} {r1 : Option Err} {p : Prop} [Decidable p], (if p then setIsInit b l w else (w, none)) = (w1, r1) → Moved w w1 := by
          intro w1 r1 p _ h
          split at h
          · exact moved_setIsInit h
          · cases h; exact .refl _
        split at e
        · next e1 => cases e; exact hfn e1
        · next e1 =>
          split at e
          · cases e; exact hfn e1
          · exact (hfn e1).trans (moved_onAllAttrs (fun _ _ _ _ _ e => ih _ _ _ _ _ e) _ _ _ _ _ e)

theorem ApiCall.moved {w w' : World α} (h : ApiCall w w') : Moved w w' := by
  cases h with
  | assign h => exact moved_setAttr h
  | delete h => exact moved_delAttr h
  | create c => exact moved_new c _
  | merge h => exact moved_merge h
  | update h =>
    unfold updateState at h
    split at h
    · cases h; exact .refl _
    · exact moved_assignAll _ _ _ _ _ h
  | pop h => exact moved_pop h
  | sow h => exact moved_sow h
  | flags h =>
    unfold forEach at h
    split at h
    · next e => cases h; exact moved_onAll _ _ _ _ _ _ e
    · next e => cases h; exact moved_onAll _ _ _ _ _ _ e

/-! ### Traces -/

/-- The nnx trace on top of the stack. -/
def Tracing.top (T : Tracing) : Nat := (T.nnx.map Main.id).getLastD 0

omit [DecidableEq α] in
theorem under_curTrace (w : World α) (T : Tracing) : (w.under T).curTrace = ⟨T.dynamic.id, T.top⟩ := rfl

theorem topTracer_replicate (m : Main) : ∀ n, 0 < n → topTracer (List.replicate n (some m)) = some m := by
  intro n
  induction n with
  | zero => intro h; omega
  | succ n ih =>
    intro _
    rw [List.replicate_succ, topTracer]
    cases n with
    | zero => rfl
    | succ n => rw [ih (by omega)]; simp

theorem getTopTrace_new {d m : Main} (hl : d.level < m.level) {n : Nat} (hn : 0 < n) : getTopTrace d (List.replicate n (some m)) = m := by
  rw [getTopTrace, findTopTrace, topTracer_replicate m n hn]
  simp only
  rw [if_neg (by omega)]

theorem getTopTrace_self (m : Main) (n : Nat) : getTopTrace m (List.replicate n (some m)) = m := by
  cases n with
  | zero => rfl
  | succ n => rw [getTopTrace, findTopTrace, topTracer_replicate m _ (by omega)]; simp

theorem top_append (l : List Main) (m : Main) : ((l ++ [m]).map Main.id).getLastD 0 = m.id := by simp

theorem enter_next (T : Tracing) (k : Transform) : (T.enter k).next = T.next + 1 := by cases k <;> rfl

theorem getTopTrace_mem (d m : Main) (n : Nat) : getTopTrace d (List.replicate n (some m)) = d ∨ getTopTrace d (List.replicate n (some m)) = m := by
  cases n with
  | zero => exact .inl rfl
  | succ n =>
    rw [getTopTrace, findTopTrace, topTracer_replicate m _ (by omega)]
    simp only
    split
    · exact .inl rfl
    · exact .inr rfl

theorem Tracing.Good.enter {T : Tracing} (g : T.Good) (k : Transform) : (T.enter k).Good := by
  have hm : ∀ m ∈ (⟨T.mains.length + 1, T.next⟩ : Main) :: T.mains, m.id < T.next + 1 := by
    intro m h
    rcases List.mem_cons.1 h with h | h
    · subst h; simp
    · exact Nat.lt_succ_of_lt (g.made m h)
  have hd := g.dynamic
  have hst := g.stack
  have hlv := g.level
  cases k with
  | staged => exact ⟨hm, by simp [Tracing.enter], by simp [Tracing.enter], g.nonempty, fun m h => Nat.lt_succ_of_lt (hst m h)⟩
  | mapped => exact ⟨hm, Nat.lt_succ_of_lt hd, by simp only [Tracing.enter, List.length_cons]; omega, g.nonempty, fun m h => Nat.lt_succ_of_lt (hst m h)⟩
  | nnxJit n =>
    refine ⟨hm, by simp [Tracing.enter], by simp [Tracing.enter], by simp [Tracing.enter], fun m h => ?_⟩
    simp only [Tracing.enter, getTopTrace_self, List.mem_append, List.mem_singleton] at h ⊢
    rcases h with h | h
    · exact Nat.lt_succ_of_lt (hst m h)
    · subst h; simp
  | nnxGrad n =>
    refine ⟨hm, Nat.lt_succ_of_lt hd, by simp only [Tracing.enter, List.length_cons]; omega, by simp [Tracing.enter], fun m h => ?_⟩
    simp only [Tracing.enter, List.mem_append, List.mem_singleton] at h ⊢
    rcases h with h | h
    · exact Nat.lt_succ_of_lt (hst m h)
    · subst h
      rcases getTopTrace_mem T.dynamic ⟨T.mains.length + 1, T.next⟩ n with e | e
      · rw [e]; omega
      · rw [e]; simp

/-- `T'` is `T`, except that more traces may have been made meanwhile. -/
def Tracing.Same (T T' : Tracing) : Prop := T.next ≤ T'.next ∧ T' = { T with next := T'.next }

theorem Tracing.Same.refl (T : Tracing) : T.Same T := ⟨Nat.le_refl _, rfl⟩

theorem Tracing.Same.trans {T1 T2 T3 : Tracing} (h : T1.Same T2) (k : T2.Same T3) : T1.Same T3 := by
  refine ⟨Nat.le_trans h.1 k.1, ?_⟩
  rw [k.2, h.2]

theorem Tracing.Same.good {T T' : Tracing} (h : T.Same T') (g : T.Good) : T'.Good := by
  have hn := h.1
  rw [h.2]
  exact ⟨fun m hm => Nat.lt_of_lt_of_le (g.made m hm) hn, Nat.lt_of_lt_of_le g.dynamic hn, g.level, g.nonempty,
    fun m hm => Nat.lt_of_lt_of_le (g.stack m hm) hn⟩

theorem Runs.same {tracer : α → Option Nat} {P : Transform → Prop} {T T' : Tracing} {w w' : World α} (h : Runs tracer P T w T' w') : T.Same T' := by
  induction h with
  | done => exact .refl _
  | call _ _ => exact .refl _
  | inside _ _ ih =>
    refine ⟨?_, rfl⟩
    have := ih.1
    rw [enter_next] at this
    simp only [Tracing.leave]
    omega
  | seq _ _ ih1 ih2 => exact ih1.trans ih2

/-- No trace made before `b` is the current one, as the guard sees it. -/
def Tracing.Past (T : Tracing) (b : Nat) : Prop := b ≤ T.dynamic.id ∨ b ≤ T.top

theorem Tracing.Same.past {T T' : Tracing} {b : Nat} (h : T.Same T') (p : T.Past b) : T'.Past b := by rw [h.2]; exact p

theorem past_enter {T : Tracing} (g : T.Good) {k : Transform} (hk : k.Noticed) {b : Nat} (hb : b ≤ T.next) : (T.enter k).Past b := by
  cases k with
  | staged => exact .inl hb
  | mapped => exact hk.elim
  | nnxJit n => exact .inl hb
  | nnxGrad n =>
    have hl := g.level
    refine .inr ?_
    simp only [Tracing.top, Tracing.enter]
    rw [top_append, getTopTrace_new (by simp only; omega) hk]
    exact hb

theorem past_enter_again {T : Tracing} (g : T.Good) {k : Transform} (hk : k ≠ .nnxGrad 0) {b : Nat} (hb : b ≤ T.next) (hp : T.Past b) :
    (T.enter k).Past b := by
  cases k with
  | mapped => exact hp
  | nnxGrad n =>
    refine past_enter g (k := .nnxGrad n) ?_ hb
    exact Nat.pos_of_ne_zero fun h => hk (by rw [h])
  | _ => exact past_enter g (by trivial) hb

/-- Modules of past traces only lose attributes. -/
theorem runs_past {tracer : α → Option Nat} {P : Transform → Prop} (hP : ∀ k, P k → k ≠ .nnxGrad 0) {T T' : Tracing} {w w' : World α}
    (h : Runs tracer P T w T' w') : ∀ {b : Nat}, T.Good → b ≤ T.next → T.Past b → ∀ (l : Loc) (o : ModObj α), w.heap[l]? = some o →
    o.trace.jax < b → o.trace.nnx < b → ∃ o', w'.heap[l]? = some o' ∧ o'.trace = o.trace ∧ ∀ x ∈ o'.attrs, x ∈ o.attrs := by
  induction h with
  | done => intro b _ _ _ l o ho _ _; exact ⟨o, ho, rfl, fun _ h => h⟩
  | call hc _ =>
    intro b _ _ hp l o ho hj hn
    obtain ⟨o', h1, h2, h3⟩ := hc.moved.old l o ho
    refine ⟨o', h1, h2, h3 fun he => ?_⟩
    rw [under_curTrace] at he
    rw [he] at hj hn
    rcases hp with hp | hp
    · exact absurd hj (Nat.not_lt.2 hp)
    · exact absurd hn (Nat.not_lt.2 hp)
  | inside hk _ ih =>
    intro b g hb hp
    exact ih (g.enter _) (by rw [enter_next]; omega) (past_enter_again g (hP _ hk) hb hp)
  | seq h1 _ ih1 ih2 =>
    intro b g hb hp l o ho hj hn
    obtain ⟨o1, e1, t1, s1⟩ := ih1 g hb hp l o ho hj hn
    have hs := h1.same
    obtain ⟨o2, e2, t2, s2⟩ := ih2 (hs.good g) (Nat.le_trans hb hs.1) (hs.past hp) l o1 e1 (by rw [t1]; exact hj) (by rw [t1]; exact hn)
    exact ⟨o2, e2, t2.trans t1, fun x hx => s1 x (s2 x hx)⟩

theorem top_mem {T : Tracing} (g : T.Good) : ∃ m ∈ T.nnx, m.id = T.top := by
  have hne : T.nnx.map Main.id ≠ [] := by simpa using g.nonempty
  rw [Tracing.top, List.getLastD_eq_getLast?, List.getLast?_eq_some_getLast hne]
  exact List.mem_map.1 (List.getLast_mem hne)

/-- Modules stay Modules of their traces. -/
theorem Runs.kept {tracer : α → Option Nat} {P : Transform → Prop} {T T' : Tracing} {w w' : World α} (h : Runs tracer P T w T' w') :
    ∀ (l : Loc) (o : ModObj α), w.heap[l]? = some o → ∃ o', w'.heap[l]? = some o' ∧ o'.trace = o.trace := by
  induction h with
  | done => intro l o ho; exact ⟨o, ho, rfl⟩
  | call hc _ =>
    intro l o ho
    obtain ⟨o1, e1, t1, _⟩ := hc.moved.old l o ho
    exact ⟨o1, e1, t1⟩
  | inside _ _ ih => exact ih
  | seq _ _ ih1 ih2 =>
    intro l o ho
    obtain ⟨o1, e1, t1⟩ := ih1 l o ho
    obtain ⟨o2, e2, t2⟩ := ih2 l o1 e1
    exact ⟨o2, e2, t2.trans t1⟩

theorem top_lt {T : Tracing} (g : T.Good) : T.top < T.next := by
  obtain ⟨m, hm, e⟩ := top_mem g
  exact e ▸ g.stack m hm

/-- Programs keep the worlds well-formed, and Modules stay Modules of their traces. -/
theorem Runs.made {tracer : α → Option Nat} {P : Transform → Prop} {T T' : Tracing} {w w' : World α} (h : Runs tracer P T w T' w') :
    T.Good → MadeBefore w T → MadeBefore w' T' ∧ ∀ (l : Loc) (o : ModObj α), w.heap[l]? = some o →
      ∃ o', w'.heap[l]? = some o' ∧ o'.trace = o.trace := by
  induction h with
  | done => intro _ hm; exact ⟨hm, fun l o ho => ⟨o, ho, rfl⟩⟩
  | @call T w w' hc _ =>
    intro g hm
    have hv := hc.moved
    refine ⟨fun l o' ho' => ?_, fun l o ho => ?_⟩
    · by_cases hl : l < w.heap.length
      · obtain ⟨o1, e1, t1, _⟩ := hv.old l _ (List.getElem?_eq_getElem hl)
        rw [ho'] at e1
        cases e1
        rw [t1]
        exact hm l _ (List.getElem?_eq_getElem hl)
      · rw [hv.new l o' (Nat.not_lt.1 hl) ho', under_curTrace]
        exact ⟨g.dynamic, top_lt g⟩
    · obtain ⟨o1, e1, t1, _⟩ := hv.old l o ho
      exact ⟨o1, e1, t1⟩
  | inside _ _ ih =>
    intro g hm
    exact ih (g.enter _) fun l o ho => by
      rw [enter_next]
      exact ⟨Nat.lt_succ_of_lt (hm l o ho).1, Nat.lt_succ_of_lt (hm l o ho).2⟩
  | seq h1 _ ih1 ih2 =>
    intro g hm
    obtain ⟨a1, a2⟩ := ih1 g hm
    obtain ⟨b1, b2⟩ := ih2 (h1.same.good g) a1
    refine ⟨b1, fun l o ho => ?_⟩
    obtain ⟨o1, e1, t1⟩ := a2 l o ho
    obtain ⟨o2, e2, t2⟩ := b2 l o1 e1
    exact ⟨o2, e2, t2.trans t1⟩

omit [DecidableEq α] in
theorem HasArray.lt {w : World α} {l : Loc} {a : α} (h : HasArray w l a) : l < w.heap.length := by
  obtain ⟨o, _, _, ho, _⟩ := h
  exact (List.getElem?_eq_some_iff.1 ho).1

theorem runs_no_leak {tracer : α → Option Nat} {T T' : Tracing} {w w' : World α} (h : Runs tracer Transform.Noticed T w T' w') :
    T.Good → MadeBefore w T → ∀ l < w.heap.length, ∀ a id, HasArray w' l a → tracer a = some id → HasArray w l a ∨ T.Entered id := by
  induction h with
  | done => intro _ _ l _ a id h _; exact .inl h
  | call _ hc => intro _ _ l _ a id h ht; exact hc l a id h ht
  | @inside T w T' w' k hk hr ih =>
    intro g hm l hl a id ⟨o', n, v, ho', hmem, hocc⟩ _
    have hg := List.getElem?_eq_getElem hl
    obtain ⟨o1, e1, _, s1⟩ := runs_past (fun k hk => by rintro rfl; exact absurd hk (Nat.lt_irrefl 0)) hr (g.enter k)
      (by rw [enter_next]; omega) (past_enter g hk (Nat.le_refl _)) l _ hg (hm l _ hg).1 (hm l _ hg).2
    rw [ho'] at e1
    cases e1
    exact .inl ⟨_, n, v, hg, s1 _ hmem, hocc⟩
  | seq h1 _ ih1 ih2 =>
    intro g hm l hl a id h ht
    obtain ⟨a1, a2⟩ := h1.made g hm
    obtain ⟨o1, e1, _⟩ := a2 l _ (List.getElem?_eq_getElem hl)
    rcases ih2 (h1.same.good g) a1 l (List.getElem?_eq_some_iff.1 e1).1 a id h ht with h | h
    · exact ih1 g hm l hl a id h ht
    · rw [h1.same.2] at h
      exact .inr h

end Nnx
