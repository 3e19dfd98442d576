import Verif.Proofs.Tracing
import Verif.Proofs.Context
/-
C123: tracers do not leak into Modules.
-/
namespace Nnx
variable {α : Type} [DecidableEq α]

/-- The traces at the start satisfy the hypothesis of the theorems. -/
theorem C123_start : Tracing.start.Good :=
  ⟨fun m h => absurd h (List.not_mem_nil), by decide, by decide, by decide, by decide⟩

/-- So do those inside of any transformations, nested in any way, and those after them. -/
theorem C123_good {tracer : α → Option Nat} {P : Transform → Prop} {T T' : Tracing} {w w' : World α} (h : Runs tracer P T w T' w') (g : T.Good) :
    (∀ k, (T.enter k).Good) ∧ T'.Good ∧ T'.mains = T.mains ∧ T'.dynamic = T.dynamic ∧ T'.nnx = T.nnx :=
  ⟨g.enter, h.same.good g, by rw [h.same.2], by rw [h.same.2], by rw [h.same.2]⟩

/-- **C123, no tracer of a trace that has been left.** A program uses the API of Modules, directly and inside of jax.jit, jax.lax.scan, nnx.jit, nnx.remat,
nnx.scan and nnx.grad, nested in any way. Afterwards a Module from before holds no tracer that it did not hold before, except tracers of the traces
under which the whole program ran. -/
theorem C123_no_leak {tracer : α → Option Nat} {T T' : Tracing} {w w' : World α} (h : Runs tracer Transform.Noticed T w T' w') (g : T.Good)
    (hm : MadeBefore w T) {l : Loc} (hl : l < w.heap.length) {a : α} {id : Nat} (ha : HasArray w' l a) (ht : tracer a = some id) :
    HasArray w l a ∨ T.Entered id :=
  runs_no_leak h g hm l hl a id ha ht

/-- **C123, outside of transformations.** If no Module holds tracers and no trace has been entered, then after any such program none of these Modules
holds a tracer. -/
theorem C123_clean {tracer : α → Option Nat} {T' : Tracing} {w w' : World α} (h : Runs tracer Transform.Noticed Tracing.start w T' w')
    (hm : MadeBefore w Tracing.start) (hc : ∀ l a, HasArray w l a → tracer a = none) {l : Loc} (hl : l < w.heap.length) {a : α} (ha : HasArray w' l a) :
    tracer a = none := by
  cases ht : tracer a with
  | none => rfl
  | some id =>
    rcases runs_no_leak h C123_start hm l hl a id ha ht with h | ⟨m, hmem, _⟩
    · rw [hc l a h] at ht; cases ht
    · cases hmem

/-- **C123, what can be done to a Module from before, inside.** A Module made before jax.jit, nnx.jit, nnx.grad and so on was entered only loses
attributes there, also inside of further transformations, jax.grad and jax.vmap included: what it has at the end it had at the start. -/
theorem C123_inside {tracer : α → Option Nat} {T T' : Tracing} {w w' : World α} {k : Transform} (hk : k.Noticed)
    (h : Runs tracer (· ≠ .nnxGrad 0) (T.enter k) w T' w') (g : T.Good) (hm : MadeBefore w T) {l : Loc} {o : ModObj α} (ho : w.heap[l]? = some o) :
    ∃ o', w'.heap[l]? = some o' ∧ o'.trace = o.trace ∧ ∀ x ∈ o'.attrs, x ∈ o.attrs :=
  runs_past (fun _ hk => hk) h (g.enter k) (by rw [enter_next]; omega) (past_enter g hk (Nat.le_refl _)) l o ho (hm l o ho).1 (hm l o ho).2

theorem setAttr_other {w : World α} {l : Loc} {o : ModObj α} (ho : w.heap[l]? = some o) (hne : o.trace ≠ w.curTrace) (n : Str) (x : Attr α) :
    setAttr w l n x = .error .traceContextError := by
  have : w.traceValid o.trace = false := by
    rw [← Bool.not_eq_true]
    exact fun h => hne (traceValid_eq.1 h)
  simp only [setAttr, ho, this, if_true]

theorem foldl_enter_past {b : Nat} : ∀ (ks : List Transform) {T : Tracing}, T.Good → b ≤ T.next → T.Past b → (∀ k ∈ ks, k ≠ .nnxGrad 0) →
    (ks.foldl Tracing.enter T).Past b := by
  intro ks
  induction ks with
  | nil => intro T _ _ hp _; exact hp
  | cons k ks ih =>
    intro T g hb hp hk
    refine ih (g.enter k) (by rw [enter_next]; omega) (past_enter_again g (hk k List.mem_cons_self) hb hp) fun k' h => hk k' (List.mem_cons_of_mem _ h)

/-- **C123, assignments are refused.** Inside of a transformation, and of further ones inside of it, an assignment to a Module made before raises
TraceContextError. -/
theorem C123_refused {T : Tracing} {w : World α} {k : Transform} (hk : k.Noticed) (ks : List Transform) (hks : ∀ k' ∈ ks, k' ≠ .nnxGrad 0) (g : T.Good)
    (hm : MadeBefore w T) {l : Loc} (hl : l < w.heap.length) (n : Str) (x : Attr α) :
    setAttr (w.under (ks.foldl Tracing.enter (T.enter k))) l n x = .error .traceContextError := by
  have hp := foldl_enter_past ks (g.enter k) (by rw [enter_next]; omega) (past_enter g hk (Nat.le_refl T.next)) hks
  have ho : w.heap[l]? = some w.heap[l] := List.getElem?_eq_getElem hl
  refine setAttr_other (w := w.under _) (l := l) ho (fun he => ?_) n x
  obtain ⟨h1, h2⟩ := hm l _ ho
  rw [he, under_curTrace] at h1 h2
  rcases hp with hp | hp
  · exact absurd h1 (Nat.not_lt.2 hp)
  · exact absurd h2 (Nat.not_lt.2 hp)

/-- No trace made from `lo` until before `hi` is current. -/
structure Tracing.Skips (T : Tracing) (lo hi : Nat) : Prop where
  next : hi ≤ T.next
  dynamic : T.dynamic.id < lo ∨ hi ≤ T.dynamic.id
  stack : ∀ m ∈ T.nnx, m.id < lo ∨ hi ≤ m.id

theorem Tracing.Skips.enter {T : Tracing} {lo hi : Nat} (s : T.Skips lo hi) (k : Transform) : (T.enter k).Skips lo hi := by
  have hn := s.next
  have hd := s.dynamic
  have hs := s.stack
  cases k with
  | staged => exact ⟨by simp only [Tracing.enter]; omega, .inr hn, hs⟩
  | mapped => exact ⟨by simp only [Tracing.enter]; omega, hd, hs⟩
  | nnxJit n =>
    refine ⟨by simp only [Tracing.enter]; omega, .inr hn, fun m h => ?_⟩
    simp only [Tracing.enter, getTopTrace_self, List.mem_append, List.mem_singleton] at h
    rcases h with h | h
    · exact hs m h
    · subst h; exact .inr hn
  | nnxGrad n =>
    refine ⟨by simp only [Tracing.enter]; omega, hd, fun m h => ?_⟩
    simp only [Tracing.enter, List.mem_append, List.mem_singleton] at h
    rcases h with h | h
    · exact hs m h
    · subst h
      rcases getTopTrace_mem T.dynamic ⟨T.mains.length + 1, T.next⟩ n with e | e
      · rw [e]; exact hd
      · rw [e]; exact .inr hn

theorem foldl_enter_skips {lo hi : Nat} : ∀ (ks : List Transform) {T : Tracing}, T.Skips lo hi → (ks.foldl Tracing.enter T).Skips lo hi := by
  intro ks
  induction ks with
  | nil => intro T s; exact s
  | cons k ks ih => intro T s; exact ih (s.enter k)

theorem foldl_enter_good : ∀ (ks : List Transform) {T : Tracing}, T.Good → (ks.foldl Tracing.enter T).Good := by
  intro ks
  induction ks with
  | nil => intro T s; exact s
  | cons k ks ih => intro T s; exact ih (s.enter k)

/-- Modules made under a past that begins at `b` are not of traces before `b`. -/
theorem runs_new {tracer : α → Option Nat} {P : Transform → Prop} (hP : ∀ k, P k → k ≠ .nnxGrad 0) {T T' : Tracing} {w w' : World α}
    (h : Runs tracer P T w T' w') : ∀ {b : Nat}, T.Good → b ≤ T.next → T.Past b → ∀ (l : Loc) (o : ModObj α), w.heap.length ≤ l →
    w'.heap[l]? = some o → b ≤ o.trace.jax ∨ b ≤ o.trace.nnx := by
  induction h with
  | done => intro b _ _ _ l o hl ho; exact absurd (List.getElem?_eq_some_iff.1 ho).1 (Nat.not_lt.2 hl)
  | call hc _ =>
    intro b _ _ hp l o hl ho
    rw [hc.moved.new l o hl ho, under_curTrace]
    exact hp
  | inside hk _ ih =>
    intro b g hb hp
    exact ih (g.enter _) (by rw [enter_next]; omega) (past_enter_again g (hP _ hk) hb hp)
  | @seq T w T1 w1 T2 w2 h1 h2 ih1 ih2 =>
    intro b g hb hp l o hl ho
    have hs := h1.same
    by_cases hlt : l < w1.heap.length
    · have e1 := List.getElem?_eq_getElem hlt
      obtain ⟨o2, e2, t2⟩ := h2.kept l _ e1
      rw [ho] at e2
      cases e2
      rw [t2]
      exact ih1 g hb hp l _ hl e1
    · exact ih2 (hs.good g) (Nat.le_trans hb hs.1) (hs.past hp) l o (Nat.not_lt.1 hlt) ho

/-- **C123, after the transformation.** A Module made inside of a transformation is refused for ever once the transformation is left: after any program,
and inside of any transformations, an assignment to it raises TraceContextError. -/
theorem C123_after {tracer : α → Option Nat} {P : Transform → Prop} {T T1 T2 : Tracing} {w w1 w2 : World α} {k : Transform} (hk : k.Noticed)
    (h : Runs tracer (· ≠ .nnxGrad 0) (T.enter k) w T1 w1) (h2 : Runs tracer P (T.leave T1) w1 T2 w2) (g : T.Good) (hm : MadeBefore w T) {l : Loc}
    (hl : w.heap.length ≤ l) (hl1 : l < w1.heap.length) (ks : List Transform) (n : Str) (x : Attr α) :
    setAttr (w2.under (ks.foldl Tracing.enter T2)) l n x = .error .traceContextError := by
  have e1 := List.getElem?_eq_getElem hl1
  have hge := runs_new (fun _ hk => hk) h (g.enter k) (by rw [enter_next]; omega) (past_enter g hk (Nat.le_refl T.next)) l _ hl e1
  have hlt := (h.made (g.enter k) fun l o ho => by
      rw [enter_next]
      exact ⟨Nat.lt_succ_of_lt (hm l o ho).1, Nat.lt_succ_of_lt (hm l o ho).2⟩).1 l _ e1
  obtain ⟨o2, e2, t2⟩ := h2.kept l _ e1
  have hs := h2.same
  have hn : T.next ≤ T1.next := by
    have := h.same.1
    rw [enter_next] at this
    omega
  have gl : (T.leave T1).Good := ⟨fun m hm => Nat.lt_of_lt_of_le (g.made m hm) hn, Nat.lt_of_lt_of_le g.dynamic hn, g.level, g.nonempty,
    fun m hm => Nat.lt_of_lt_of_le (g.stack m hm) hn⟩
  have sk : T2.Skips T.next T1.next := by
    have hd : T2.dynamic = T.dynamic := by rw [hs.2]; rfl
    have hst : T2.nnx = T.nnx := by rw [hs.2]; rfl
    exact ⟨hs.1, .inl (by rw [hd]; exact g.dynamic), fun m hm => .inl (g.stack m (by rw [← hst]; exact hm))⟩
  have sk' := foldl_enter_skips ks sk
  have gk := foldl_enter_good ks (hs.good gl)
  refine setAttr_other (w := w2.under _) e2 (fun he => ?_) n x
  rw [t2, under_curTrace] at he
  rw [he] at hge hlt
  rcases hge with h | h
  · rcases sk'.dynamic with h' | h'
    · exact absurd (Nat.lt_of_le_of_lt h h') (Nat.lt_irrefl _)
    · exact absurd (Nat.lt_of_le_of_lt h' hlt.1) (Nat.lt_irrefl _)
  · obtain ⟨m, hmem, e⟩ := top_mem gk
    have h2 := hlt.2
    simp only [← e] at h h2
    rcases sk'.stack m hmem with h' | h'
    · exact absurd (Nat.lt_of_le_of_lt h h') (Nat.lt_irrefl _)
    · exact absurd (Nat.lt_of_le_of_lt h' h2) (Nat.lt_irrefl _)

/-- **C123, what is not noticed.** Inside of jax.grad and jax.vmap, used directly, everything goes on as outside. -/
theorem C123_unseen (T : Tracing) (w : World α) {w' : World α} : ApiCall (w.under (T.enter .mapped)) w' ↔ ApiCall (w.under T) w' := Iff.rfl

/-- One assignment of a tracer. -/
theorem runs_assign {tracer : α → Option Nat} {P : Transform → Prop} {T : Tracing} {w : World α} {l : Loc} {o : ModObj α} (ho : w.heap[l]? = some o)
    (ht : o.trace = (w.under T).curTrace) {n : Str} (hn : dget o.attrs n = none) (hs : n ≠ py! "_module__state") (c : Cls) {a : α} {id : Nat}
    (ha : tracer a = some id) (he : T.Entered id) :
    Runs tracer P T w T ((w.under T).setAttrs l o (dset o.attrs n (.val (.data c a)))) ∧
      HasArray ((w.under T).setAttrs l o (dset o.attrs n (.val (.data c a)))) l a := by
  have hset : setAttr (w.under T) l n (.val (.data c a)) = .ok ((w.under T).setAttrs l o (dset o.attrs n (.val (.data c a)))) := by
    rw [setAttr_ok_iff]
    refine ⟨o, .val (.data c a), ho, traceValid_eq.2 ht, hs, ?_, rfl⟩
    simp only [attrAt, World.under, ho, hn]
    rfl
  have hlt := (List.getElem?_eq_some_iff.1 ho).1
  refine ⟨.call (.assign hset) ?_, ⟨{ o with attrs := dset o.attrs n (.val (.data c a)) }, n, .data c a, ?_, ?_, .data⟩⟩
  · rintro l1 a1 id1 ⟨o1, n1, v1, ho1, hm1, hocc1⟩ ht1
    simp only [World.setAttrs, World.under] at ho1
    rw [List.getElem?_set] at ho1
    split at ho1
    · next hll =>
      subst hll
      cases ho1
      rcases mem_dset_cases hm1 with h | h
      · cases h
        cases hocc1
        rw [ha] at ht1
        cases ht1
        exact .inr he
      · exact .inl ⟨o, n1, v1, ho, h, hocc1⟩
    · exact .inl ⟨o1, n1, v1, ho1, hm1, hocc1⟩
  · simp only [World.setAttrs, World.under]
    rw [List.getElem?_set, if_pos rfl, if_pos hlt]
  · exact dget_mem (by rw [dget_dset, if_pos rfl])

/-- **C123 fails for jax.grad and jax.vmap used directly**, for every Module of the current trace: inside, a tracer can be assigned to it, and it is still
there when the transformation has been left. -/
theorem C123_direct_leak {tracer : α → Option Nat} {T : Tracing} (g : T.Good) {w : World α} {l : Loc} {o : ModObj α} (ho : w.heap[l]? = some o)
    (ht : o.trace = (w.under T).curTrace) {n : Str} (hn : dget o.attrs n = none) (hs : n ≠ py! "_module__state") (c : Cls) {a : α}
    (ha : tracer a = some T.next) :
    ∃ T' w', Runs tracer (· = .mapped) T w T' w' ∧ HasArray w' l a ∧ ¬ T'.Entered T.next := by
  obtain ⟨h, hh⟩ := runs_assign (P := (· = .mapped)) (T := T.enter .mapped) ho ht hn hs c ha ⟨_, List.mem_cons_self, rfl⟩
  refine ⟨_, _, .inside rfl h, hh, fun ⟨m, hm, e⟩ => ?_⟩
  exact absurd (g.made m hm) (by rw [e]; exact Nat.lt_irrefl _)

/-- **C123 fails for nnx.grad of an empty State inside of nnx.grad.** The inner one makes the outer trace current again, so that a Module made outside of
both can be assigned a tracer. -/
theorem C123_empty_leak {tracer : α → Option Nat} {w : World α} {l : Loc} {o : ModObj α} (ho : w.heap[l]? = some o)
    (ht : o.trace = (w.under .start).curTrace) {n : Str} (hn : dget o.attrs n = none) (hs : n ≠ py! "_module__state") (c : Cls) {a : α}
    (ha : tracer a = some 1) (i : Nat) :
    ∃ T' w', Runs tracer (fun k => k = .nnxGrad (i + 1) ∨ k = .nnxGrad 0) .start w T' w' ∧ HasArray w' l a ∧ ¬ T'.Entered 1 := by
  obtain ⟨h, hh⟩ := runs_assign (P := fun k => k = .nnxGrad (i + 1) ∨ k = .nnxGrad 0)
    (T := (Tracing.start.enter (.nnxGrad (i + 1))).enter (.nnxGrad 0)) ho (by
      rw [ht, under_curTrace, under_curTrace]
      simp only [Tracing.top, Tracing.enter, top_append]
      rfl) hn hs c ha ⟨⟨1, 1⟩, by simp [Tracing.enter, Tracing.start], rfl⟩
  refine ⟨_, _, .inside (.inl rfl) (.inside (.inr rfl) h), hh, fun ⟨m, hm, e⟩ => ?_⟩
  cases hm

/-! ### Examples -/

omit [DecidableEq α] in
theorem holds_new {c : Cls} {w : World α} {l : Loc} {a : α} (h : HasArray (newModule c w).1 l a) : HasArray w l a := by
  obtain ⟨o, n, v, ho, hm, hocc⟩ := h
  simp only [newModule] at ho
  by_cases hl : l < w.heap.length
  · rw [List.getElem?_append_left hl] at ho
    exact ⟨o, n, v, ho, hm, hocc⟩
  · rw [List.getElem?_append_right (Nat.not_lt.1 hl)] at ho
    cases hi : l - w.heap.length with
    | zero => rw [hi] at ho; cases ho; cases hm
    | succ i => rw [hi] at ho; cases ho

/-- Arrays with the trace they are tracers of; a Module with an array, made outside of all transformations. -/
def exTraced : World (Nat × Option Nat) :=
  ⟨[⟨cModule, [(py! "w", .val (.data cArray (5, none)))], 0, false, ⟨0, 0⟩⟩], 1, 0, [0]⟩

theorem exTraced_made : MadeBefore exTraced .start := by
  rintro (_ | l) o ho
  · cases ho; decide
  · cases ho

theorem exTraced_clean : ∀ l a, HasArray exTraced l a → a.2 = none := by
  rintro (_ | l) a ⟨o, n, v, ho, hm, hocc⟩
  · cases ho
    rcases List.mem_singleton.1 hm with h
    cases h
    cases hocc
    rfl
  · cases ho

/-- nnx.jit inside of nnx.grad -/
def exNested : Tracing := (Tracing.start.enter (.nnxGrad 3)).enter (.nnxJit 2)

/-- The hypotheses of `C123_no_leak` and `C123_clean` are met by a program that makes a Module inside of nnx.jit inside of nnx.grad and assigns a tracer
to it. The tracer is in that Module when the program is over, and not in the one from before. -/
example : Tracing.start.Good ∧ MadeBefore exTraced .start ∧ (∀ l a, HasArray exTraced l a → a.2 = none) ∧
    ∃ T' w', Runs Prod.snd Transform.Noticed .start exTraced T' w' ∧ HasArray w' 1 (7, some 2) ∧ w'.heap[0]? = exTraced.heap[0]? := by
  refine ⟨C123_start, exTraced_made, exTraced_clean, ?_⟩
  have h2 := runs_assign (tracer := Prod.snd) (P := Transform.Noticed) (T := exNested) (w := (newModule cModule (exTraced.under exNested)).1) (l := 1)
    (o := ⟨cModule, [], 2, false, ⟨2, 2⟩⟩) rfl rfl (n := py! "h") rfl (by decide) cArray (a := (7, some 2)) rfl ⟨⟨2, 2⟩, by decide, rfl⟩
  exact ⟨_, _, .inside (k := .nnxGrad 3) (Nat.succ_pos 2) (.inside (k := .nnxJit 2) trivial
    (.seq (.call (.create cModule) fun l a id h _ => .inl (holds_new (w := exTraced.under exNested) h)) h2.1)), h2.2, rfl⟩

/-- Assignments to the Module from before are refused inside of nnx.grad, also inside of jax.vmap inside of it, and not inside of jax.vmap alone. -/
example : setAttr (exTraced.under (Tracing.start.enter (.nnxGrad 3))) 0 (py! "w") (.val (.data cArray (7, some 1))) = .error .traceContextError ∧
    setAttr (exTraced.under ((Tracing.start.enter (.nnxGrad 3)).enter .mapped)) 0 (py! "w") (.val (.data cArray (7, some 2)))
      = .error .traceContextError ∧
    (setAttr (exTraced.under (Tracing.start.enter .mapped)) 0 (py! "w") (.val (.data cArray (7, some 1)))).toOption.isSome = true := by
  decide

end Nnx
