import Verif.Model.Tracers
import Verif.Basic.Tactics
/-
C35: the nnx trace stack.
-/
namespace Nnx

/-- What a program records and raises, said without a stack: the current nnx trace is that of the innermost enclosing
block, else the one from before. -/
def TProg.spec : TProg → Nat → Nat → List TObs × Option Nat
  | .skip, _, _ => ([], none)
  | .raise e, _, _ => ([], some e)
  | .seq p q, jax, cur =>
    match p.spec jax cur with
    | (o, some e) => (o, some e)
    | (o, none) => (o ++ (q.spec jax cur).1, (q.spec jax cur).2)
  | .block tr p, jax, _ => p.spec jax tr
  | .underJax tr p, _, cur => p.spec tr cur
  | .tryExcept p h, jax, cur =>
    match p.spec jax cur with
    | (o, none) => (o, none)
    | (o, some _) => (o ++ (h.spec jax cur).1, (h.spec jax cur).2)
  | .observe, _, cur => ([.current cur], none)
  | .create, jax, cur => ([.created ⟨jax, cur⟩], none)
  | .check ts, jax, cur => ([.valid (decide (ts = ⟨jax, cur⟩))], none)

theorem run_spec : ∀ (p : TProg) (jax : Nat) (stack : List Nat) (cur : Nat), stack.getLast? = some cur →
    p.run jax stack = ⟨(p.spec jax cur).1, stack, (p.spec jax cur).2.map some⟩ := by
  intro p
  induction p with
  | skip => intros; rfl
  | raise e => intros; rfl
  | seq p q ihp ihq =>
    intro jax stack cur h
    simp only [TProg.run, TProg.spec, ihp jax stack cur h, ihq jax stack cur h]
    rcases p.spec jax cur with ⟨o, _ | e⟩ <;> rfl
  | block tr p ih =>
    intro jax stack cur h
    have := ih jax (stack ++ [tr]) tr (by simp)
    simp only [TProg.run, TProg.spec, StackOp.apply, this]
    cases stack with
    | nil => simp at h
    | cons x xs =>
      simp only [List.cons_append]
      congr 1
      rw [← List.cons_append, List.dropLast_concat]
  | underJax tr p ih => intro _ stack cur h; exact ih tr stack cur h
  | tryExcept p q ihp ihq =>
    intro jax stack cur h
    simp only [TProg.run, TProg.spec, ihp jax stack cur h, ihq jax stack cur h]
    rcases p.spec jax cur with ⟨o, _ | e⟩ <;> rfl
  | observe => intro jax stack cur h; simp [TProg.run, TProg.spec, record, currentNnxTrace, h]
  | create => intro jax stack cur h; simp [TProg.run, TProg.spec, record, newTraceState, currentNnxTrace, h]
  | check ts =>
    intro jax stack cur h
    simp only [TProg.run, TProg.spec, record, TraceState.isValid, currentNnxTrace, h, Option.map_some, Option.map_none]
    congr 3
    rcases ts with ⟨a, b⟩
    simp [TraceState.mk.injEq]

/-- C35. Whatever a program does with `nnx_trace` blocks, at any nesting depth, and however each of them is left,
the stack afterwards is the stack before, so `current_nnx_trace()` is what it was. -/
theorem C35_stack_restored (p : TProg) (jax : Nat) (stack : List Nat) (h : stack ≠ []) :
    (p.run jax stack).stack = stack ∧ currentNnxTrace (p.run jax stack).stack = currentNnxTrace stack := by
  obtain ⟨cur, hc⟩ : ∃ cur, stack.getLast? = some cur := by
    rw [← Option.isSome_iff_exists]; simpa using h
  rw [run_spec p jax stack cur hc]
  exact ⟨rfl, rfl⟩

/-- C35. Inside a block the current trace is the block's: a program behaves as the stackless semantics says, where
entering a block sets the current trace for its body only. Exceptions pass through unchanged. -/
theorem C35_inside (p : TProg) (jax : Nat) (stack : List Nat) (cur : Nat) (h : stack.getLast? = some cur) :
    (p.run jax stack).obs = (p.spec jax cur).1 ∧ (p.run jax stack).exc = (p.spec jax cur).2.map some := by
  rw [run_spec p jax stack cur h]
  exact ⟨rfl, rfl⟩

/-- C35. A trace state is valid exactly where both innermost traces are those of its creation. -/
theorem C35_trace_state (jax jax' : Nat) (stack stack' : List Nat) (cur cur' : Nat) (h : stack.getLast? = some cur)
    (h' : stack'.getLast? = some cur') :
    ∃ ts, newTraceState jax stack = some ts ∧
      ts.isValid jax' stack' = some (decide (jax = jax' ∧ cur = cur')) := by
  refine ⟨⟨jax, cur⟩, by simp [newTraceState, currentNnxTrace, h], ?_⟩
  simp [TraceState.isValid, currentNnxTrace, h']

/-- C35. Threads do not disturb each other: after any schedule, the stack of a thread is what its own steps make of it. -/
theorem C35_thread_local : ∀ (sched : List (Nat × StackOp)) (st : Nat → List Nat) (t : Nat),
    runStacks sched st t = (sched.filter (fun top => top.1 == t)).foldl (fun s top => top.2.apply s) (st t) := by
  intro sched
  induction sched with
  | nil => intros; rfl
  | cons x xs ih =>
    intro st t
    have := ih (fun u => if u = x.1 then x.2.apply (st u) else st u) t
    simp only [runStacks, List.foldl_cons] at this ⊢
    rw [this]
    by_cases h : x.1 = t
    · simp [h]
    · have h' : ¬ t = x.1 := fun e => h e.symm
      simp [h, h']

/-- C35. The same while other threads run: if the last own step of a thread in a schedule enters a block, its current trace is the
block's; and entering and leaving a block, with steps of other threads before, between and after, leaves its stack as it was. -/
theorem C35_thread_block (sched : List (Nat × StackOp)) (st : Nat → List Nat) (t tr : Nat) (others others' : List (Nat × StackOp))
    (ho : ∀ top ∈ others, top.1 ≠ t) (ho' : ∀ top ∈ others', top.1 ≠ t) :
    currentNnxTrace (runStacks (sched ++ (t, .push tr) :: others) st t) = some tr ∧
    runStacks (sched ++ (t, .push tr) :: others ++ (t, .pop) :: others') st t = runStacks sched st t := by
  have f1 : others.filter (fun top => top.1 == t) = [] := by
    rw [List.filter_eq_nil_iff]; intro x hx; simpa using ho x hx
  have f2 : others'.filter (fun top => top.1 == t) = [] := by
    rw [List.filter_eq_nil_iff]; intro x hx; simpa using ho' x hx
  simp only [C35_thread_local, List.filter_append, List.filter_cons, beq_self_eq_true, if_true, f1, f2, List.foldl_append,
    List.foldl_cons, List.foldl_nil, StackOp.apply]
  refine ⟨by simp [currentNnxTrace], ?_⟩
  rw [List.dropLast_concat]

example : runStacks [(0, .push 7), (1, .push 8), (0, .pop), (1, .push 9)] (fun _ => [0]) 1 = [0, 8, 9] := by decide

/-- Nested blocks, the inner one left by an exception that is caught in the outer one. -/
example : (TProg.seq (.block 5 (.seq (.tryExcept (.block 6 (.seq .observe (.raise 1))) .observe) .create))
    (.seq .observe (.check ⟨0, 5⟩))).run 0 [0] =
    ⟨[.current 6, .current 5, .created ⟨0, 5⟩, .current 0, .valid false], [0], none⟩ := by decide

end Nnx
