import Verif.Spec.TraceInterrupt
import Verif.Props.Tracers
import Verif.Props.Context
import Verif.Props.SpmdRules
/-
C140: an interruption at the edge of a trace block.
-/
namespace Nnx

theorem TProg.interrupted_cases : ∀ (p : TProg) (n jax : Nat) (stack : List Nat), stack ≠ [] →
    (∃ m, p.interrupted n jax stack = ⟨some m, stack, (p.run jax stack).exc⟩) ∨
    (∃ e s, p.interrupted n jax stack = ⟨none, s, e⟩ ∧ (s = stack ∨ ∃ tr ∈ p.outermost, s = stack ++ [tr])) := by
  intro p
  have simple : ∀ (n : Nat) (r : TOut) (stack : List Nat) (ts : List Nat), r.stack = stack →
      (∃ m, TStop.step n r stack = ⟨some m, stack, r.exc⟩) ∨
      (∃ e s, TStop.step n r stack = ⟨none, s, e⟩ ∧ (s = stack ∨ ∃ tr ∈ ts, s = stack ++ [tr])) := by
    intro n r stack ts h
    cases n with
    | zero => exact .inr ⟨_, _, rfl, .inl rfl⟩
    | succ n => subst h; exact .inl ⟨n, rfl⟩
  have kept : ∀ (p : TProg) (jax : Nat) {stack : List Nat}, stack ≠ [] → (p.run jax stack).stack = stack :=
    fun p jax stack h => (C35_stack_restored p jax stack h).1
  induction p with
  | skip => intro n jax stack h; exact simple _ _ _ _ (kept _ _ h)
  | raise e => intro n jax stack h; exact simple _ _ _ _ (kept _ _ h)
  | observe => intro n jax stack h; exact simple _ _ _ _ (kept _ _ h)
  | create => intro n jax stack h; exact simple _ _ _ _ (kept _ _ h)
  | check ts => intro n jax stack h; exact simple _ _ _ _ (kept _ _ h)
  | underJax tr p ih => intro n jax stack h; exact ih n tr stack h
  | seq p q ihp ihq =>
    intro n jax stack h
    simp only [TProg.interrupted, TProg.run, TProg.outermost]
    rcases ihp n jax stack h with ⟨m, hm⟩ | ⟨e, s, hs, hc⟩
    · rw [hm]
      cases he : (p.run jax stack).exc with
      | some e => exact .inl ⟨m, rfl⟩
      | none =>
        dsimp only
        rw [kept p jax h]
        rcases ihq m jax stack h with ⟨m', hm'⟩ | ⟨e, s, hs, hc⟩
        · exact .inl ⟨m', hm'⟩
        · exact .inr ⟨e, s, hs, hc.imp_right fun ⟨tr, h1, h2⟩ => ⟨tr, List.mem_append_right _ h1, h2⟩⟩
    · rw [hs]
      exact .inr ⟨e, s, rfl, hc.imp_right fun ⟨tr, h1, h2⟩ => ⟨tr, List.mem_append_left _ h1, h2⟩⟩
  | tryExcept p q ihp ihq =>
    intro n jax stack h
    simp only [TProg.interrupted, TProg.run, TProg.outermost]
    rcases ihp n jax stack h with ⟨m, hm⟩ | ⟨e, s, hs, hc⟩
    · rw [hm]
      cases he : (p.run jax stack).exc with
      | none => exact .inl ⟨m, by simp [he]⟩
      | some e =>
        dsimp only
        rw [kept p jax h]
        rcases ihq m jax stack h with ⟨m', hm'⟩ | ⟨e, s, hs, hc⟩
        · exact .inl ⟨m', hm'⟩
        · exact .inr ⟨e, s, hs, hc.imp_right fun ⟨tr, h1, h2⟩ => ⟨tr, List.mem_append_right _ h1, h2⟩⟩
    · rw [hs]
      exact .inr ⟨e, s, rfl, hc.imp_right fun ⟨tr, h1, h2⟩ => ⟨tr, List.mem_append_left _ h1, h2⟩⟩
  | block tr p ih =>
    intro n jax stack h
    have hne : stack ++ [tr] ≠ [] := by simp
    match n with
    | 0 => exact .inr ⟨_, _, rfl, .inl rfl⟩
    | 1 => exact .inr ⟨_, _, rfl, .inr ⟨tr, by simp [TProg.outermost], rfl⟩⟩
    | n + 2 =>
      have hrun : ((TProg.block tr p).run jax stack).exc = (p.run jax (stack ++ [tr])).exc := by
        have hk := kept p jax hne
        simp only [TProg.run, StackOp.apply]
        split
        · next he => rw [hk] at he; exact absurd he hne
        · rfl
      simp only [TProg.interrupted, StackOp.apply, hrun]
      rcases ih n jax (stack ++ [tr]) hne with ⟨m, hm⟩ | ⟨e, s, hs, hc⟩
      · rw [hm]
        match m with
        | 0 => exact .inr ⟨_, _, rfl, .inr ⟨tr, by simp [TProg.outermost], rfl⟩⟩
        | m + 1 => exact .inl ⟨m, by simp⟩
      · rw [hs]
        refine .inr ⟨e, s.dropLast, rfl, ?_⟩
        rcases hc with rfl | ⟨t, _, rfl⟩
        · left; simp
        · right; exact ⟨tr, by simp [TProg.outermost], by simp⟩

/-- C140. A program that is interrupted once, at any moment, leaves the stack of nnx traces as it was, or with one trace too many: that of a block of the program which is not inside of another
one. -/
theorem C140_leftover (p : TProg) (n jax : Nat) (stack : List Nat) (h : stack ≠ []) (hi : (p.interrupted n jax stack).left = none) :
    (p.interrupted n jax stack).stack = stack ∨ ∃ tr ∈ p.outermost, (p.interrupted n jax stack).stack = stack ++ [tr] := by
  rcases p.interrupted_cases n jax stack h with ⟨m, hm⟩ | ⟨e, s, hs, hc⟩
  · rw [hm] at hi; cases hi
  · rw [hs]; exact hc

/-- C140. A program that ends before the interruption ends as it does without one. -/
theorem C140_in_time (p : TProg) (n jax : Nat) (stack : List Nat) (h : stack ≠ []) {m : Nat} (hi : (p.interrupted n jax stack).left = some m) :
    (p.interrupted n jax stack).stack = (p.run jax stack).stack ∧ (p.interrupted n jax stack).exc = (p.run jax stack).exc := by
  rcases p.interrupted_cases n jax stack h with ⟨m', hm⟩ | ⟨e, s, hs, hc⟩
  · rw [hm, (C35_stack_restored p jax stack h).1]; exact ⟨rfl, rfl⟩
  · rw [hs] at hi; cases hi

/-- C140. Every program has a number of steps: an interruption before the last of them stops it, and a later one comes too late. -/
theorem C140_too_late (p : TProg) : ∀ (jax : Nat) (stack : List Nat), stack ≠ [] →
    ∃ N, ∀ n, (p.interrupted n jax stack).left = if n < N then none else some (n - N) := by
  have simple : ∀ (r : TOut) (stack : List Nat), ∃ N, ∀ n, (TStop.step n r stack).left = if n < N then none else some (n - N) := by
    intro r stack
    refine ⟨1, fun n => ?_⟩
    cases n with
    | zero => rfl
    | succ n => simp [TStop.step]
  have whole : ∀ (p : TProg) (n jax : Nat) (stack : List Nat) (m : Nat), stack ≠ [] → (p.interrupted n jax stack).left = some m →
      p.interrupted n jax stack = ⟨some m, stack, (p.run jax stack).exc⟩ := by
    intro p n jax stack m h hm
    rcases p.interrupted_cases n jax stack h with ⟨m', hm'⟩ | ⟨e, s, hs, _⟩
    · rw [hm'] at hm ⊢; cases hm; rfl
    · rw [hs] at hm; cases hm
  induction p with
  | skip => intro jax stack h; exact simple _ _
  | raise e => intro jax stack h; exact simple _ _
  | observe => intro jax stack h; exact simple _ _
  | create => intro jax stack h; exact simple _ _
  | check ts => intro jax stack h; exact simple _ _
  | underJax tr p ih => intro jax stack h; exact ih tr stack h
  | seq p q ihp ihq =>
    intro jax stack h
    obtain ⟨N, hN⟩ := ihp jax stack h
    obtain ⟨K, hK⟩ := ihq jax stack h
    refine ⟨if (p.run jax stack).exc = none then N + K else N, fun n => ?_⟩
    simp only [TProg.interrupted]
    by_cases hn : n < N
    · have := hN n
      rw [if_pos hn] at this
      generalize p.interrupted n jax stack = r at this
      obtain ⟨l, s, e⟩ := r
      dsimp only at this
      subst this
      dsimp only
      rw [if_pos (by split <;> omega)]
    · have := hN n
      rw [if_neg hn] at this
      rw [whole p n jax stack _ h this]
      cases he : (p.run jax stack).exc with
      | some e => simp [hn]
      | none =>
        dsimp only
        rw [hK, if_pos rfl]
        by_cases hk : n - N < K
        · rw [if_pos hk, if_pos (by omega)]
        · rw [if_neg hk, if_neg (by omega)]; congr 1; omega
  | tryExcept p q ihp ihq =>
    intro jax stack h
    obtain ⟨N, hN⟩ := ihp jax stack h
    obtain ⟨K, hK⟩ := ihq jax stack h
    refine ⟨if (p.run jax stack).exc = none then N else N + K, fun n => ?_⟩
    simp only [TProg.interrupted]
    by_cases hn : n < N
    · have := hN n
      rw [if_pos hn] at this
      generalize p.interrupted n jax stack = r at this
      obtain ⟨l, s, e⟩ := r
      dsimp only at this
      subst this
      dsimp only
      rw [if_pos (by split <;> omega)]
    · have := hN n
      rw [if_neg hn] at this
      rw [whole p n jax stack _ h this]
      cases he : (p.run jax stack).exc with
      | none => simp [hn]
      | some e =>
        dsimp only
        have hsome : ¬ (some e = none) := by simp
        rw [hK, if_neg hsome]
        by_cases hk : n - N < K
        · rw [if_pos hk, if_pos (by omega)]
        · rw [if_neg hk, if_neg (by omega)]; congr 1; omega
  | block tr p ih =>
    intro jax stack h
    obtain ⟨N, hN⟩ := ih jax (stack ++ [tr]) (by simp)
    refine ⟨N + 3, fun n => ?_⟩
    match n with
    | 0 => simp [TProg.interrupted]
    | 1 => simp [TProg.interrupted]
    | n + 2 =>
      simp only [TProg.interrupted, StackOp.apply]
      have := hN n
      by_cases hn : n < N
      · rw [if_pos hn] at this
        generalize p.interrupted n jax (stack ++ [tr]) = r at this
        obtain ⟨l, s, e⟩ := r
        dsimp only at this
        subst this
        dsimp only
        rw [if_pos (by omega)]
      · rw [if_neg hn] at this
        rw [whole p n jax _ _ (by simp) this]
        by_cases he : n = N
        · subst he
          simp
        · obtain ⟨k, hk⟩ : ∃ k, n - N = k + 1 := ⟨n - N - 1, by omega⟩
          rw [hk]
          dsimp only
          rw [if_neg (by omega)]; congr 1; omega

/-- C140. The trace of a block is left on the stack when the interruption comes between entering and the `try`, or in the `finally` clause; and also when it comes there in a block inside of it. -/
theorem C140_leaks (tr tr' : Nat) (p : TProg) (jax n : Nat) (stack : List Nat) :
    ((TProg.block tr p).interrupted 1 jax stack).stack = stack ++ [tr] ∧
    ((TProg.block tr (.block tr' p)).interrupted 3 jax stack).stack = stack ++ [tr] ∧
    ((p.interrupted n jax (stack ++ [tr])).left = some 0 →
      ((TProg.block tr p).interrupted (n + 2) jax stack).stack = stack ++ [tr]) := by
  refine ⟨rfl, ?_, ?_⟩
  · simp [TProg.interrupted, StackOp.apply]
  · intro h
    rcases p.interrupted_cases n jax (stack ++ [tr]) (by simp) with ⟨m, hm⟩ | ⟨e, s, hs, _⟩
    · rw [hm] at h
      cases h
      simp only [TProg.interrupted, StackOp.apply, hm]
    · rw [hs] at h; cases h

/-- C140. A trace that was left on the stack stays: no later program with blocks removes it. -/
theorem C140_never_repaired (p q : TProg) (n jax jax' tr : Nat) (stack : List Nat) (h : (p.interrupted n jax stack).stack = stack ++ [tr]) :
    (q.run jax' (p.interrupted n jax stack).stack).stack = stack ++ [tr] ∧
    currentNnxTrace (q.run jax' (p.interrupted n jax stack).stack).stack = some tr := by
  rw [h, (C35_stack_restored q jax' (stack ++ [tr]) (by simp)).1]
  exact ⟨rfl, by simp [currentNnxTrace]⟩

/-- C140. Then no Module or Context that was made before can be used: its trace state is not valid any more, and `make_rng` raises TraceContextError for ever. (Traces are new objects, so `tr` is
not the trace `t` that was current.) -/
theorem C140_unusable {κ η : Type} (P : RngPrims κ η) (params : Option (RngSpec κ)) (flags : Dict Str Bool) (rngs : List (Str × RngSpec κ))
    (w : RngWorld κ) {t tr : Nat} (ht : w.nnxStack.getLast? = some t) (hne : tr ≠ t) {ctx : CtxObj}
    (hc : (newContext P params flags rngs w).1.ctxs[(newContext P params flags rngs w).2]? = some ctx) {name : Str}
    (hn : ctx.hasRng name = true) (p q : TProg) (n jax jax' : Nat) (h : (p.interrupted n jax w.nnxStack).stack = w.nnxStack ++ [tr]) :
    let stack := (q.run jax' (p.interrupted n jax w.nnxStack).stack).stack
    (makeRng P (newContext P params flags rngs w).2 name
      { (newContext P params flags rngs w).1 with jaxTrace := w.jaxTrace, nnxStack := stack }).2 = .error .traceContextError ∧
    TraceState.isValid ⟨w.jaxTrace, t⟩ w.jaxTrace stack = some false := by
  intro stack
  have hs : currentNnxTrace stack = some tr := (C140_never_repaired p q n jax jax' tr w.nnxStack h).2
  constructor
  · exact (C31_trace_level P params flags rngs w ht hc hn w.jaxTrace stack hs).1.2 (fun e => hne e.2)
  · simp [TraceState.isValid, hs, Ne.symm hne]

/-- C140. An interruption in the body of a block restores the stack if it would have restored it without the block. -/
theorem C140_body (tr : Nat) (p : TProg) (n jax : Nat) (stack : List Nat) (hi : (p.interrupted n jax (stack ++ [tr])).left = none)
    (hs : (p.interrupted n jax (stack ++ [tr])).stack = stack ++ [tr]) :
    ((TProg.block tr p).interrupted (n + 2) jax stack).stack = stack := by
  simp only [TProg.interrupted, StackOp.apply]
  generalize p.interrupted n jax (stack ++ [tr]) = r at hi hs
  obtain ⟨l, s, e⟩ := r
  dsimp only at hi hs
  subst hi hs
  simp

example : exRng1.nnxStack.getLast? = some 0 ∧
    ((TProg.block 5 .observe).interrupted 1 0 exRng0.nnxStack).stack = exRng0.nnxStack ++ [5] ∧
    (exRng1.ctxs[0]?.map (·.hasRng (py! "params"))) = some true := by decide

/-- A block in a block, interrupted at each of its moments: before the first step, after the first `append`, …, in the last `finally` clause; then it ends in time. -/
example : (List.range 8).map (fun n => ((TProg.block 1 (.block 2 .observe)).interrupted n 0 [0]).stack) =
      [[0], [0, 1], [0], [0, 1], [0], [0, 1], [0, 1], [0]] ∧
    ((TProg.block 1 (.block 2 .observe)).interrupted 7 0 [0]).left = some 0 := by decide

theorem RProg.interrupted_cases : ∀ (p : RProg) (n : Nat) (r : List LRule),
    (∃ m, p.interrupted n r = ⟨some m, (p.run r).rules, (p.run r).exc⟩) ∨
    (∃ e s, p.interrupted n r = ⟨none, s, e⟩ ∧ (p.NoSet → s = r ∨ ∃ b ∈ p.outermost, s = (b.2.run b.1).rules)) := by
  intro p
  have simple : ∀ (n : Nat) (a : ROut) (r : List LRule) (P : Prop) (bs : List (List LRule × RProg)),
      (∃ m, RStop.step n a r = ⟨some m, a.rules, a.exc⟩) ∨
      (∃ e s, RStop.step n a r = ⟨none, s, e⟩ ∧ (P → s = r ∨ ∃ b ∈ bs, s = (b.2.run b.1).rules)) := by
    intro n a r P bs
    cases n with
    | zero => exact .inr ⟨_, _, rfl, fun _ => .inl rfl⟩
    | succ n => exact .inl ⟨n, rfl⟩
  induction p with
  | skip => intro n r; exact simple _ _ _ _ _
  | raise e => intro n r; exact simple _ _ _ _ _
  | observe => intro n r; exact simple _ _ _ _ _
  | set rules => intro n r; exact simple _ _ _ _ _
  | seq p q ihp ihq =>
    intro n r
    simp only [RProg.interrupted, RProg.run, RProg.outermost, RProg.NoSet]
    rcases ihp n r with ⟨m, hm⟩ | ⟨e, s, hs, hc⟩
    · rw [hm]
      cases he : (p.run r).exc with
      | some e => exact .inl ⟨m, rfl⟩
      | none =>
        dsimp only
        rcases ihq m (p.run r).rules with ⟨m', hm'⟩ | ⟨e, s, hs, hc⟩
        · exact .inl ⟨m', hm'⟩
        · refine .inr ⟨e, s, hs, fun hn => ?_⟩
          rcases hc hn.2 with h | ⟨b, h1, h2⟩
          · left; rw [h, C47_restored p hn.1]
          · exact .inr ⟨b, List.mem_append_right _ h1, h2⟩
    · rw [hs]
      exact .inr ⟨e, s, rfl, fun hn => (hc hn.1).imp_right fun ⟨b, h1, h2⟩ => ⟨b, List.mem_append_left _ h1, h2⟩⟩
  | tryExcept p q ihp ihq =>
    intro n r
    simp only [RProg.interrupted, RProg.run, RProg.outermost, RProg.NoSet]
    rcases ihp n r with ⟨m, hm⟩ | ⟨e, s, hs, hc⟩
    · rw [hm]
      cases he : (p.run r).exc with
      | none => exact .inl ⟨m, by simp [he]⟩
      | some e =>
        dsimp only
        rcases ihq m (p.run r).rules with ⟨m', hm'⟩ | ⟨e, s, hs, hc⟩
        · exact .inl ⟨m', hm'⟩
        · refine .inr ⟨e, s, hs, fun hn => ?_⟩
          rcases hc hn.2 with h | ⟨b, h1, h2⟩
          · left; rw [h, C47_restored p hn.1]
          · exact .inr ⟨b, List.mem_append_right _ h1, h2⟩
    · rw [hs]
      exact .inr ⟨e, s, rfl, fun hn => (hc hn.1).imp_right fun ⟨b, h1, h2⟩ => ⟨b, List.mem_append_left _ h1, h2⟩⟩
  | block rules p ih =>
    intro n r
    match n with
    | 0 => exact .inr ⟨_, _, rfl, fun _ => .inl rfl⟩
    | n + 1 =>
      simp only [RProg.interrupted, RProg.run]
      rcases ih n rules with ⟨m, hm⟩ | ⟨e, s, hs, hc⟩
      · rw [hm]
        match m with
        | 0 => exact .inr ⟨_, _, rfl, fun _ => .inr ⟨(rules, p), by simp [RProg.outermost], rfl⟩⟩
        | m + 1 => exact .inl ⟨m, rfl⟩
      · rw [hs]
        exact .inr ⟨e, r, rfl, fun _ => .inl rfl⟩

/-- C140. A program that changes logical axis rules by blocks only and is interrupted once leaves the rules as they were, or as they are at the end of the body of one of its blocks that are not
inside of another one (whose `finally` clause was interrupted). -/
theorem C140_rules (p : RProg) (hp : p.NoSet) (n : Nat) (r : List LRule) (hi : (p.interrupted n r).left = none) :
    (p.interrupted n r).rules = r ∨ ∃ b ∈ p.outermost, (p.interrupted n r).rules = (b.2.run b.1).rules := by
  rcases p.interrupted_cases n r with ⟨m, hm⟩ | ⟨e, s, hs, hc⟩
  · rw [hm] at hi; cases hi
  · rw [hs]; exact hc hp

/-- C140. Rules of interrupted blocks are repaired by the block around them: an interruption anywhere in the body of a block, at the edges of the blocks inside of it as well, leaves the rules as they
were. -/
theorem C140_rules_repaired (rules : List LRule) (p : RProg) (n : Nat) (r : List LRule) (hi : (p.interrupted n rules).left = none) :
    ((RProg.block rules p).interrupted (n + 1) r).rules = r ∧ ((RProg.block rules p).interrupted (n + 1) r).left = none := by
  simp only [RProg.interrupted]
  generalize p.interrupted n rules = a at hi
  obtain ⟨l, s, e⟩ := a
  dsimp only at hi
  subst hi
  exact ⟨rfl, rfl⟩

/-- A block in a block, interrupted at each of its moments: only the last `finally` clause leaves other rules. -/
example : (List.range 6).map (fun n => ((RProg.block [⟨py! "a", .none⟩] (.block [] .observe)).interrupted n []).rules) =
    [[], [], [], [], [⟨py! "a", .none⟩], []] := by decide

end Nnx
