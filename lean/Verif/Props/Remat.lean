import Verif.Props.Jit
/-
C56 (remat).
-/
namespace Nnx
variable {α β : Type} [DecidableEq α]

/-- **C56, same effect.** If a direct call `f(m)` returns `out` and its net effect is node writes, then `nnx.remat(f)(m)` returns
`out` and leaves every existing Module as the direct call does. -/
theorem C56_same_effect {w wd : World α} (wf : WFWorld w) {l : Loc} (hl : l < w.heap.length) (hv : AllValid w l)
    {f : Prog α β} (hf : f.Good) {out : β} (hd : f.call l w = (wd, .ok out)) (hn : NodeWrites w wd l) (j : Nat) :
    ∃ limit, ∀ fuel, limit < fuel → ∃ wj, rematCall fuel j l f.call w = (wj, .ok out) ∧
      AgreeOn w.heap.length wd wj ∧ SameGraph wd.heap l wj.heap l ∧
      wj.jaxTrace = w.jaxTrace ∧ wj.nnxStack = w.nnxStack := by
  obtain ⟨s, d, hpart⟩ := partition_budget wf hl
  obtain ⟨_, hdef, hs⟩ := hpart _ (Nat.lt_succ_self _)
  obtain ⟨w3, hr, pr, hj, hst⟩ := run_copy wf hl hv hf.parametric hdef hs (pieces_self (getState_canonical hs)) j none
  obtain ⟨w4, hag, hsg, h1, h2, _, hb⟩ := copy_back wf hl hv hf.parametric pr hj hst hd hn
  refine ⟨w3.heap.length, ?_⟩
  intro fuel hfuel
  obtain ⟨hp1, _, _⟩ := hpart fuel (Nat.lt_of_le_of_lt pr.len hfuel)
  obtain ⟨_, s', d', hp3, hu⟩ := hb fuel hfuel
  rw [hd] at hr
  refine ⟨w4, ?_, hag, hsg, h1, h2⟩
  simp only [rematCall, hp1, hr, Except.map, hp3, hu]

/-- **C56, exceptions.** If a direct call raises, `nnx.remat(f)(m)` raises the same and leaves every existing Module as it was. -/
theorem C56_raises {w wd : World α} (wf : WFWorld w) {l : Loc} (hl : l < w.heap.length) (hv : AllValid w l)
    {f : Prog α β} (hf : f.Good) {e : Err} (hd : f.call l w = (wd, .error e)) (j : Nat) :
    ∀ fuel, w.heap.length < fuel → ∃ wj, rematCall fuel j l f.call w = (wj, .error e) ∧
      (∀ a : Loc, a < w.heap.length → wj.heap[a]? = w.heap[a]?) ∧
      wj.jaxTrace = w.jaxTrace ∧ wj.nnxStack = w.nnxStack := by
  intro fuel hlt
  obtain ⟨s, d, hpart⟩ := partition_budget wf hl
  obtain ⟨hp1, hdef, hs⟩ := hpart fuel hlt
  obtain ⟨w3, hr, pr, hj, hst⟩ := run_copy wf hl hv hf.parametric hdef hs (pieces_self (getState_canonical hs)) j none
  rw [hd] at hr
  exact ⟨w3, by simp only [rematCall, hp1, hr, Except.map], pr.old, hj, hst⟩

/-- **C56, static arguments.** An index, negative or not, that denotes an argument of the user's call denotes the same
argument after the state and the keys have been prepended, and an index that is too large still is. -/
theorem C56_static_argnums {A : Type} (state keys : A) (args : List A) (i : Int) (hi : -args.length ≤ i) :
    pyIndex (state :: keys :: args) (rematArgnum i) = pyIndex args i := by
  simp only [pyIndex, rematArgnum]
  by_cases h : 0 ≤ i
  · have h1 : 0 ≤ i + 2 := by omega
    have h2 : (i + 2).toNat = i.toNat + 2 := by omega
    simp only [if_pos h, if_pos h1, h2, List.getElem?_cons_succ]
  · have h1 : -i ≤ (args.length : Int) := by omega
    have h2 : -i ≤ ((state :: keys :: args).length : Int) := by
      simp only [List.length_cons]; omega
    have h3 : (state :: keys :: args).length - (-i).toNat = args.length - (-i).toNat + 2 := by
      simp only [List.length_cons]; omega
    simp only [if_neg h, if_pos h1, if_pos h2, h3, List.getElem?_cons_succ]

/-- A negative index that is out of range by one or two denotes the keys or the state instead of being rejected. -/
theorem C56_out_of_range {A : Type} (state keys : A) (args : List A) :
    pyIndex args (-(args.length + 1 : Nat)) = none ∧
    pyIndex (state :: keys :: args) (rematArgnum (-(args.length + 1 : Nat))) = some keys ∧
    pyIndex (state :: keys :: args) (rematArgnum (-(args.length + 2 : Nat))) = some state := by
  have hn : ¬ (0 : Int) ≤ -(args.length + 1 : Nat) := by omega
  have hn2 : ¬ (0 : Int) ≤ -(args.length + 2 : Nat) := by omega
  simp only [pyIndex, rematArgnum, if_neg hn, if_neg hn2, List.length_cons, Int.neg_neg]
  have h1 : ¬ ((args.length + 1 : Nat) : Int) ≤ args.length := by omega
  have h2 : ((args.length + 1 : Nat) : Int) ≤ (args.length + 1 + 1 : Nat) := by omega
  have h3 : ((args.length + 2 : Nat) : Int) ≤ (args.length + 1 + 1 : Nat) := by omega
  simp only [if_neg h1, if_pos h2, if_pos h3, Int.toNat_natCast]
  have e1 : args.length + 1 + 1 - (args.length + 1) = 1 := by omega
  have e2 : args.length + 1 + 1 - (args.length + 2) = 0 := by omega
  simp [e1]

/-- The program of C49 with `nnx.remat`. -/
example : ∃ wj, rematCall 6 5 0 exProg.call exWorld = (wj, .ok true) ∧
    observe wj.heap 0 [py! "w"] = some (.value (exParam 5)) ∧
    observe wj.heap 0 [py! "a", py! "s"] = some (.value (exStat 9)) := ⟨_, rfl, by decide, by decide⟩

/-- `static_argnums=(1, -2)` for a call with three arguments. -/
example : pyIndex ["state", "keys", "x", "y", "z"] (rematArgnum 1) = some "y" ∧
    pyIndex ["state", "keys", "x", "y", "z"] (rematArgnum (-2)) = some "y" := by decide

end Nnx
