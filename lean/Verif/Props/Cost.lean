import Verif.Proofs.Cost
import Verif.Props.ModuleGraph
/-
C129: what get_state and get_module_def cost, in time and in depth of recursion.
-/
namespace Nnx
variable {α : Type} [DecidableEq α]

omit [DecidableEq α] in
/-- C129. get_state looks at every attribute of every reachable Module exactly once, however many paths lead to it:
the number of times the body of its loop runs is the total number of attributes of those Modules. -/
theorem C129_get_state {h : Heap α} (wf : WFHeap h) {root : Loc} (hroot : root < h.length) {fuel : Nat}
    {s : State (PyVal α)} (e : getState fuel h root = some s) {mods : List Loc} (hm : Lists h root mods) :
    countGetState fuel h root = some (s, (mods.map (attrCount h)).sum) := by
  obtain ⟨vs, S', hd, hp⟩ := dfs_reachable wf hroot hm
  have hdrop := countGetState_drop h fuel root
  rw [e] at hdrop
  unfold countGetState at hdrop ⊢
  unfold getState at e
  split at e
  · cases e
  · next items S1 he =>
    obtain ⟨ws, d, _⟩ := iterStateRec_dfs h fuel root [] [] items S1 he
    obtain ⟨ys, hy⟩ := d.countState
    obtain ⟨rfl, _⟩ := (hd _ (Nat.lt_succ_self _)).functional d
    rw [hy] at hdrop ⊢
    simp only [Option.map_some, Option.some.injEq] at hdrop
    simp only [hdrop, visitCost_perm hp]

omit [DecidableEq α] in
/-- C129. The same for get_module_def, and so for partition, which calls both. -/
theorem C129_get_module_def {h : Heap α} (wf : WFHeap h) {root : Loc} (hroot : root < h.length) {fuel : Nat}
    (hf : ∃ s, getState fuel h root = some s) {mods : List Loc} (hm : Lists h root mods) :
    ∃ d, getModuleDef fuel h root = some d ∧
      countGetModuleDef fuel h root = some (d, (mods.map (attrCount h)).sum) := by
  obtain ⟨s, e⟩ := hf
  obtain ⟨vs, S', hd, hp⟩ := dfs_reachable wf hroot hm
  unfold getState at e
  split at e
  · cases e
  · next items S1 he =>
    obtain ⟨ws, d, _⟩ := iterStateRec_dfs h fuel root [] [] items S1 he
    obtain ⟨rfl, _⟩ := (hd _ (Nat.lt_succ_self _)).functional d
    obtain ⟨x, hx⟩ := d.countDef
    have hdrop := countGetModuleDef_drop h fuel root
    unfold countGetModuleDef at hdrop ⊢
    rw [hx] at hdrop ⊢
    cases x with
    | inr x =>
      simp only [Option.map_some] at hdrop
      exact ⟨x, hdrop.symm, by rw [visitCost_perm hp]⟩
    | inl i =>
      exfalso
      cases fuel with
      | zero => simp [countDefRec] at hx
      | succ fuel =>
        rw [countDefRec] at hx
        split at hx
        · cases hx
        · simp only [List.not_mem_nil, if_false] at hx
          split at hx <;> simp at hx

omit [DecidableEq α] in
/-- C129. One level of recursion per reachable Module, and one more, is always enough; the Modules of the program
that cannot be reached do not matter. -/
theorem C129_depth {h : Heap α} (wf : WFHeap h) {root : Loc} (hroot : root < h.length) {mods : List Loc}
    (hm : Lists h root mods) {fuel : Nat} (hf : mods.length < fuel) : ∃ s, getState fuel h root = some s := by
  obtain ⟨vs, S', hd, _⟩ := dfs_reachable wf hroot hm
  exact (hd fuel hf).getState

/-! ### Graphs with exponentially many paths -/

/-- `n + 1` Modules, each with two attributes `a` and `b` for the next one. -/
def diamonds (n : Nat) : Heap Nat :=
  (List.range (n + 1)).map fun i =>
    ⟨exCls (py! "D"), if i < n then [(py! "a", .ref (i + 1)), (py! "b", .ref (i + 1))] else [], i, false, ⟨0, 0⟩⟩

theorem diamonds_get (n i : Nat) (hi : i ≤ n) : (diamonds n)[i]? = some
    ⟨exCls (py! "D"), if i < n then [(py! "a", .ref (i + 1)), (py! "b", .ref (i + 1))] else [], i, false, ⟨0, 0⟩⟩ := by
  simp [diamonds, Nat.lt_succ_of_le hi]

theorem diamonds_length (n : Nat) : (diamonds n).length = n + 1 := by simp [diamonds]

theorem diamonds_wf (n : Nat) : WFHeap (diamonds n) := by
  apply wfHeap_of_forall
  · simp [diamonds, Function.comp_def, List.nodup_range]
  · intro o ho
    simp only [diamonds, List.mem_map, List.mem_range] at ho
    obtain ⟨i, hi, rfl⟩ := ho
    by_cases hin : i < n
    · simp only [hin, if_true]
      refine ⟨by simp [DNodup, dkeys], ?_⟩
      intro na hna
      simp only [List.mem_cons, List.not_mem_nil, or_false] at hna
      rcases hna with rfl | rfl <;> refine ⟨by simp only [NoSlash]; decide, by simp only []; decide, ?_, ?_⟩ <;> intros <;>
        rename_i h <;> cases h
      · rw [diamonds_length]; exact Nat.succ_lt_succ hin
      · rw [diamonds_length]; exact Nat.succ_lt_succ hin
    · simp [hin, DNodup, dkeys]

theorem diamonds_step (n i : Nat) (hi : i < n) {s : Str} (hs : s = py! "a" ∨ s = py! "b") :
    attrAt (diamonds n) i s = some (.ref (i + 1)) := by
  unfold attrAt
  rw [diamonds_get n i (Nat.le_of_lt hi)]
  simp only [hi, if_true]
  rcases hs with rfl | rfl <;> rfl

/-- Any sequence of `a` and `b` leads downwards. -/
theorem diamonds_walk (n : Nat) : ∀ (p : List Str) (i : Nat), i + p.length ≤ n →
    (∀ s ∈ p, s = py! "a" ∨ s = py! "b") → Walk (diamonds n) i p (i + p.length)
  | [], i, hi, _ => .here (by rw [diamonds_length]; exact Nat.lt_succ_of_le hi)
  | s :: p, i, hi, hs => by
    simp only [List.length_cons] at hi ⊢
    refine .step (diamonds_step n i (by omega) (hs s List.mem_cons_self)) ?_
    have := diamonds_walk n p (i + 1) (by omega) fun t ht => hs t (List.mem_cons_of_mem _ ht)
    rwa [show i + 1 + p.length = i + (p.length + 1) by omega] at this

theorem diamonds_lists (n : Nat) : Lists (diamonds n) 0 (List.range (n + 1)) := by
  refine ⟨List.nodup_range, fun a => ⟨fun ha => ?_, ?_⟩⟩
  · have ha : a ≤ n := Nat.le_of_lt_succ (List.mem_range.1 ha)
    have := diamonds_walk n (List.replicate a (py! "a")) 0 (by simpa using ha)
      (fun s hs => .inl (List.eq_of_mem_replicate hs))
    simp only [List.length_replicate, Nat.zero_add] at this
    exact ⟨_, this⟩
  · rintro ⟨p, hp⟩
    have := hp.lt
    rw [diamonds_length] at this
    exact List.mem_range.2 this

theorem diamonds_cost (n : Nat) : ((List.range (n + 1)).map (attrCount (diamonds n))).sum = 2 * n := by
  have key : ∀ k, k ≤ n → ((List.range k).map (attrCount (diamonds n))).sum = 2 * k := by
    intro k
    induction k with
    | zero => intro _; rfl
    | succ k ih =>
      intro hk
      rw [List.range_succ, List.map_append, List.sum_append, ih (Nat.le_of_succ_le hk)]
      simp only [List.map_cons, List.map_nil, List.sum_cons, List.sum_nil, attrCount,
        diamonds_get n k (Nat.le_of_succ_le hk), Nat.lt_of_succ_le hk, if_true, List.length_cons, List.length_nil]
      omega
  rw [List.range_succ, List.map_append, List.sum_append, key n (Nat.le_refl n)]
  simp [attrCount, diamonds_get n n (Nat.le_refl n)]

/-- C129. Every sequence of `n` letters `a` and `b` is a path from the root to the last of these `n + 1` Modules, so
there are `2 ^ n` paths; get_state takes `2 * n` steps. -/
theorem C129_many_paths (n : Nat) :
    (∀ p : List Str, p.length = n → (∀ s ∈ p, s = py! "a" ∨ s = py! "b") → Walk (diamonds n) 0 p n) ∧
    ∃ s, countGetState (n + 2) (diamonds n) 0 = some (s, 2 * n) := by
  constructor
  · intro p hp hs
    have := diamonds_walk n p 0 (by omega) hs
    rwa [Nat.zero_add, hp] at this
  · have h0 : (0 : Nat) < (diamonds n).length := by rw [diamonds_length]; omega
    obtain ⟨s, hs⟩ := C129_depth (diamonds_wf n) h0 (diamonds_lists n) (fuel := n + 2) (by simp)
    exact ⟨s, by rw [C129_get_state (diamonds_wf n) h0 hs (diamonds_lists n), diamonds_cost]⟩

/-! ### Graphs that are deep for the traversal only -/

/-- `n` Modules in a ring, each with its neighbours as `next` and `prev`. -/
def ring (n : Nat) : Heap Nat :=
  (List.range n).map fun i =>
    ⟨exCls (py! "R"), [(py! "next", .ref ((i + 1) % n)), (py! "prev", .ref ((i + (n - 1)) % n))], i, false, ⟨0, 0⟩⟩

theorem ring_get (n i : Nat) (hi : i < n) : (ring n)[i]? = some
    ⟨exCls (py! "R"), [(py! "next", .ref ((i + 1) % n)), (py! "prev", .ref ((i + (n - 1)) % n))], i, false, ⟨0, 0⟩⟩ := by
  simp [ring, hi]

theorem ring_length (n : Nat) : (ring n).length = n := by simp [ring]

theorem ring_wf (n : Nat) : WFHeap (ring n) := by
  apply wfHeap_of_forall
  · simp [ring, Function.comp_def, List.nodup_range]
  · intro o ho
    simp only [ring, List.mem_map, List.mem_range] at ho
    obtain ⟨i, hi, rfl⟩ := ho
    refine ⟨by simp [DNodup, dkeys], ?_⟩
    intro na hna
    simp only [List.mem_cons, List.not_mem_nil, or_false] at hna
    rcases hna with rfl | rfl <;> refine ⟨by simp only [NoSlash]; decide, by simp only []; decide, ?_, ?_⟩ <;> intros <;>
      rename_i h <;> cases h
    · rw [ring_length]; exact Nat.mod_lt _ (by omega)
    · rw [ring_length]; exact Nat.mod_lt _ (by omega)

theorem ring_next (n i : Nat) (hi : i < n) : attrAt (ring n) i (py! "next") = some (.ref ((i + 1) % n)) := by
  unfold attrAt; rw [ring_get n i hi]; rfl

theorem ring_prev (n i : Nat) (hi : i < n) : attrAt (ring n) i (py! "prev") = some (.ref ((i + (n - 1)) % n)) := by
  unfold attrAt; rw [ring_get n i hi]; rfl

theorem ring_forwards (n : Nat) : ∀ k i : Nat, i + k < n → Walk (ring n) i (List.replicate k (py! "next")) (i + k)
  | 0, i, h => .here (by rw [ring_length]; omega)
  | k + 1, i, h => by
    rw [List.replicate_succ]
    refine .step (ring_next n i (by omega)) ?_
    rw [Nat.mod_eq_of_lt (by omega)]
    have := ring_forwards n k (i + 1) (by omega)
    rwa [show i + 1 + k = i + (k + 1) by omega] at this

theorem ring_backwards (n : Nat) : ∀ k i : Nat, k ≤ i → i < n →
    Walk (ring n) i (List.replicate k (py! "prev")) (i - k)
  | 0, i, _, h => .here (by rw [ring_length]; omega)
  | k + 1, i, hk, h => by
    rw [List.replicate_succ]
    refine .step (ring_prev n i h) ?_
    rw [show i + (n - 1) = (i - 1) + n by omega, Nat.add_mod_right, Nat.mod_eq_of_lt (by omega)]
    have := ring_backwards n k (i - 1) (by omega) (by omega)
    rwa [show i - 1 - k = i - (k + 1) by omega] at this

theorem ring_deep (n : Nat) : ∀ (f i : Nat) (p : List Str), i < n → f + i ≤ n →
    iterStateRec (ring n) f i (List.range i) p = none
  | 0, _, _, _, _ => rfl
  | f + 1, i, p, hi, hf => by
    rw [iterStateRec, ring_get n i hi]
    simp only [List.mem_range, Nat.lt_irrefl, if_false]
    have hs : sortItems [(py! "next", Attr.ref (α := Nat) ((i + 1) % n)), (py! "prev", .ref ((i + (n - 1)) % n))] =
        [(py! "next", .ref ((i + 1) % n)), (py! "prev", .ref ((i + (n - 1)) % n))] := rfl
    rw [hs, iterStateAttrs, ← List.range_succ]
    have : iterStateRec (ring n) f ((i + 1) % n) (List.range (i + 1)) (p ++ [py! "next"]) = none := by
      by_cases h1 : i + 1 < n
      · rw [Nat.mod_eq_of_lt h1]
        exact ring_deep n f (i + 1) _ h1 (by omega)
      · rw [show f = 0 by omega]
        rfl
    rw [this]

/-- C129. Although every Module of a ring of `n` Modules is at most `n / 2` attributes away from the root, get_state
needs more than `n` levels of recursion: the traversal goes once around the ring before it comes back. So on a ring
longer than the limit of recursion of Python it raises RecursionError. -/
theorem C129_ring (n : Nat) (hn : 0 < n) :
    (∀ a, a < n → ∃ p, Walk (ring n) 0 p a ∧ 2 * p.length ≤ n) ∧
    ∀ fuel, (∃ s, getState fuel (ring n) 0 = some s) ↔ n < fuel := by
  have h0 : (0 : Nat) < (ring n).length := by rw [ring_length]; omega
  refine ⟨?_, fun fuel => ⟨?_, fun hf => ?_⟩⟩
  · intro a ha
    by_cases h2 : 2 * a ≤ n
    · exact ⟨List.replicate a (py! "next"), by simpa using ring_forwards n a 0 (by omega), by simpa using h2⟩
    · refine ⟨List.replicate (n - a) (py! "prev"), ?_, by simp; omega⟩
      rw [show n - a = (n - 1 - a) + 1 by omega, List.replicate_succ]
      refine .step (ring_prev n 0 hn) ?_
      rw [Nat.zero_add, Nat.mod_eq_of_lt (by omega)]
      have := ring_backwards n (n - 1 - a) (n - 1) (by omega) (by omega)
      rwa [show n - 1 - (n - 1 - a) = a by omega] at this
  · rintro ⟨s, hs⟩
    refine Nat.lt_of_not_le fun hf => ?_
    unfold getState at hs
    have := ring_deep n fuel 0 [] hn (by omega)
    simp only [List.range_zero] at this
    rw [this] at hs
    cases hs
  · refine C129_depth (ring_wf n) h0 (mods := List.range n) ⟨List.nodup_range, fun a => ⟨fun ha => ?_, ?_⟩⟩ (by simpa using hf)
    · exact ⟨_, by simpa using ring_forwards n a 0 (by simpa using ha)⟩
    · rintro ⟨p, hp⟩
      have := hp.lt
      rw [ring_length] at this
      exact List.mem_range.2 this

/-- The example graph with sharing and cycles: two Modules with 5 and 4 attributes, which infinitely many paths
lead to; both functions take 9 steps. -/
example : Lists exHeap 0 [0, 1] := by
  refine ⟨by decide, fun a => ⟨fun ha => ?_, ?_⟩⟩
  · simp only [List.mem_cons, List.not_mem_nil, or_false] at ha
    rcases ha with rfl | rfl
    · exact ⟨[], .here (by decide)⟩
    · exact ⟨[py! "a"], .step (b := 1) (by decide +kernel) (.here (by decide))⟩
  · rintro ⟨p, hp⟩
    have : a < 2 := hp.lt
    match a, this with
    | 0, _ => simp
    | 1, _ => simp

example : (([0, 1] : List Loc).map (attrCount exHeap)).sum = 9 ∧
    ((countGetState 3 exHeap 0).map (·.2), (countGetModuleDef 3 exHeap 0).map (·.2)) = (some 9, some 9) := by
  decide +kernel

end Nnx
