import Verif.Props.Cost
import Verif.Model.CostUpdate
import Verif.Props.ModuleUpdate
import Mathlib.Data.List.Nodup
import Mathlib.Algebra.BigOperators.Group.List.Basic
import Mathlib.Tactic.Ring
/-
C129: what merge, clone and update_state cost.
-/
namespace Nnx
variable {α : Type} [DecidableEq α]

omit [DecidableEq α] in
/-- The new Modules are as many as the old ones. -/
theorem MergeSpec.count {h : Heap α} {root : Loc} {w w' : World α} {f : Loc → Loc} (m : MergeSpec h root w w' f)
    {mods : List Loc} (hm : Lists h root mods) : w'.heap.length = w.heap.length + mods.length := by
  have hn : (mods.map f).Nodup := by
    refine List.Nodup.map_on (fun a ha b hb e => ?_) hm.1
    exact m.iso.inj a b ((hm.2 a).1 ha) ((hm.2 b).1 hb) e
  have hp : (mods.map f).Perm (List.range' w.heap.length (w'.heap.length - w.heap.length)) := by
    rw [List.perm_ext_iff_of_nodup hn List.nodup_range']
    intro j
    rw [List.mem_range'_1, List.mem_map]
    have hle := m.len
    constructor
    · rintro ⟨a, ha, rfl⟩
      refine ⟨m.ge a, ?_⟩
      have hr := (hm.2 a).1 ha
      obtain ⟨p, hw⟩ := hr
      obtain ⟨o', ho', _⟩ := m.iso.obj a _ ⟨p, hw⟩ (List.getElem?_eq_getElem hw.lt)
      have := (List.getElem?_eq_some_iff.1 ho').1
      omega
    · rintro ⟨h1, h2⟩
      obtain ⟨l, hl, e⟩ := m.surj j h1 (by omega)
      exact ⟨l, (hm.2 l).2 hl, e⟩
  have := hp.length_eq
  simp only [List.length_map, List.length_range'] at this
  have := m.len
  omega

/-- **C129, merge.** merge of the pieces of a partition makes exactly one new Module for every Module that could be reached, however many paths lead to it, in whichever world the merge is
done. -/
theorem C129_merge {h : Heap α} (wf : WFHeap h) {root : Loc} (hroot : root < h.length) {fuel : Nat} {fs : List (Filter α)} {ss : List (State (PyVal α))} {d : ModuleDef α}
    (hp : partitionModule fuel h root fs = .ok (ss, d)) {mods : List Loc} (hm : Lists h root mods) {w : World α} (ww : WFWorld w) :
    ∃ w' c, mergeDef d ss w = (w', .ok c) ∧ w'.heap.length = w.heap.length + mods.length := by
  unfold partitionModule at hp
  split at hp
  swap
  · cases hp
  next d' s hd hs =>
  have hob : Obtainable s := by
    unfold getState at hs
    split at hs
    · cases hs
    · simp only [Option.some.injEq] at hs; subst hs; exact .new _
  have key : d' = d ∧ Pieces s ss := by
    cases fs with
    | nil => cases hp; exact ⟨rfl, pieces_self (getState_canonical hs)⟩
    | cons f fs =>
      simp only at hp
      split at hp
      · cases hp
      · next ss0 hpart =>
        cases hp
        obtain ⟨_, hfm⟩ := C01_partition_first_match hob hpart
        refine ⟨rfl, fun t ht => (Obtainable.partition hob hpart ht).canonical, ?_, ?_⟩
        · intro t ht k v hk
          obtain ⟨i, hi, rfl⟩ := List.getElem_of_mem ht
          exact ((hfm i _ (List.getElem?_eq_getElem hi) k v).1 hk).1
        · intro k v hk
          obtain ⟨i, ⟨t, ht, htv⟩, _⟩ := C01_partition_exactly_one hob hpart hk
          exact ⟨t, List.mem_of_getElem? ht, htv⟩
  obtain ⟨rfl, hpieces⟩ := key
  obtain ⟨w', f, h1, h2⟩ := mergeDef_spec wf hroot hd hs hpieces (w := w) ww.heap.conts
  exact ⟨w', _, h1, h2.count hm⟩

/-- **C129, clone.** clone makes exactly one new Module for every Module that can be reached. -/
theorem C129_clone {w : World α} (wf : WFWorld w) {root : Loc} (hroot : root < w.heap.length) {mods : List Loc} (hm : Lists w.heap root mods) {fuel : Nat} (hf : w.heap.length < fuel) :
    ∃ w' c, cloneModule fuel root w = (w', .ok c) ∧ w'.heap.length = w.heap.length + mods.length := by
  obtain ⟨w', f, h1, h2⟩ := clone_spec wf.heap hroot hf
  exact ⟨w', _, h1, h2.count hm⟩

omit [DecidableEq α] in
theorem diamonds_ids (n : Nat) : WFWorld (⟨diamonds n, n, 0, []⟩ : World Nat) := by
  refine ⟨diamonds_wf n, ?_⟩
  intro l o ho
  have hl := (List.getElem?_eq_some_iff.1 ho).1
  rw [diamonds_length] at hl
  have hl : l ≤ n := Nat.le_of_lt_succ hl
  rw [diamonds_get n l hl] at ho
  cases ho
  exact hl

/-- A clone of `n` diamonds, whose end can be reached along `2 ^ n` paths, has `n + 1` new Modules. -/
theorem C129_clone_diamonds (n : Nat) : ∃ w' c, cloneModule (n + 2) 0 (⟨diamonds n, n, 0, []⟩ : World Nat) = (w', .ok c) ∧ w'.heap.length = 2 * (n + 1) := by
  have h := C129_clone (diamonds_ids n) (root := 0) (by show 0 < (diamonds n).length; rw [diamonds_length]; omega) (diamonds_lists n) (fuel := n + 2) (by
    show (diamonds n).length < n + 2; rw [diamonds_length]; omega)
  obtain ⟨w', c, h1, h2⟩ := h
  refine ⟨w', c, h1, ?_⟩
  rw [h2]
  show (diamonds n).length + _ = _
  rw [diamonds_length, List.length_range]
  omega

/-- The example graph, which has cycles and a shared Module: a clone has two new Modules, and so has each merge of a partition with filters. -/
example : (cloneModule 3 0 exWorld).1.heap.length = 4 ∧
    (partitionModule 3 exHeap 0 [.ofType cParam, .ellipsis]).map (fun x => (mergeDef x.2 x.1 exWorld).1.heap.length) = .ok 4 := by
  decide +kernel

/-! ### update_state -/

theorem countSetPath_spec {w w' : World α} : ∀ {a : Attr α} {ps : List Str} {v : PyVal α}, setValueAtPath w a ps v = .ok w' → countSetPath w a ps v = .ok (w', ps.length)
  | .ref l, [p], v, e => by
    rw [setValueAtPath] at e
    rw [countSetPath, e]; rfl
  | .ref l, p :: q :: ps, v, e => by
    rw [setValueAtPath] at e
    rw [countSetPath]
    cases h : varsGet w.heap l p with
    | error e' => rw [h] at e; cases e
    | ok a =>
      rw [h] at e
      simp only at e ⊢
      rw [countSetPath_spec e]
      simp only [Except.map, List.length_cons, Except.ok.injEq, Prod.mk.injEq, true_and]
      omega
  | .ref _, [], _, e => by rw [setValueAtPath] at e; cases e
  | .val _, _, _, e => by rw [setValueAtPath] at e; cases e

theorem countAssign_spec {root : Loc} {w' : World α} : ∀ {E : List (Str × PyVal α)} {w : World α}, assignAll root E w = (w', none) →
    countAssign root E w = (w', none, (E.map fun e => (splitSlash e.1).length).sum)
  | [], w, e => by rw [assignAll] at e; cases e; rfl
  | (k, v) :: E, w, e => by
    rw [assignAll] at e
    rw [countAssign]
    cases h : setValueAtPath w (.ref root) (splitSlash k) v with
    | error e' => rw [h] at e; cases e
    | ok w1 =>
      rw [h] at e
      simp only at e
      rw [countSetPath_spec h]
      simp only [countAssign_spec e, List.map_cons, List.sum_cons]

omit [DecidableEq α] in
theorem foldl_dupdate_keys (ss : List (State (PyVal α))) (d : Dict Str (PyVal α)) (hd : DNodup d) :
    DNodup (ss.foldl (fun d s => dupdate d s.items) d) ∧
    ∀ k, k ∈ dkeys (ss.foldl (fun d s => dupdate d s.items) d) ↔ k ∈ dkeys d ∨ ∃ s ∈ ss, k ∈ dkeys s.items := by
  induction ss generalizing d with
  | nil => exact ⟨hd, by simp⟩
  | cons s ss ih =>
    obtain ⟨h1, h2⟩ := ih (dupdate d s.items) (dnodup_dupdate hd _)
    refine ⟨h1, fun k => ?_⟩
    rw [List.foldl_cons, h2 k, mem_dkeys_dupdate]
    simp only [List.mem_cons, exists_eq_or_imp, or_assoc]

/-- **C129, update_state.** An update, however small, costs one step for every name in every path of the whole state: if update_state returns, the paths of the state and of the updates are
assigned one after the other, each once, starting at the root. -/
theorem C129_update_state {fuel : Nat} {root : Loc} {us : List (State (PyVal α))} {w w' : World α} (e : updateState fuel root us w = (w', none))
    {s : State (PyVal α)} (hs : getState fuel w.heap root = some s) {paths : List Str} (hn : paths.Nodup)
    (hp : ∀ k, k ∈ paths ↔ k ∈ dkeys s.items ∨ ∃ u ∈ us, k ∈ dkeys u.items) :
    countUpdateState fuel root us w = (w', none, (paths.map fun k => (splitSlash k).length).sum) := by
  simp only [updateState, hs, updateModule] at e
  simp only [countUpdateState, hs, countAssign_spec e]
  obtain ⟨h1, h2⟩ := foldl_dupdate_keys (s :: us) [] (by simp [DNodup])
  have hperm : (dkeys ((s :: us).foldl (fun d s => dupdate d s.items) [])).Perm paths := by
    rw [List.perm_ext_iff_of_nodup h1 hn]
    intro k
    rw [h2 k, hp k]
    simp
  have := (hperm.map fun k => (splitSlash k).length).sum_eq
  rw [← this, List.map_map]
  rfl

/-- The example graph has the paths `a/s`, `a/w` and `w`; an update of `w`, one of `b/w` and `b/new` by another name of the shared Module. -/
example : (countUpdateState 3 0 [.new [(py! "w", exParam 2)]] exWorld).2 = (none, 5) ∧ (updateState 3 0 exUpdates exWorld).2 = none ∧
    (getState 3 exWorld.heap 0).map State.keys = some [py! "a/s", py! "a/w", py! "w"] ∧ exUpdates.map State.keys = [[py! "b/new", py! "w"], [py! "b/w", py! "w"]] ∧
    (countUpdateState 3 0 exUpdates exWorld).2 = (none, (([py! "a/s", py! "a/w", py! "b/new", py! "b/w", py! "w"] : List Str).map fun k => (splitSlash k).length).sum) := by
  decide +kernel

/-- `n + 1` Modules in a row, each with a parameter `w`. -/
def row (n : Nat) : Heap Nat :=
  (List.range (n + 1)).map fun i =>
    ⟨exCls (py! "Cell"), if i < n then [(py! "next", .ref (i + 1)), (py! "w", .val (exParam i))] else [(py! "w", .val (exParam i))], i, false, ⟨0, 0⟩⟩

theorem row_get (n i : Nat) (hi : i ≤ n) : (row n)[i]? = some
    ⟨exCls (py! "Cell"), if i < n then [(py! "next", .ref (i + 1)), (py! "w", .val (exParam i))] else [(py! "w", .val (exParam i))], i, false, ⟨0, 0⟩⟩ := by
  simp [row, Nat.lt_succ_of_le hi]

theorem row_length (n : Nat) : (row n).length = n + 1 := by simp [row]

theorem row_wf (n : Nat) : WFWorld (⟨row n, n, 0, []⟩ : World Nat) := by
  refine ⟨?_, ?_⟩
  · apply wfHeap_of_forall
    · simp [row, Function.comp_def, List.nodup_range]
    · intro o ho
      simp only [row, List.mem_map, List.mem_range] at ho
      obtain ⟨i, hi, rfl⟩ := ho
      have hw : ∀ na : Str × Attr Nat, na = (py! "w", .val (exParam i)) → NoSlash na.1 ∧ isReserved na.1 = false ∧
          (∀ b, na.2 = .ref b → b < (row n).length) ∧ ∀ c v m, na.2 = .val (.cont c v m) → WFContainer (.cont c v m) := by
        rintro _ rfl
        refine ⟨by simp only [NoSlash]; decide, by simp only []; decide, nofun, ?_⟩
        intro c v m e
        simp only [Attr.val.injEq] at e
        rw [← e]; exact exParam_wf i
      by_cases hin : i < n
      · simp only [hin, if_true]
        refine ⟨by simp [DNodup, dkeys], ?_⟩
        intro na hna
        simp only [List.mem_cons, List.not_mem_nil, or_false] at hna
        rcases hna with rfl | rfl
        · refine ⟨by simp only [NoSlash]; decide, by simp only []; decide, ?_, nofun⟩
          intro b e
          cases e
          rw [row_length]; exact Nat.succ_lt_succ hin
        · exact hw _ rfl
      · simp only [hin, if_false]
        refine ⟨by simp [DNodup, dkeys], ?_⟩
        intro na hna
        exact hw na (by simpa using hna)
  · intro l o ho
    have hl := (List.getElem?_eq_some_iff.1 ho).1
    rw [row_length] at hl
    have hl : l ≤ n := Nat.le_of_lt_succ hl
    rw [row_get n l hl] at ho
    cases ho
    exact hl

/-- The paths below the Module `p`, with `k` Modules after it. -/
def rowPaths : Nat → List Str → List (List Str)
  | 0, p => [p ++ [py! "w"]]
  | k + 1, p => rowPaths k (p ++ [py! "next"]) ++ [p ++ [py! "w"]]

theorem row_iter (n : Nat) : ∀ (k i f : Nat) (p : List Str), i + k = n → k < f →
    ∃ items, iterStateRec (row n) f i (List.range i) p = some (items, List.range (n + 1)) ∧ items.map (·.1) = (rowPaths k p).map joinSlash
  | _, _, 0, _, _, hf => by omega
  | 0, i, f + 1, p, hi, hf => by
    rw [iterStateRec, row_get n i (by omega)]
    simp only [List.mem_range, Nat.lt_irrefl, if_false, show ¬ i < n by omega]
    refine ⟨[(joinSlash (p ++ [py! "w"]), exParam i)], ?_, rfl⟩
    rw [← List.range_succ, show i = n by omega]
    rfl
  | k + 1, i, f + 1, p, hi, hf => by
    rw [iterStateRec, row_get n i (by omega)]
    simp only [List.mem_range, Nat.lt_irrefl, if_false, if_true, show i < n by omega]
    obtain ⟨items, h1, h2⟩ := row_iter n k (i + 1) f (p ++ [py! "next"]) (by omega) (by omega)
    have hs : sortItems [(py! "next", Attr.ref (α := Nat) (i + 1)), (py! "w", .val (exParam i))] = [(py! "next", .ref (i + 1)), (py! "w", .val (exParam i))] := rfl
    rw [hs, iterStateAttrs, ← List.range_succ, h1]
    refine ⟨items ++ [(joinSlash (p ++ [py! "w"]), exParam i)], rfl, ?_⟩
    rw [List.map_append, h2, rowPaths, List.map_append]
    rfl

theorem rowPaths_mem : ∀ {k : Nat} {p q : List Str}, q ∈ rowPaths k p → ∃ j ≤ k, q = p ++ List.replicate j (py! "next") ++ [py! "w"]
  | 0, p, q, h => ⟨0, Nat.le_refl 0, by simpa [rowPaths] using h⟩
  | k + 1, p, q, h => by
    rw [rowPaths, List.mem_append, List.mem_singleton] at h
    rcases h with h | rfl
    · obtain ⟨j, hj, rfl⟩ := rowPaths_mem h
      exact ⟨j + 1, by omega, by simp [List.replicate_succ]⟩
    · exact ⟨0, by omega, by simp⟩

theorem rowPaths_root : ∀ (k : Nat) (p : List Str), p ++ [py! "w"] ∈ rowPaths k p
  | 0, p => by simp [rowPaths]
  | k + 1, p => by simp [rowPaths]

theorem rowPaths_cost : ∀ (k : Nat) (p : List Str), 2 * ((rowPaths k p).map List.length).sum = (k + 1) * (2 * p.length + k + 2)
  | 0, p => by simp [rowPaths]; omega
  | k + 1, p => by
    have ih := rowPaths_cost k (p ++ [py! "next"])
    simp only [rowPaths, List.map_append, List.sum_append, List.map_cons, List.map_nil, List.sum_cons, List.sum_nil, List.length_append, List.length_cons,
      List.length_nil, Nat.mul_add] at ih ⊢
    rw [ih]
    ring

theorem rowPaths_nodup : ∀ (k : Nat) (p : List Str), (rowPaths k p).Nodup
  | 0, p => by simp [rowPaths]
  | k + 1, p => by
    rw [rowPaths, List.nodup_append]
    refine ⟨rowPaths_nodup k _, by simp, ?_⟩
    intro a ha b hb e
    rw [List.mem_singleton] at hb
    obtain ⟨j, _, rfl⟩ := rowPaths_mem ha
    have := congrArg List.length (e.trans hb)
    simp at this

/-- **C129.** A row of `n + 1` Modules has `n + 1` values; assigning a new value to the first of them with update_state costs `(n + 1) * (n + 2) / 2` steps, where `self.w = ...` costs one. -/
theorem C129_update_row (n x : Nat) : ∃ w' c, countUpdateState (n + 2) 0 [.new [(py! "w", exParam x)]] (⟨row n, n, 0, []⟩ : World Nat) = (w', none, c) ∧ 2 * c = (n + 1) * (n + 2) := by
  have wf := row_wf n
  obtain ⟨items, h1, h2⟩ := row_iter n n 0 (n + 2) [] (by omega) (by omega)
  have hs : getState (n + 2) (row n) 0 = some (.new items) := by
    unfold getState
    rw [show ([] : List Nat) = List.range 0 from rfl, h1]
  have hroot : 0 < (row n).length := by rw [row_length]; omega
  have hu : (State.new [(py! "w", exParam x)]).items = [(py! "w", exParam x)] := rfl
  have hgiven : ∀ k v, given [State.new [(py! "w", exParam x)]] k = some v → k = py! "w" ∧ v = exParam x := by
    intro k v hk
    obtain ⟨t, ht, hm⟩ := given_mem hk
    rw [List.mem_singleton] at ht
    subst ht
    rw [hu, List.mem_singleton] at hm
    cases hm
    exact ⟨rfl, rfl⟩
  have hat : attrAt (row n) 0 (py! "w") = some (.val (exParam 0)) := by
    unfold attrAt
    rw [row_get n 0 (by omega)]
    by_cases h : 0 < n <;> simp only [h, if_true, if_false] <;> rfl
  have haddr : Addresses (row n) 0 (py! "w") 0 (py! "w") := ⟨[], by decide, .here hroot⟩
  obtain ⟨w', hw'⟩ := C14_succeeds_limit (us := [State.new [(py! "w", exParam x)]]) wf (root := 0) hroot (fuel := n + 2) hs
    (by intro t ht; rw [List.mem_singleton] at ht; subst ht; exact State.new_strict _)
    (by
      intro t ht k v hkv
      rw [List.mem_singleton] at ht
      subst ht
      rw [hu, List.mem_singleton] at hkv
      cases hkv
      exact ⟨.inr (exParam_wf x), by decide⟩)
    (by
      intro k v hk l m ha b
      obtain ⟨rfl, rfl⟩ := hgiven k v hk
      obtain ⟨rfl, rfl⟩ := ha.functional haddr
      rw [hat]; nofun)
    (by
      intro k v k' v' hk hk' l m _ _
      rw [(hgiven k v hk).2, (hgiven k' v' hk').2])
    (by
      intro l o _ ho
      have hl := (List.getElem?_eq_some_iff.1 ho).1
      have hl : l < (row n).length := hl
      rw [row_length] at hl
      have hl : l ≤ n := Nat.le_of_lt_succ hl
      simp only [row_get n l hl] at ho
      cases ho
      rfl)
    (by
      intro k v hk
      obtain ⟨rfl, rfl⟩ := hgiven k v hk
      refine ⟨0, py! "w", haddr, ?_⟩
      rw [hat]
      intro c y m d z m' e1 e2
      cases e1; cases e2
      exact ⟨rfl, fun _ => rfl⟩)
  have hns : ∀ q ∈ rowPaths n [], q ≠ [] ∧ ∀ s ∈ q, '/' ∉ s := by
    intro q hq
    obtain ⟨j, _, rfl⟩ := rowPaths_mem hq
    refine ⟨by simp, ?_⟩
    intro s hs
    simp only [List.nil_append, List.mem_append, List.mem_replicate, List.mem_singleton] at hs
    rcases hs with ⟨_, rfl⟩ | rfl <;> decide
  refine ⟨w', _, C129_update_state hw' hs (paths := (rowPaths n []).map joinSlash) ?_ ?_, ?_⟩
  · refine List.Nodup.map_on (fun a ha b hb e => ?_) (rowPaths_nodup n [])
    rw [← split_join (hns a ha).1 (hns a ha).2, e, split_join (hns b hb).1 (hns b hb).2]
  · intro k
    have hk : k ∈ dkeys (State.new items).items ↔ k ∈ items.map (·.1) := by
      show k ∈ dkeys (dupdate [] (sortItems items)) ↔ _
      rw [mem_dkeys_dupdate]
      simp only [dkeys, List.map_nil, List.not_mem_nil, false_or, List.mem_map, (sortItems_perm items).mem_iff]
    rw [hk, h2]
    simp only [List.mem_singleton, exists_eq_left, hu]
    refine ⟨.inl, ?_⟩
    rintro (h | h)
    · exact h
    · simp only [dkeys, List.map_cons, List.map_nil, List.mem_singleton] at h
      subst h
      exact List.mem_map.2 ⟨_, rowPaths_root n [], rfl⟩
  · rw [List.map_map, List.map_congr_left (g := List.length) (fun q hq => by simp only [Function.comp]; rw [split_join (hns q hq).1 (hns q hq).2]), rowPaths_cost]
    simp

end Nnx
