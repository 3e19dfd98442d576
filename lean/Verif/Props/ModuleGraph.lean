import Verif.Proofs.History
import Verif.Props.State
/-
Properties C10 - C13 and C71: get_state, partition, merge, clone on arbitrary module graphs.
-/
namespace Nnx
variable {α : Type} [DecidableEq α]

/-! ### A concrete graph with sharing and cycles -/

omit [DecidableEq α] in
/-- A way to show that a concrete heap is well formed. -/
theorem wfHeap_of_forall {h : Heap α} (hu : (h.map (·.uid)).Nodup)
    (ho : ∀ o ∈ h, DNodup o.attrs ∧ ∀ na ∈ o.attrs, NoSlash na.1 ∧ isReserved na.1 = false ∧
      (∀ l, na.2 = .ref l → l < h.length) ∧ (∀ c v m, na.2 = .val (.cont c v m) → WFContainer (.cont c v m))) :
    WFHeap h := by
  have key : ∀ l n a, attrAt h l n = some a → ∃ o ∈ h, (n, a) ∈ o.attrs := by
    intro l n a e
    unfold attrAt at e
    split at e
    · next o ho => exact ⟨o, List.mem_of_getElem? ho, dget_mem e⟩
    · cases e
  refine ⟨fun l o e => (ho o (List.mem_of_getElem? e)).1, ?_, ?_, ?_, ?_, ?_⟩
  · intro l n l' e
    obtain ⟨o, h1, h2⟩ := key _ _ _ e
    exact ((ho o h1).2 _ h2).2.2.1 _ rfl
  · intro l l' o o' e e' hx
    have h1 := (List.getElem?_eq_some_iff.1 e)
    have h2 := (List.getElem?_eq_some_iff.1 e')
    obtain ⟨h1, rfl⟩ := h1
    obtain ⟨h2, rfl⟩ := h2
    have : (h.map (·.uid))[l]'(by simpa using h1) = (h.map (·.uid))[l']'(by simpa using h2) := by simpa using hx
    exact (List.getElem_inj hu).1 this
  · intro l n c v m e
    obtain ⟨o, h1, h2⟩ := key _ _ _ e
    exact ((ho o h1).2 _ h2).2.2.2 _ _ _ rfl
  · intro l n a e
    obtain ⟨o, h1, h2⟩ := key _ _ _ e
    exact ((ho o h1).2 _ h2).1
  · intro l n a e
    obtain ⟨o, h1, h2⟩ := key _ _ _ e
    exact ((ho o h1).2 _ h2).2.1

def exCls (n : Str) : Cls := { name := n, ancestors := [py! "Module"] }

/-- Root `Net` with a shared `Block` under `a` and `b`, a cycle through `up` and one through `me`, a leaf
and a static attribute. -/
def exHeap : Heap Nat :=
  [ ⟨exCls (py! "Net"), [(py! "w", .val (exParam 1)), (py! "b", .ref 1), (py! "a", .ref 1), (py! "me", .ref 0),
      (py! "name", .val (.str (py! "net")))], 7, false, ⟨0, 0⟩⟩,
    ⟨exCls (py! "Block"), [(py! "up", .ref 0), (py! "w", .val (exParam 5)), (py! "s", .val (exStat 6)),
      (py! "k", .val (.data cTuple 3))], 3, true, ⟨0, 0⟩⟩ ]

def exWorld : World Nat := ⟨exHeap, 9, 0, []⟩

theorem exParam_wf (n : Nat) : WFContainer (exParam n) :=
  .mk (by simp [PyVal.Plain]) (by simp [DNodup, dkeys]) (by decide) (by decide) (fun _ _ => ⟨_, _, rfl⟩)
theorem exStat_wf (n : Nat) : WFContainer (exStat n) :=
  .mk (by simp [PyVal.Plain]) (by simp [DNodup, dkeys]) (by decide) (by decide) (fun _ _ => ⟨_, _, rfl⟩)

theorem exHeap_wf : WFHeap exHeap := by
  apply wfHeap_of_forall (by decide)
  intro o ho
  simp only [exHeap, List.mem_cons, List.not_mem_nil, or_false] at ho
  rcases ho with rfl | rfl
  · refine ⟨by decide, ?_⟩
    intro na hna
    simp only [List.mem_cons, List.not_mem_nil, or_false] at hna
    rcases hna with rfl | rfl | rfl | rfl | rfl <;> refine ⟨by unfold NoSlash; decide, by decide, ?_, ?_⟩ <;>
      intros <;> rename_i h <;> try cases h
    · exact exParam_wf 1
    all_goals (simp [exHeap])
  · refine ⟨by decide, ?_⟩
    intro na hna
    simp only [List.mem_cons, List.not_mem_nil, or_false] at hna
    rcases hna with rfl | rfl | rfl | rfl <;> refine ⟨by unfold NoSlash; decide, by decide, ?_, ?_⟩ <;>
      intros <;> rename_i h <;> try cases h
    · simp [exHeap]
    · exact exParam_wf 5
    · exact exStat_wf 6

theorem exWorld_wf : WFWorld exWorld := by
  refine ⟨exHeap_wf, ?_⟩
  intro l o ho
  have := List.mem_of_getElem? ho
  simp only [exWorld, exHeap, List.mem_cons, List.not_mem_nil, or_false] at this ⊢
  rcases this with rfl | rfl <;> simp

/-! ### C10 -/

/-- The names `WFHeap` excludes are those that begin with `_module__`, as the module's own bookkeeping does. -/
theorem C10_internal_names (n : Str) : isReserved n = true ↔ ∃ rest, n = py! "_module__" ++ rest := by
  rw [isReserved, List.isPrefixOf_iff_prefix]
  exact ⟨fun ⟨r, h⟩ => ⟨r, h.symm⟩, fun ⟨r, h⟩ => ⟨r, h.symm⟩⟩

omit [DecidableEq α] in
/-- **C10, termination.** `get_state` returns on every graph, whatever its sharing and cycles; a
recursion budget larger than the number of modules suffices. -/
theorem C10_get_state_returns {h : Heap α} (wf : WFHeap h) {root : Loc} (hroot : root < h.length) {fuel : Nat}
    (hf : h.length < fuel) : ∃ s, getState fuel h root = some s := getState_exists wf hroot hf

omit [DecidableEq α] in
/-- **C10, the budget does not matter.** Any two budgets that suffice give the same State. -/
theorem C10_budget_irrelevant {h : Heap α} (wf : WFHeap h) {root : Loc} (hroot : root < h.length) {f f' : Nat}
    {s s' : State (PyVal α)} (hs : getState f h root = some s) (hs' : getState f' h root = some s') : s = s' := by
  obtain ⟨vs, S', d, hc, hg⟩ := getState_spec wf hroot hs
  obtain ⟨vs', S'', d', hc', hg'⟩ := getState_spec wf hroot hs'
  obtain ⟨rfl, rfl⟩ := d.functional d'
  apply State.Canonical.ext hc hc'
  intro k
  cases h1 : s.get k with
  | some v => exact ((hg' k v).2 ((hg k v).1 h1)).symm
  | none =>
    cases h2 : s'.get k with
    | none => rfl
    | some v => rw [(hg k v).2 ((hg' k v).1 h2)] at h1; cases h1

omit [DecidableEq α] in
/-- A path string leads to at most one attribute. -/
theorem leadsTo_functional {h : Heap α} (wf : WFHeap h) {root : Loc} {k : Str} {l l' : Loc} {n n' : Str}
    {a a' : Attr α} (ha : attrAt h l n = some a) (ha' : attrAt h l' n' = some a')
    (h1 : LeadsTo h root k l n) (h2 : LeadsTo h root k l' n') : l = l' ∧ n = n' := by
  obtain ⟨p, hp, rfl⟩ := h1
  obtain ⟨q, hq, e⟩ := h2
  obtain ⟨rfl, rfl⟩ := joinSlash_path_inj (hp.noSlash wf) (wf.slash _ _ _ ha) (hq.noSlash wf) (wf.slash _ _ _ ha') e
  exact ⟨hp.functional hq, rfl⟩

omit [DecidableEq α] in
/-- **C10, which values are nodes.** The code's test is the definition above: in particular arrays and all variables are nodes; None, strings,
tuples, dicts and `Static` containers are not. -/
theorem C10_node_types :
    (∀ v : PyVal α, v.isNode = true ↔ IsNode v) ∧
    (∀ (c : Cls) (a : α), c = cArray ∨ c = cNdarray → (PyVal.data c a).isNode = true) ∧
    (∀ (c : Cls) (v : PyVal α) m, c ∈ [cNode, cVariable, cParam, cBatchStat, cCache, cIntermediate, cTreeNode] → (PyVal.cont c v m).isNode = true) ∧
    (∀ (c : Cls) (m : List (Str × PyVal α)), IsA (.tree c m) (py! "Pytree") → (PyVal.tree c m).isNode = true) ∧
    (∀ (v : PyVal α) m, (PyVal.cont cStatic v m).isNode = false) ∧
    (PyVal.none : PyVal α).isNode = false ∧ (∀ s, (PyVal.str s : PyVal α).isNode = false) ∧
    (∀ xs : List (PyVal α), (PyVal.tup xs).isNode = false) ∧ (∀ m : List (Str × PyVal α), (PyVal.dict m).isNode = false) := by
  have h : ∀ v : PyVal α, v.isNode = true ↔ IsNode v := by
    intro v
    simp only [PyVal.isNode, PyVal.isInstance, Cls.isSub, List.any_cons, List.any_nil, Bool.or_eq_true, decide_eq_true_eq, Bool.false_eq_true,
      or_false, IsNode, IsA, cArray, cNdarray, cNode, cState, cPure, cPytree, cTreeNode]
    tauto
  refine ⟨h, ?_, ?_, ?_, fun _ _ => by rfl, by rfl, fun _ => by rfl, fun _ => by rfl, fun _ => by rfl⟩
  · rintro c a (rfl | rfl) <;> rfl
  · intro c v m hc
    simp only [List.mem_cons, List.not_mem_nil, or_false] at hc
    rcases hc with rfl | rfl | rfl | rfl | rfl | rfl | rfl <;> rfl
  · intro c m hc
    exact (h _).2 (.inr (.inr (.inr (.inr (.inl hc)))))

example : (PyVal.cont cParam (PyVal.data cArray 2) [(py! "sharding", .none)] : PyVal Nat).isNode = true := by decide
example : (PyVal.cont cStatic (PyVal.data cArray 2) [] : PyVal Nat).isNode = false := by decide

omit [DecidableEq α] in
/-- **C10.** The entries of `get_state` are in one-to-one correspondence with the node attributes of the
reachable modules: every entry's path leads to a node attribute that holds its value, and every node
attribute of every reachable module has exactly one entry. -/
theorem C10_get_state_entries {h : Heap α} (wf : WFHeap h) {root : Loc} (hroot : root < h.length) {fuel : Nat}
    {s : State (PyVal α)} (hs : getState fuel h root = some s) :
    (∀ k v, s.get k = some v → ∃ l n, LeadsTo h root k l n ∧ attrAt h l n = some (.val v) ∧ IsNode v) ∧
    (∀ l n v, Reaches h root l → attrAt h l n = some (.val v) → IsNode v →
      ∃ k, s.get k = some v ∧ LeadsTo h root k l n ∧
        ∀ k', (s.get k').isSome → LeadsTo h root k' l n → k' = k) := by
  obtain ⟨vs, S', d, hc, hg⟩ := getState_spec wf hroot hs
  obtain ⟨hn, hr, hw, hF⟩ := d.complete wf isOrder_sort hroot
  constructor
  · intro k v hk
    obtain ⟨x, hx, n, ha, hv, rfl⟩ := (hg k v).1 hk
    exact ⟨x.1, n, ⟨x.2, hw x hx, rfl⟩, ha, (C10_node_types.1 v).1 hv⟩
  · intro l n v hl ha hv
    have hv := (C10_node_types.1 v).2 hv
    obtain ⟨x, hx, rfl⟩ := List.mem_map.1 ((hr l).2 hl)
    refine ⟨joinSlash (x.2 ++ [n]), (hg _ _).2 ⟨x, hx, n, ha, hv, rfl⟩, ⟨x.2, hw x hx, rfl⟩, ?_⟩
    intro k' hk' hl'
    obtain ⟨v', hv'⟩ := Option.isSome_iff_exists.1 hk'
    obtain ⟨y, hy, m, ha', _, rfl⟩ := (hg k' v').1 hv'
    obtain ⟨h1, h2⟩ := leadsTo_functional wf ha' ha ⟨y.2, hw y hy, rfl⟩ hl'
    have : y = x := eq_of_map_nodup hn hy hx h1
    rw [this, h2]

/-- The example graph: the shared block is listed once, under the alphabetically first path. -/
example : getState 3 exHeap 0 = some ⟨[(py! "a/s", exStat 6), (py! "a/w", exParam 5), (py! "w", exParam 1)]⟩ := by
  decide

/-! ### C11 -/

omit [DecidableEq α] in
theorem access_ref {h : Heap α} (wf : WFHeap h) {a b : Loc} {p : List Str} (ha : a < h.length) :
    access h (.ref a) p = some (.ref b) ↔ Walk h a p b := by
  induction p generalizing a with
  | nil =>
    simp only [access, Option.some.injEq, Attr.ref.injEq]
    constructor
    · rintro rfl; exact .here ha
    · intro w; cases w; rfl
  | cons n p ih =>
    simp only [access]
    cases hat : attrAt h a n with
    | none =>
      simp only [reduceCtorEq, false_iff]
      intro w; cases w with | step e _ => rw [hat] at e; cases e
    | some x =>
      cases x with
      | val v =>
        constructor
        · intro e; cases p <;> simp [access] at e
        · intro w; cases w with | step e _ => rw [hat] at e; cases e
      | ref c =>
        simp only
        rw [ih (wf.refs _ _ _ hat)]
        constructor
        · intro w; exact .step hat w
        · intro w; cases w with | step e w => rw [hat] at e; cases e; exact w

omit [DecidableEq α] in
theorem access_iso {h h' : Heap α} (wf : WFHeap h) {r r' : Loc} {f : Loc → Loc} (g : GraphIso h r h' r' f)
    {a : Loc} {p : List Str} (ha : Reaches h r a) :
    access h' (.ref (f a)) p = (access h (.ref a) p).map (Attr.redirect f) := by
  induction p generalizing a with
  | nil => simp [access, Attr.redirect]
  | cons n p ih =>
    simp only [access]
    rw [g.attr _ ha]
    cases hat : attrAt h a n with
    | none => simp
    | some x =>
      cases x with
      | val v => cases p <;> simp [access, Attr.redirect]
      | ref c =>
        simp only [Option.map_some, Attr.redirect]
        exact ih (ha.step wf hat)

omit [DecidableEq α] in
/-- An isomorphism of graphs makes them observationally equal. -/
theorem GraphIso.sameGraph {h h' : Heap α} (wf : WFHeap h) {r r' : Loc} {f : Loc → Loc} (hr : r < h.length)
    (g : GraphIso h r h' r' f) : SameGraph h r h' r' := by
  have hrr : Reaches h r r := ⟨[], .here hr⟩
  constructor
  · intro p
    unfold observe
    rw [← g.root, access_iso wf g hrr]
    cases hacc : access h (.ref r) p with
    | none => rfl
    | some x =>
      cases x with
      | val v => rfl
      | ref b =>
        have hb : Reaches h r b := ⟨p, (access_ref wf hr).1 hacc⟩
        have hlt : b < h.length := by obtain ⟨q, hq⟩ := hb; exact hq.lt
        obtain ⟨o', ho', hc, hi⟩ := g.obj b _ hb (List.getElem?_eq_getElem hlt)
        simp only [Option.map_some, Attr.redirect, Option.bind_some, shown, ho', List.getElem?_eq_getElem hlt,
          Option.map_some, hc, hi]
  · intro p q
    unfold SameModule
    rw [← g.root, access_iso wf g hrr, access_iso wf g hrr]
    constructor
    · rintro ⟨l, h1, h2⟩
      cases hp : access h (.ref r) p with
      | none => rw [hp] at h1; cases h1
      | some x =>
        cases hq : access h (.ref r) q with
        | none => rw [hq] at h2; cases h2
        | some y =>
          rw [hp] at h1; rw [hq] at h2
          cases x with
          | val _ => simp [Attr.redirect] at h1
          | ref b =>
            cases y with
            | val _ => simp [Attr.redirect] at h2
            | ref c =>
              simp only [Option.map_some, Attr.redirect, Option.some.injEq, Attr.ref.injEq] at h1 h2
              have := g.inj b c ⟨p, (access_ref wf hr).1 hp⟩ ⟨q, (access_ref wf hr).1 hq⟩ (h1.trans h2.symm)
              exact ⟨b, rfl, by rw [this]⟩
    · rintro ⟨l, h1, h2⟩
      exact ⟨f l, by rw [h1]; rfl, by rw [h2]; rfl⟩

/-- **C11.** `m.partition().merge()`, performed in any world (for example inside another trace), returns a
module that is observationally equal to `m`: every access path shows the same class, flag or value, and two
access paths lead to the same object iff they did before. It changes no existing module, and it records the
trace in which `merge` ran. -/
theorem C11_partition_merge {h : Heap α} (wf : WFHeap h) {root : Loc} (hroot : root < h.length) {fuel : Nat}
    {ss : List (State (PyVal α))} {d : ModuleDef α} (hp : partitionModule fuel h root [] = .ok (ss, d))
    {w : World α} (wfw : WFWorld w) :
    ∃ w' r', mergeDef d ss w = (w', .ok r') ∧ SameGraph h root w'.heap r' ∧ WFWorld w' ∧
      (∀ l : Loc, l < w.heap.length → w'.heap[l]? = w.heap[l]?) ∧
      (∀ (l : Loc) (o : ModObj α), Reaches w'.heap r' l → w'.heap[l]? = some o →
        w.heap.length ≤ l ∧ o.trace = w.curTrace) := by
  unfold partitionModule at hp
  split at hp
  swap
  · cases hp
  next d' s hd hs =>
  simp only [Except.ok.injEq, Prod.mk.injEq] at hp
  obtain ⟨rfl, rfl⟩ := hp
  obtain ⟨w', f, hm, sp⟩ := mergeDef_spec wf hroot hd hs (pieces_self (getState_canonical hs)) (w := w) wfw.heap.conts
  refine ⟨w', _, hm, sp.iso.sameGraph wf hroot, ⟨sp.wf wf wfw.heap wfw.ids, ?_⟩, sp.old, ?_⟩
  · intro l o ho
    by_cases hl : l < w.heap.length
    · rw [sp.old _ hl] at ho; exact Nat.le_trans (wfw.ids _ _ ho) sp.ids
    · exact (sp.fresh _ _ (Nat.le_of_not_lt hl) ho).2.1
  · rintro l o ⟨p, hp⟩ ho
    rw [← sp.iso.root] at hp
    obtain ⟨b, rfl, _⟩ := sp.iso.walk_back wf ⟨[], .here hroot⟩ hp
    exact ⟨sp.ge b, (sp.fresh _ _ (sp.ge b) ho).2.2⟩

omit [DecidableEq α] in
/-- **C11, partition returns.** -/
theorem C11_partition_returns {h : Heap α} (wf : WFHeap h) {root : Loc} (hroot : root < h.length) {fuel : Nat}
    (hf : h.length < fuel) : ∃ s d, partitionModule fuel h root [] = .ok ([s], d) := by
  obtain ⟨d, hd⟩ := getModuleDef_exists wf hroot hf
  obtain ⟨s, hs⟩ := getState_exists wf hroot hf
  exact ⟨s, d, by simp [partitionModule, hd, hs]⟩

example : ∃ w' r', cloneModule 3 0 exWorld = (w', .ok r') ∧ r' ≠ 0 ∧ SameModule w'.heap r' [py! "a"] [py! "b"] ∧
    SameModule w'.heap r' [] [py! "a", py! "up"] := by
  refine ⟨_, _, rfl, by decide, ⟨3, by decide⟩, ⟨2, by decide⟩⟩

/-! ### C13 -/

/-- **C13.** If `m.partition(f1..fn)` returns, merging the pieces in any order gives a module that is
observationally equal to `m`. -/
theorem C13_filtered_round_trip {h : Heap α} (wf : WFHeap h) {root : Loc} (hroot : root < h.length) {fuel : Nat}
    {filters : List (Filter α)} (hne : filters ≠ [])
    {ss : List (State (PyVal α))} {d : ModuleDef α} (hp : partitionModule fuel h root filters = .ok (ss, d))
    {ss' : List (State (PyVal α))} (hperm : ss'.Perm ss) {w : World α} (wfw : WFWorld w) :
    ss.length = filters.length ∧
    ∃ w' r', mergeDef d ss' w = (w', .ok r') ∧ SameGraph h root w'.heap r' := by
  unfold partitionModule at hp
  split at hp
  swap
  · cases hp
  next d' s hd hs =>
  have hob : Obtainable s := by
    unfold getState at hs
    split at hs
    · cases hs
    · simp only [Option.some.injEq] at hs; subst hs; exact .new _
  cases filters with
  | nil => exact absurd rfl hne
  | cons f fs =>
    simp only at hp
    split at hp
    · cases hp
    · next ss0 hpart =>
      simp only [Except.ok.injEq, Prod.mk.injEq] at hp
      obtain ⟨rfl, rfl⟩ := hp
      obtain ⟨hlen, hfm⟩ := C01_partition_first_match hob hpart
      refine ⟨hlen, ?_⟩
      have hpieces : Pieces s ss' := by
        refine ⟨?_, ?_, ?_⟩
        · intro t ht
          have ht := hperm.mem_iff.1 ht
          obtain ⟨i, hi, rfl⟩ := List.getElem_of_mem ht
          exact (Obtainable.partition hob hpart (List.getElem_mem hi)).canonical
        · intro t ht k v hk
          have ht := hperm.mem_iff.1 ht
          obtain ⟨i, hi, rfl⟩ := List.getElem_of_mem ht
          exact ((hfm i _ (List.getElem?_eq_getElem hi) k v).1 hk).1
        · intro k v hk
          obtain ⟨i, ⟨t, ht, htv⟩, _⟩ := C01_partition_exactly_one hob hpart hk
          exact ⟨t, hperm.mem_iff.2 (List.mem_of_getElem? ht), htv⟩
      obtain ⟨w', f, hm, sp⟩ := mergeDef_spec wf hroot hd hs hpieces (w := w) wfw.heap.conts
      exact ⟨w', _, hm, sp.iso.sameGraph wf hroot⟩

example : ∃ s1 s2 d, partitionModule 3 exHeap 0 [.ofType cParam, .ellipsis] = .ok ([s1, s2], d) ∧
    s1.items.length = 2 ∧ s2.items.length = 1 := ⟨_, _, _, rfl, by decide, by decide⟩

/-! ### C12 -/

/-- **C12, the clone is new.** `clone()` returns, changes no existing module, every module reachable from
the clone is a newly created object with an id that was never used before, and the clone is observationally
equal to the original. -/
theorem C12_clone_fresh {w : World α} (wf : WFWorld w) {m : Loc} (hm : m < w.heap.length) {fuel : Nat}
    (hf : w.heap.length < fuel) :
    ∃ w' c, cloneModule fuel m w = (w', .ok c) ∧ WFWorld w' ∧ SameGraph w.heap m w'.heap c ∧
      (∀ l : Loc, l < w.heap.length → w'.heap[l]? = w.heap[l]?) ∧
      (∀ (l : Loc) (o : ModObj α), Reaches w'.heap c l → w'.heap[l]? = some o →
        w.heap.length ≤ l ∧ w.nextId < o.uid) := by
  obtain ⟨w', f, hc, sp⟩ := clone_spec wf.heap hm hf
  refine ⟨w', _, hc, ?_, sp.iso.sameGraph wf.heap hm, sp.old, ?_⟩
  · exact (confined_clone wf (region_closed wf []) hm hc).1.wf
  · rintro l o ⟨p, hp⟩ ho
    rw [← sp.iso.root] at hp
    obtain ⟨b, rfl, _⟩ := sp.iso.walk_back wf.heap ⟨[], .here hm⟩ hp
    exact ⟨sp.ge b, (sp.fresh _ _ (sp.ge b) ho).1⟩

/-- Right after cloning, no module can be reached from both. -/
theorem clone_apart {w w' : World α} (wf : WFWorld w) {m c : Loc} (hm : m < w.heap.length) {fuel : Nat}
    (hc : cloneModule fuel m w = (w', .ok c)) : WFWorld w' ∧ m < w'.heap.length ∧ c < w'.heap.length ∧ Apart w' [m] [c] := by
  have s : Step [m] w [c, m] w' := .clone (by simp) hc
  obtain ⟨cf, _, hlt, _⟩ := s.confined wf (by simpa using hm)
  have hceq := (confined_clone wf (region_closed wf []) hm hc).2 _ rfl
  refine ⟨cf.wf, hlt m (by simp), hlt c (by simp), ?_⟩
  have cnf := (confined_clone wf (region_closed wf [m]) hm hc).1
  -- everything reachable from the clone is new
  have hnew : Closed w'.heap (fun l => w.heap.length ≤ l) := by
    have := (confined_clone (A := fun _ => False) wf (by intro l n l' h; exact h.elim) hm hc).1.closed
    intro l n l' hl e
    exact (this l n l' (.inr hl) e).resolve_left id
  have hold : ∀ l, Reaches w'.heap m l → l < w.heap.length := by
    rintro l ⟨p, hp⟩
    have := (walk_same (h := w.heap) (h' := w'.heap) (B := fun _ => True) (fun _ _ _ _ _ => trivial) cnf.len
      (fun l _ hl => (confined_clone (A := fun _ => False) wf (by intro l n l' h; exact h.elim) hm hc).1.same l hl id)
      trivial hm wf.heap.refs).1 hp
    exact this.lt
  intro a ha b hb l hal hbl
  simp only [List.mem_singleton] at ha hb
  subst ha; subst hb
  obtain ⟨p, hp⟩ := hbl
  have := hp.closed hnew (by rw [hceq]; exact Nat.le_refl _)
  exact Nat.lt_irrefl _ (Nat.lt_of_lt_of_le (hold l hal) this)

theorem Run.invariant {A B A' B' : List Loc} {w w' : World α} (r : Run A B w A' B' w') : WFWorld w →
    (∀ a ∈ A, a < w.heap.length) → (∀ b ∈ B, b < w.heap.length) → Apart w A B →
    WFWorld w' ∧ (∀ a ∈ A', a < w'.heap.length) ∧ (∀ b ∈ B', b < w'.heap.length) ∧ Apart w' A' B' := by
  induction r with
  | done => exact fun h1 h2 h3 h4 => ⟨h1, h2, h3, h4⟩
  | first s _ ih =>
    intro h1 h2 h3 h4
    obtain ⟨c, _, hlt, _⟩ := s.confined h1 h2
    exact ih c.wf hlt (fun b hb => Nat.lt_of_lt_of_le (h3 b hb) c.len) (s.other h1 h2 h3 h4).2.2
  | second s _ ih =>
    intro h1 h2 h3 h4
    obtain ⟨c, _, hlt, _⟩ := s.confined h1 h3
    refine ih c.wf (fun b hb => Nat.lt_of_lt_of_le (h2 b hb) c.len) hlt ?_
    have := (s.other h1 h3 h2 (fun b hb a ha l h h' => h4 a ha b hb l h' h)).2.2
    exact fun a ha b hb l h h' => this b hb a ha l h' h

/-- **C12, independence.** After `c = m.clone()`, in every interleaved history of API calls by a party that
starts with `m` and a party that starts with `c` (assigning, deleting, linking, creating, cloning, updating,
popping, sowing, changing traces), no call of one party ever changes a module that the other can reach. -/
theorem C12_clone_independent {w w1 : World α} (wf : WFWorld w) {m c : Loc} (hm : m < w.heap.length) {fuel : Nat}
    (hc : cloneModule fuel m w = (w1, .ok c)) {A B : List Loc} {w2 : World α} (hr : Run [m] [c] w1 A B w2) :
    (∀ A' w3, Step A w2 A' w3 → ∀ b ∈ B, ∀ l, Reaches w2.heap b l → w3.heap[l]? = w2.heap[l]?) ∧
    (∀ B' w3, Step B w2 B' w3 → ∀ a ∈ A, ∀ l, Reaches w2.heap a l → w3.heap[l]? = w2.heap[l]?) := by
  obtain ⟨h1, h2, h3, h4⟩ := clone_apart wf hm hc
  obtain ⟨i1, i2, i3, i4⟩ := hr.invariant h1 (by simpa using h2) (by simpa using h3) h4
  constructor
  · intro A' w3 s b hb l hl
    exact (s.other i1 i2 i3 i4).1 b hb l hl
  · intro B' w3 s a ha l hl
    exact (s.other i1 i3 i2 (fun b hb a ha l h h' => i4 a ha b hb l h' h)).1 a ha l hl

omit [DecidableEq α] in
/-- If nothing reachable from `c` changed, what is observed from `c` did not change. -/
theorem sameGraph_of_unchanged {h h' : Heap α} (wf : WFHeap h) {c : Loc} (hc : c < h.length)
    (hs : ∀ l, Reaches h c l → h'[l]? = h[l]?) : SameGraph h c h' c := by
  have g : GraphIso h c h' c id := by
    refine ⟨rfl, fun _ _ _ _ h => h, ?_, ?_⟩
    · intro a o ha ho
      exact ⟨o, by rw [id, hs a ha, ho], rfl, rfl⟩
    · intro a ha n
      simp only [id, attrAt, hs a ha]
      split
      · cases dget _ n with
        | none => rfl
        | some x => cases x <;> rfl
      · rfl
  exact g.sameGraph wf hc

theorem Steps.wf {K K' : List Loc} {w w' : World α} (r : Steps K w K' w') : WFWorld w →
    (∀ k ∈ K, k < w.heap.length) → WFWorld w' ∧ (∀ k ∈ K', k < w'.heap.length) ∧ w.heap.length ≤ w'.heap.length := by
  induction r with
  | done => exact fun h1 h2 => ⟨h1, h2, Nat.le_refl _⟩
  | more s _ ih =>
    intro h1 h2
    obtain ⟨c, _, hlt, _⟩ := s.confined h1 h2
    obtain ⟨a, b, e⟩ := ih c.wf hlt
    exact ⟨a, b, Nat.le_trans c.len e⟩

theorem Steps.other {A A' B : List Loc} {w w' : World α} (r : Steps A w A' w') : WFWorld w →
    (∀ a ∈ A, a < w.heap.length) → (∀ b ∈ B, b < w.heap.length) → Apart w A B →
    (∀ b ∈ B, ∀ l, Reaches w.heap b l → w'.heap[l]? = w.heap[l]?) := by
  induction r with
  | done => intros; rfl
  | more s _ ih =>
    intro i1 i2 i3 i4 b hb l hl
    obtain ⟨cf, _, hlt, _⟩ := s.confined i1 i2
    obtain ⟨o1, o2, o3⟩ := s.other i1 i2 i3 i4
    rw [ih cf.wf hlt (fun b hb => Nat.lt_of_lt_of_le (i3 b hb) cf.len) o3 b hb l ((o2 b hb l).2 hl)]
    exact o1 b hb l hl

/-- **C12, no later change on one side is visible from the other.** After `c = m.clone()` and any history of
calls starting from `m`, what is observed from `c` is what was observed right after cloning; and vice versa. -/
theorem C12_clone_unaffected {w w1 : World α} (wf : WFWorld w) {m c : Loc} (hm : m < w.heap.length) {fuel : Nat}
    (hc : cloneModule fuel m w = (w1, .ok c)) {K : List Loc} {w2 : World α} :
    (Steps [m] w1 K w2 → SameGraph w1.heap c w2.heap c) ∧
    (Steps [c] w1 K w2 → SameGraph w1.heap m w2.heap m) := by
  obtain ⟨h1, h2, h3, h4⟩ := clone_apart wf hm hc
  constructor
  · intro r
    have hb := r.other (B := [c]) h1 (by simpa using h2) (by simpa using h3) h4 c (by simp)
    exact sameGraph_of_unchanged h1.heap h3 hb
  · intro r
    have hb := r.other (B := [m]) h1 (by simpa using h3) (by simpa using h2)
      (fun b hb a ha l h h' => h4 a ha b hb l h' h) m (by simp)
    exact sameGraph_of_unchanged h1.heap h2 hb

/-- The clone of the example exists and assigning through the original changes the original only. -/
example : ∃ w1 c w2, cloneModule 3 0 exWorld = (w1, .ok c) ∧
    setAttr w1 1 (py! "k") (.val (.data cTuple 99)) = .ok w2 ∧ Steps [0] w1 [1, 0] w2 ∧
    observe w2.heap 0 [py! "a", py! "k"] = some (.value (.data cTuple 99)) ∧
    observe w2.heap c [py! "a", py! "k"] = some (.value (.data cTuple 3)) := by
  refine ⟨_, _, _, rfl, rfl, ?_, by decide, by decide⟩
  refine .more (.read (l := 0) (n := py! "a") (l' := 1) (by simp) (by decide)) ?_
  exact .more (.assign (l := 1) (n := py! "k") (v := .data cTuple 99) (by simp)
    ⟨by unfold NoSlash; decide, by decide⟩ (.inl (by simp [PyVal.Plain])) rfl) .done

/-! ### C71 -/

/-- The world in which no Module exists yet. -/
def World.initial (α : Type) : World α := ⟨[], 0, 0, []⟩

/-- **C71.** In every world that a history of API calls can produce from nothing, attribute dicts have
distinct keys, references are not dangling, no two Modules share an id, every id is below the id counter,
every stored container is well formed, and names respect the naming rules: the hypotheses of C10-C16 always
hold. -/
theorem C71_reachable_worlds_well_formed {K : List Loc} {w : World α} (r : Steps [] (World.initial α) K w) :
    WFWorld w ∧ ∀ k ∈ K, k < w.heap.length := by
  have h0 : WFWorld (World.initial α) := by
    refine ⟨⟨?_, ?_, ?_, ?_, ?_, ?_⟩, ?_⟩ <;> intros <;> simp_all [World.initial, attrAt]
  obtain ⟨a, b, _⟩ := r.wf h0 (by simp)
  exact ⟨a, b⟩

/-- **C71, identity is stable.** Whatever calls are made, a Module keeps its id, its class and the trace it
was created in. -/
theorem C71_identity_stable {K K' : List Loc} {w w' : World α} (r : Steps K w K' w') (wf : WFWorld w)
    (hK : ∀ k ∈ K, k < w.heap.length) {l : Loc} {o : ModObj α} (h : w.heap[l]? = some o) :
    ∃ o', w'.heap[l]? = some o' ∧ o'.uid = o.uid ∧ o'.cls = o.cls ∧ o'.trace = o.trace := by
  induction r generalizing o with
  | done => exact ⟨o, h, rfl, rfl, rfl⟩
  | more s _ ih =>
    obtain ⟨c, _, hlt, _⟩ := s.confined wf hK
    obtain ⟨o1, e1, a1, b1, c1⟩ := c.stable l o h
    obtain ⟨o2, e2, a2, b2, c2⟩ := ih c.wf hlt e1
    exact ⟨o2, e2, a2.trans a1, b2.trans b1, c2.trans c1⟩

/-- **C71, ids are unique** in every reachable world. -/
theorem C71_ids_unique {K : List Loc} {w : World α} (r : Steps [] (World.initial α) K w) {l l' : Loc}
    {o o' : ModObj α} (h : w.heap[l]? = some o) (h' : w.heap[l']? = some o') (e : o.uid = o'.uid) : l = l' :=
  (C71_reachable_worlds_well_formed r).1.heap.uids _ _ _ _ h h' e

/-- A history from nothing: create two modules, link them into a cycle, assign a Param, clone. -/
example : ∃ K w, Steps [] (World.initial Nat) K w ∧ w.heap.length = 4 ∧ K = [2, 1, 0] ∧
    observe w.heap 2 [py! "b", py! "up", py! "b", py! "w"] = some (.value (exParam 4)) := by
  refine ⟨_, _, .more (.create (exCls (py! "A"))) <| .more (.create (exCls (py! "B"))) <|
    .more (.link (l := 0) (n := py! "b") (l' := 1) (by decide) (by decide)
      ⟨by unfold NoSlash; decide, by decide⟩ rfl) <|
    .more (.link (l := 1) (n := py! "up") (l' := 0) (by decide) (by decide)
      ⟨by unfold NoSlash; decide, by decide⟩ rfl) <|
    .more (.assign (l := 1) (n := py! "w") (v := exParam 4) (by decide)
      ⟨by unfold NoSlash; decide, by decide⟩ (.inr (exParam_wf 4)) rfl) <|
    .more (.clone (l := 0) (fuel := 3) (by decide) rfl) .done, by decide, by decide, by decide⟩

end Nnx
