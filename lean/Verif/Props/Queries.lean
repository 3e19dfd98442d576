import Verif.Model.Queries
import Verif.Props.ModelDict
/-
C107: what `Module.filter` selects; and what the leaves of `mutable_state_dict` say about their sharding (C22).
-/
namespace Nnx
variable {α : Type} [DecidableEq α]

omit [DecidableEq α] in
theorem firstMatch_exists {k : Str} {v : PyVal α} : ∀ {fs : List (Filter α)}, (∃ g ∈ fs, g.Matches k v) → ∃ i, FirstMatch fs k v i
  | [], h => by simp at h
  | f :: fs, h => by
    by_cases hf : f.Matches k v
    · exact ⟨0, ⟨f, rfl, hf⟩, fun j hj => absurd hj (Nat.not_lt_zero j)⟩
    · obtain ⟨g, hg, hm⟩ := h
      rcases List.mem_cons.1 hg with rfl | hg
      · exact absurd hm hf
      · obtain ⟨i, ⟨f', hf', hm'⟩, hi⟩ := firstMatch_exists ⟨g, hg, hm⟩
        refine ⟨i + 1, ⟨f', hf', hm'⟩, fun j hj g' hg' => ?_⟩
        cases j with
        | zero => obtain rfl := Option.some.inj hg'; exact hf
        | succ j => exact hi j (Nat.lt_of_succ_lt_succ hj) g' hg'

omit [DecidableEq α] in
theorem moduleFilter_ok {h : Heap α} {l : Loc} {fuel : Nat} {fs : List (Filter α)} {ss : List (State (PyVal α))}
    (e : moduleFilter fuel h l fs = .ok ss) : ∃ s, getState fuel h l = some s ∧ s.filter fs = .ok ss := by
  unfold moduleFilter at e
  cases fs with
  | nil => cases e
  | cons f fs =>
    cases hs : getState fuel h l with
    | none => rw [hs] at e; cases e
    | some s => rw [hs] at e; exact ⟨s, rfl, e⟩

omit [DecidableEq α] in
/-- **C107, totality.** `m.filter(*filters)` returns one State for every filter if and only if there is a filter, `...` is only used
last and the filters are made of the constructors `nnx` accepts; it never fails because variables are left over. -/
theorem C107_total {h : Heap α} (wf : WFHeap h) {l : Loc} (hl : l < h.length) {fuel : Nat} (hf : h.length < fuel)
    (fs : List (Filter α)) :
    (∃ ss, moduleFilter fuel h l fs = .ok ss ∧ ss.length = fs.length) ↔
      fs ≠ [] ∧ ¬ MisplacedEllipsis fs ∧ ∀ f ∈ fs, f.WellFormed := by
  obtain ⟨s, hs⟩ := getState_exists wf hl hf
  cases fs with
  | nil => simp [moduleFilter]
  | cons f fs =>
    simp only [moduleFilter, hs, ne_eq, reduceCtorEq, not_false_eq_true, true_and]
    exact (C02_filter_total (getState_obtainable hs) (f :: fs)).1

omit [DecidableEq α] in
/-- **C107, no filter.** `m.filter()` raises TypeError. -/
theorem C107_no_filter (h : Heap α) (l : Loc) (fuel : Nat) : moduleFilter fuel h l [] = .error .typeError := rfl

omit [DecidableEq α] in
/-- **C107, selection.** The `i`-th State that `m.filter(*filters)` returns holds a value under a path exactly when following
the path from `m` leads to that value, the State of `m` lists it, and the `i`-th filter is the first that matches. -/
theorem C107_selects {h : Heap α} (wf : WFHeap h) {l : Loc} (hl : l < h.length) {fuel : Nat} {fs : List (Filter α)}
    {ss : List (State (PyVal α))} (e : moduleFilter fuel h l fs = .ok ss) :
    ∃ s, getState fuel h l = some s ∧ ss.length = fs.length ∧
      ∀ (i : Nat) t, ss[i]? = some t → t.Canonical ∧ ∀ k v,
        (t.get k = some v ↔ s.get k = some v ∧ FirstMatch fs k v i) ∧
        (t.get k = some v → access h (.ref l) (splitSlash k) = some (.val v) ∧ v.isNode = true) := by
  obtain ⟨s, hs, he⟩ := moduleFilter_ok e
  obtain ⟨h1, h2⟩ := C04_filter_restricts (getState_obtainable hs) he
  refine ⟨s, hs, h1, fun i t ht => ⟨(Obtainable.filter (getState_obtainable hs) he (List.mem_of_getElem? ht)).canonical,
    fun k v => ⟨h2 i t ht k v, fun hk => ?_⟩⟩⟩
  obtain ⟨a, n, ⟨p, e', hw⟩, ha, hn⟩ := (state_paths wf hl hs).1 k v (((h2 i t ht k v).1 hk).1)
  exact ⟨by rw [e', access_snoc hw, ha], hn⟩

omit [DecidableEq α] in
/-- **C107, agreement.** When `m.partition(*filters)` returns, `m.filter(*filters)` returns the same States. -/
theorem C107_partition {h : Heap α} {l : Loc} {fuel : Nat} {fs : List (Filter α)} (hfs : fs ≠ [])
    {ss : List (State (PyVal α))} {d : ModuleDef α} (e : partitionModule fuel h l fs = .ok (ss, d)) :
    moduleFilter fuel h l fs = .ok ss := by
  cases fs with
  | nil => exact absurd rfl hfs
  | cons f fs =>
    unfold partitionModule at e
    cases hd : getModuleDef fuel h l with
    | none => rw [hd] at e; simp at e
    | some d' =>
      cases hs : getState fuel h l with
      | none => rw [hd, hs] at e; simp at e
      | some s =>
        rw [hd, hs] at e
        cases hp : s.partition (f :: fs) with
        | error er => simp [hp] at e
        | ok ts =>
          simp only [hp, Except.ok.injEq, Prod.mk.injEq] at e
          obtain ⟨rfl, rfl⟩ := e
          simp only [moduleFilter, hs]
          unfold State.partition at hp
          unfold State.filter
          cases hq : splitState s.items (f :: fs) with
          | error er => rw [hq] at hp; cases hp
          | ok dicts =>
            rw [hq] at hp
            simp only at hp ⊢
            split at hp
            · cases hp
            · exact hp

/-- **C107, own values.** Updating a Module with what its own `filter` returned changes nothing at all. -/
theorem C107_noop {w : World α} (wf : WFWorld w) {l : Loc} (hl : l < w.heap.length) {fuel : Nat} {fs : List (Filter α)}
    {ss : List (State (PyVal α))} (e : moduleFilter fuel w.heap l fs = .ok ss)
    (htr : ∀ (a : Loc) (o : ModObj α), Reaches w.heap l a → w.heap[a]? = some o → w.traceValid o.trace = true) :
    updateState fuel l ss w = (w, none) := by
  obtain ⟨s, hs, _, h⟩ := C107_selects wf.heap hl e
  refine C15_own_state wf hl hs (fun t ht => ?_) (fun t ht k v hk => ?_) htr
  · obtain ⟨i, hi⟩ := List.mem_iff_getElem?.1 ht
    exact (h i t hi).1
  · obtain ⟨i, hi⟩ := List.mem_iff_getElem?.1 ht
    exact ((((h i t hi).2 k v).1).1 hk).1

/-- **C107, transfer.** `target.update_state(source.filter(*filters))` gives the target, under every path of a variable of the
source that some filter matches, the value of the source, and leaves its other variables as they are. -/
theorem C107_transfer {w w' : World α} (wf : WFWorld w) {src tgt : Loc} (hs : src < w.heap.length) (ht : tgt < w.heap.length)
    {f f' f'' : Nat} {fs : List (Filter α)} {ss : List (State (PyVal α))} {s t : State (PyVal α)}
    (hsrc : getState f' w.heap src = some s) (htgt : getState f'' w.heap tgt = some t)
    (hsub : ∀ k v, s.get k = some v → (∃ g ∈ fs, g.Matches k v) → (t.get k).isSome)
    (e : moduleFilter f w.heap src fs = .ok ss) (u : updateState f tgt ss w = (w', none)) :
    ∃ t', getState (w'.heap.length + 1) w'.heap tgt = some t' ∧
      (∀ k v, s.get k = some v → (∃ g ∈ fs, g.Matches k v) → t'.get k = rewritten (t.get k) v) ∧
      ∀ k, (∀ v, s.get k = some v → ∀ g ∈ fs, ¬ g.Matches k v) → t'.get k = t.get k := by
  obtain ⟨s', hs', hlen, h⟩ := C107_selects wf.heap hs e
  obtain rfl := getState_det wf.heap hs hs' hsrc
  have hmem : ∀ x ∈ ss, ∀ k v, x.get k = some v → s'.get k = some v ∧ ∃ g ∈ fs, g.Matches k v := by
    intro x hx k v hk
    obtain ⟨i, hi⟩ := List.mem_iff_getElem?.1 hx
    obtain ⟨h1, h2⟩ := (((h i x hi).2 k v).1).1 hk
    obtain ⟨g, hg, hm⟩ := h2.1
    exact ⟨h1, g, List.mem_of_getElem? hg, hm⟩
  have hop : (ModelOp.update ss).Allowed t.get := by
    intro x hx
    obtain ⟨i, hi⟩ := List.mem_iff_getElem?.1 hx
    refine ⟨(h i x hi).1, fun k v hk => ?_⟩
    obtain ⟨h1, h2⟩ := hmem x hx k v hk
    exact ⟨(getState_good wf.heap hs hsrc k v (dget_mem h1)).1, hsub k v h1 h2⟩
  have := C106_program (ops := [.update ss]) wf ht htgt ⟨hop, trivial⟩ (.more ⟨rfl, f, u⟩ .done)
  obtain ⟨_, _, t', ht', hD⟩ := this
  have hg : ∀ k v, given ss k = some v → s'.get k = some v ∧ ∃ g ∈ fs, g.Matches k v := by
    intro k v hk
    obtain ⟨x, hx, hxk⟩ := List.exists_of_findSome?_eq_some hk
    exact hmem x (List.mem_reverse.1 hx) k v hxk
  have hD' : ∀ k, t'.get k = (ModelOp.update ss).onDict t.get k := fun k => by rw [hD]; rfl
  refine ⟨t', ht', fun k v hk hm => ?_, fun k hk => ?_⟩
  · rw [hD' k]
    have hgk : given ss k = some v := by
      cases hgk : given ss k with
      | some v' => rw [← (hg k v' hgk).1, hk]
      | none =>
        obtain ⟨i, hi⟩ := firstMatch_exists hm
        have hlt : i < ss.length := hlen ▸ hi.lt
        have := (((h i ss[i] (List.getElem?_eq_getElem hlt)).2 k v).1).2 ⟨hk, hi⟩
        have hnone := List.findSome?_eq_none_iff.1 hgk ss[i] (List.mem_reverse.2 (List.getElem_mem hlt))
        rw [this] at hnone
        cases hnone
    simp only [ModelOp.onDict, hgk]
  · rw [hD' k]
    cases hgk : given ss k with
    | some v =>
      obtain ⟨h1, g, h2, h3⟩ := hg k v hgk
      exact absurd h3 (hk v h1 g h2)
    | none => simp only [ModelOp.onDict, hgk]

/-- The Params of the submodule of a model are written into the model itself: its own `w` becomes that of the submodule. -/
example : ∃ ss w' t, moduleFilter 9 exSharedWorld.heap 1 [.ofType cParam] = .ok ss ∧
    updateState 9 0 ss exSharedWorld = (w', none) ∧ getState 9 w'.heap 0 = some t ∧
    t.items = [(py! "a/s", exStat 6), (py! "a/w", exParam 5), (py! "w", exParam 5)] := ⟨_, _, _, rfl, rfl, rfl, by decide +kernel⟩

/-- All variables of the submodule that the filter matches are paths of the model. -/
example : ∃ s t, getState 9 exSharedWorld.heap 1 = some s ∧ getState 9 exSharedWorld.heap 0 = some t ∧
    ∀ k v, s.get k = some v → (∃ g ∈ [(.ofType cParam : Filter Nat)], g.Matches k v) → (t.get k).isSome := by
  refine ⟨_, _, rfl, rfl, fun k v hk hm => ?_⟩
  have := dget_mem hk
  have : (k, v) = (py! "s", exStat 6) ∨ (k, v) = (py! "w", exParam 5) := by
    have e : (k, v) ∈ [(py! "s", exStat 6), (py! "w", exParam 5)] := this
    simpa using e
  rcases this with h | h
  · cases h
    obtain ⟨g, hg, hm⟩ := hm
    rw [List.mem_singleton] at hg
    subst hg
    exact absurd hm (by unfold Filter.Matches; decide)
  · cases h; decide +kernel

/-! ### The sharding of the leaves of `mutable_state_dict` -/

omit [DecidableEq α] in
/-- **C22, sharding.** The property `sharding` of a leaf raises AttributeError for every variable that is a Node container, whatever sharding
it was given, unless it has a metadata field that is itself called `metadata`. -/
theorem C22_sharding_raises {h : Heap α} (wf : WFHeap h) {root : Loc} (hroot : root < h.length) {fuel : Nat}
    (hf : h.length < fuel) {d : Dict Str (Loc × Str)} (hd : mutableStateDict fuel h root = .ok d) {s : State (PyVal α)}
    (hs : getState fuel h root = some s) {k : Str} {leaf : Loc × Str} (hk : dget d k = some leaf) {c : Cls} {x : PyVal α}
    {md : List (Str × PyVal α)} (hv : s.get k = some (.cont c x md)) (hc : (PyVal.cont c x md).isInstance cNode = true) (hm : dget md (py! "metadata") = none) :
    leafSharding h leaf = .error .attributeError := by
  obtain ⟨d', s', hd', hs', _, h2⟩ := C22_paths_and_reads wf hroot hf
  obtain rfl := Except.ok.inj (hd'.symm.trans hd)
  obtain rfl := Option.some.inj (hs'.symm.trans hs)
  obtain ⟨_, _, v, hv', ha, _⟩ := h2 k leaf hk
  obtain rfl := Option.some.inj (hv'.symm.trans hv)
  unfold leafSharding
  unfold attrAt at ha
  unfold varsGet
  cases ho : h[leaf.1]? with
  | none => rw [ho] at ha; cases ha
  | some o =>
    rw [ho] at ha
    have ha : dget o.attrs leaf.2 = some (.val (.cont c x md)) := ha
    simp only [ha, hc, if_true, hm]

omit [DecidableEq α] in
/-- **C22, sharding otherwise.** For a variable that is not a Node container the property is None; for one whose metadata has a
dict under the name `metadata` it is the entry "sharding" of that dict, None without one. -/
theorem C22_sharding_otherwise {h : Heap α} (wf : WFHeap h) {root : Loc} (hroot : root < h.length) {fuel : Nat}
    (hf : h.length < fuel) {d : Dict Str (Loc × Str)} (hd : mutableStateDict fuel h root = .ok d) {s : State (PyVal α)}
    (hs : getState fuel h root = some s) {k : Str} {leaf : Loc × Str} (hk : dget d k = some leaf) {v : PyVal α}
    (hv : s.get k = some v) :
    (v.isInstance cNode = false → leafSharding h leaf = .ok .none) ∧
    (∀ c x md items, v = .cont c x md → v.isInstance cNode = true → dget md (py! "metadata") = some (.dict items) →
      (∀ y, dget items (py! "sharding") = some y → leafSharding h leaf = .ok y) ∧
      (dget items (py! "sharding") = none → leafSharding h leaf = .ok .none)) := by
  obtain ⟨d', s', hd', hs', _, h2⟩ := C22_paths_and_reads wf hroot hf
  obtain rfl := Except.ok.inj (hd'.symm.trans hd)
  obtain rfl := Option.some.inj (hs'.symm.trans hs)
  obtain ⟨_, _, v', hv', ha, _⟩ := h2 k leaf hk
  obtain rfl := Option.some.inj (hv'.symm.trans hv)
  have hg : varsGet h leaf.1 leaf.2 = .ok (.val v') := by
    unfold attrAt at ha
    unfold varsGet
    cases ho : h[leaf.1]? with
    | none => rw [ho] at ha; cases ha
    | some o =>
      rw [ho] at ha
      have ha : dget o.attrs leaf.2 = some (.val v') := ha
      simp only [ha]
  refine ⟨fun hn => ?_, fun c x md items e hc hm => ?_⟩
  · simp only [leafSharding, hg, hn, Bool.false_eq_true, if_false]
  · subst e
    constructor
    · intro y hy
      simp only [leafSharding, hg, hc, if_true, hm, hy, Option.getD_some]
    · intro hy
      simp only [leafSharding, hg, hc, if_true, hm, hy, Option.getD_none]

/-- A Param with `metadata={"sharding": "in"}`. -/
example : leafSharding (α := Nat) [⟨exCls (py! "Net"), [(py! "w", .val (.cont cParam (.data cArray 1)
    [(py! "sharding", .none), (py! "metadata", .dict [(py! "sharding", .str (py! "in"))])]))], 7, false, ⟨0, 0⟩⟩] (0, py! "w") =
      .ok (.str (py! "in")) := by decide +kernel

/-- The weights of the example model are such variables. -/
example : ∃ d s leaf, mutableStateDict 9 exSharedWorld.heap 0 = .ok d ∧ getState 9 exSharedWorld.heap 0 = some s ∧
    dget d (py! "a/w") = some leaf ∧ s.get (py! "a/w") = some (exParam 5) ∧
    leafSharding exSharedWorld.heap leaf = .error .attributeError := ⟨_, _, (1, py! "w"), rfl, rfl, by decide +kernel, by decide +kernel, by decide +kernel⟩

end Nnx
