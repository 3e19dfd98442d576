import Verif.Props.ModuleDef
/-
Properties C25-C28: Pure and apply.
-/
namespace Nnx
variable {α : Type}

/-! ### C25 -/

/-- **C25, what the code does.** `pure.update_state(u)` keeps the ModuleDef and gives, at every path, the *old*
value if there was one and otherwise the value of the update. So the property holds at the paths the Pure did not
have; missing: at paths the Pure has already the update is lost (`C25_updates_lost`). -/
theorem C25_update_state_partial {p : Pure' α} (hp : ∀ t ∈ p.states.toList, Obtainable t) (hne : p.states.toList ≠ [])
    {us : List (State (PyVal α))} (hus : ∀ t ∈ us, Obtainable t) {old : State (PyVal α)} (hold : p.getState = .ok old) :
    ∃ q s, p.updateState us = .ok q ∧ q.moduledef = p.moduledef ∧ q.getState = .ok s ∧
      ∀ k, s.get k = match old.get k with
        | some v => some v
        | none => us.reverse.findSome? (fun t => t.get k) := by
  have hall : ∀ t ∈ us ++ p.states.toList, Obtainable t := by
    intro t ht
    rcases List.mem_append.1 ht with h | h
    · exact hus t h
    · exact hp t h
  have hg : ∀ k, old.get k = p.states.toList.reverse.findSome? (fun t => t.get k) := by
    intro k
    unfold Pure'.getState at hold
    cases hs : p.states with
    | one s => rw [hs] at hold; cases hold; simp [States.toList]
    | many ss =>
      rw [hs] at hold hp
      cases ss with
      | nil => cases hold
      | cons s ss =>
        cases hold
        simp only [States.toList]
        exact C06_merge_last_wins (hp s (by simp [States.toList])) (fun t ht => hp t (by simp [States.toList, ht])) k
  unfold Pure'.updateState
  cases hl : us ++ p.states.toList with
  | nil => simp [hne] at hl
  | cons s ss =>
    rw [hl] at hall
    refine ⟨_, s.merge ss, rfl, rfl, rfl, ?_⟩
    intro k
    rw [C06_merge_last_wins (hall s (by simp)) (fun t ht => hall t (by simp [ht])), ← hl, List.reverse_append,
      List.findSome?_append, ← hg]
    cases old.get k <;> rfl

/-- **C25 fails.** An update of an existing path is lost: the old states are merged after the updates. -/
theorem C25_updates_lost : ∃ (p : Pure' Nat) (u : State (PyVal Nat)) (q : Pure' Nat) (s : State (PyVal Nat)),
    Obtainable u ∧ (∀ t ∈ p.states.toList, Obtainable t) ∧ p.updateState [u] = .ok q ∧ q.getState = .ok s ∧
    u.get (py! "w") = some (exParam 2) ∧ s.get (py! "w") = some (exParam 1) :=
  ⟨⟨.one (.new [(py! "w", exParam 1)]), ⟨exCls (py! "A"), 0, .nil, [], false⟩⟩, .new [(py! "w", exParam 2)], _, _,
    .new _, by simp only [States.toList, List.mem_singleton, forall_eq]; exact .new _, rfl, rfl, by decide, by decide⟩

/-- A Pure with two States and an update with an old and a new path. -/
example : ∃ q s, (⟨.many [.new [(py! "a", exParam 1)], .new [(py! "b", exStat 2)]], ⟨exCls (py! "A"), 0, .nil, [], false⟩⟩
      : Pure' Nat).updateState [.new [(py! "b", exStat 9), (py! "c", exStat 3)]] = .ok q ∧ q.getState = .ok s ∧
    s.get (py! "b") = some (exStat 2) ∧ s.get (py! "c") = some (exStat 3) := ⟨_, _, rfl, rfl, by decide, by decide⟩

/-! ### C26 -/

theorem unpack_toList (ss : List (State (PyVal α))) : (Pure'.unpack ss).toList = ss := by
  match ss with
  | [] => rfl
  | [s] => rfl
  | s :: t :: ss => rfl

theorem getState_toList {m : ModuleDef α} {st : States α} : Pure'.getState ⟨st, m⟩ = match st.toList with
    | [] => .error .typeError
    | s :: ss => .ok (s.merge ss) := by
  cases st with
  | one s => rfl
  | many ss => cases ss <;> rfl

/-- The States of the Pure are States a program can get hold of, and there is at least one. -/
def Pure'.Good (p : Pure' α) : Prop := (∀ t ∈ p.states.toList, Obtainable t) ∧ p.states.toList ≠ []

theorem Pure'.Good.state {p : Pure' α} (hp : p.Good) : ∃ s, p.getState = .ok s ∧ Obtainable s ∧
    ∀ k, s.get k = p.states.toList.reverse.findSome? (fun t => t.get k) := by
  obtain ⟨st, m⟩ := p
  obtain ⟨h1, h2⟩ := hp
  rw [getState_toList]
  simp only at h1 h2 ⊢
  cases hl : st.toList with
  | nil => exact absurd hl h2
  | cons s ss =>
    rw [hl] at h1
    have a := h1 s (by simp)
    have b : ∀ t ∈ ss, Obtainable t := fun t ht => h1 t (by simp [ht])
    exact ⟨_, rfl, .merge a b, C06_merge_last_wins a b⟩

/-- **C26, get_state** is the merge of the States: the last State that has a path decides. -/
theorem C26_get_state {p : Pure' α} (hp : p.Good) : ∃ s, p.getState = .ok s ∧
    ∀ k, s.get k = p.states.toList.reverse.findSome? (fun t => t.get k) := by
  obtain ⟨s, h1, _, h2⟩ := hp.state
  exact ⟨s, h1, h2⟩

/-- **C26, partition.** Without filters the States are joined into one. With filters, `pure.partition` raises what
`State.partition` raises on the joined state; otherwise the new Pure has the same ModuleDef, its States are the
pieces, and its `get_state()` is that of the original. -/
theorem C26_partition {p : Pure' α} (hp : p.Good) {s : State (PyVal α)} (hs : p.getState = .ok s) :
    p.partition [] = .ok ⟨.one s, p.moduledef⟩ ∧
    ∀ fs, fs ≠ [] → (∀ e, p.partition fs = .error e ↔ s.partition fs = .error e) ∧
      ∀ q, p.partition fs = .ok q → q.moduledef = p.moduledef ∧ s.partition fs = .ok q.states.toList ∧
        q.getState = .ok s := by
  obtain ⟨s', h1, hob, _⟩ := hp.state
  rw [hs] at h1; cases h1
  refine ⟨by simp [Pure'.partition, hs], ?_⟩
  intro fs hfs
  cases fs with
  | nil => exact absurd rfl hfs
  | cons f fs =>
    simp only [Pure'.partition, hs]
    cases hpart : s.partition (f :: fs) with
    | error e => simp
    | ok ss =>
      simp only [reduceCtorEq, implies_true, true_and, Except.ok.injEq, forall_eq', unpack_toList]
      rw [getState_toList, unpack_toList]
      have hlen := (C01_partition_first_match hob hpart).1
      cases ss with
      | nil => simp at hlen
      | cons t ts => simp only; rw [C03_merge_partition hob hpart (List.Perm.refl _)]

/-- **C26, filter** is `State.filter` on the joined state. -/
theorem C26_filter {p : Pure' α} {s : State (PyVal α)} (hs : p.getState = .ok s) (fs : List (Filter α)) :
    (∀ e, p.filter fs = .error e ↔ s.filter fs = .error e) ∧
    (∀ r, p.filter fs = .ok r → s.filter fs = .ok r.toList) := by
  simp only [Pure'.filter, hs]
  cases s.filter fs with
  | error e => simp
  | ok ss => simp [unpack_toList]

theorem partition_snoc {s : State (PyVal α)} {fs : List (Filter α)} {ss : List (State (PyVal α))} (hob : Obtainable s)
    (h : s.partition (fs ++ [.ellipsis]) = .ok ss) : ∃ ps r, ss = ps ++ [r] ∧ ps.length = fs.length := by
  have hlen := (C01_partition_first_match hob h).1
  rw [List.length_append, List.length_singleton] at hlen
  have hne : ss ≠ [] := by rintro rfl; simp at hlen
  refine ⟨ss.dropLast, ss.getLast hne, (List.dropLast_append_getLast hne).symm, ?_⟩
  rw [List.length_dropLast, hlen]; rfl

/-- **C26, one filter.** `filter`, `partition` and `pop_state` give a State, and not a tuple, exactly if there is one filter. -/
theorem C26_unpacked {p : Pure' α} (hp : p.Good) {fs : List (Filter α)} :
    (∀ r, p.filter fs = .ok r → ((∃ t, r = .one t) ↔ fs.length = 1)) ∧
    (∀ q, fs ≠ [] → p.partition fs = .ok q → ((∃ t, q.states = .one t) ↔ fs.length = 1)) ∧
    ∀ r q, p.popState fs = .ok (r, q) → ((∃ t, r = .one t) ↔ fs.length = 1) := by
  obtain ⟨s, hs, hob, _⟩ := hp.state
  have hu : ∀ ss : List (State (PyVal α)), (∃ t, Pure'.unpack ss = .one t) ↔ ss.length = 1 := by
    intro ss
    match ss with
    | [] => simp [Pure'.unpack]
    | [s] => simp [Pure'.unpack]
    | s :: t :: ss => simp [Pure'.unpack]
  refine ⟨?_, ?_, ?_⟩
  · intro r h
    simp only [Pure'.filter, hs] at h
    split at h
    · cases h
    next ss hf =>
    simp only [Except.ok.injEq] at h
    subst h
    rw [hu, (C04_filter_restricts hob hf).1]
  · intro q hfs h
    cases fs with
    | nil => exact absurd rfl hfs
    | cons f fs =>
    simp only [Pure'.partition, hs] at h
    split at h
    · cases h
    next ss hf =>
    simp only [Except.ok.injEq] at h
    subst h
    rw [hu, (C01_partition_first_match hob hf).1]
  · intro r q h
    simp only [Pure'.popState, hs] at h
    split at h
    · cases h
    next ss hf =>
    obtain ⟨ps, t, rfl, hlen⟩ := partition_snoc hob hf
    simp only [List.dropLast_concat, Except.ok.injEq, Prod.mk.injEq] at h
    rw [← h.1, hu, hlen]

/-- **C26, pop_state.** If `pure.pop_state(f1..fn)` returns, popped State number `i` has exactly the entries of the
joined state whose first matching filter is `i`; the returned Pure has the same ModuleDef and exactly the entries
that match no filter; and merging everything, in any order, gives the joined state. -/
theorem C26_pop_state {p : Pure' α} (hp : p.Good) {s : State (PyVal α)} (hs : p.getState = .ok s)
    {fs : List (Filter α)} {popped : States α} {q : Pure' α} (h : p.popState fs = .ok (popped, q)) :
    q.moduledef = p.moduledef ∧ popped.toList.length = fs.length ∧
    (∀ (i : Nat) t, popped.toList[i]? = some t → ∀ k v, t.get k = some v ↔ s.get k = some v ∧ FirstMatch fs k v i) ∧
    ∃ rest, q.getState = .ok rest ∧
      (∀ k v, rest.get k = some v ↔ s.get k = some v ∧ ∀ f ∈ fs, ¬ f.Matches k v) ∧
      ∀ t ts, (t :: ts).Perm (popped.toList ++ [rest]) → t.merge ts = s := by
  obtain ⟨s', h1, hob, _⟩ := hp.state
  rw [hs] at h1; cases h1
  simp only [Pure'.popState, hs] at h
  split at h
  · cases h
  next ss hpart =>
  obtain ⟨ps, r, rfl, hlen⟩ := partition_snoc hob hpart
  have hC01 := (C01_partition_first_match hob hpart).2
  simp only [List.dropLast_concat, Except.ok.injEq, Prod.mk.injEq] at h
  obtain ⟨rfl, rfl⟩ := h
  rw [unpack_toList]
  have hlast : (ps ++ [r]).getLastD ⟨[]⟩ = r := by simp
  refine ⟨rfl, hlen, ?_, r, by simp [Pure'.getState], ?_, ?_⟩
  · intro i t ht k v
    have hi : i < ps.length := (List.getElem?_eq_some_iff.1 ht).1
    rw [hC01 i t (by rw [List.getElem?_append_left hi]; exact ht) k v]
    have hfm : FirstMatch (fs ++ [.ellipsis]) k v i ↔ FirstMatch fs k v i := by
      unfold FirstMatch
      rw [List.getElem?_append_left (hlen ▸ hi)]
      have : ∀ j < i, (fs ++ [Filter.ellipsis])[j]? = fs[j]? := fun j hj =>
        List.getElem?_append_left (Nat.lt_trans hj (hlen ▸ hi))
      constructor
      · rintro ⟨a, b⟩; exact ⟨a, fun j hj g hg => b j hj g (by rw [this j hj]; exact hg)⟩
      · rintro ⟨a, b⟩; exact ⟨a, fun j hj g hg => b j hj g (by rw [← this j hj]; exact hg)⟩
    rw [hfm]
  · intro k v
    rw [hC01 ps.length r (by simp) k v]
    have hfm : FirstMatch (fs ++ [.ellipsis]) k v ps.length ↔ ∀ f ∈ fs, ¬ f.Matches k v := by
      unfold FirstMatch
      rw [hlen]
      constructor
      · rintro ⟨_, b⟩ f hf
        obtain ⟨j, hj, rfl⟩ := List.getElem_of_mem hf
        exact b j hj _ (by rw [List.getElem?_append_left hj, List.getElem?_eq_getElem hj])
      · intro hall
        refine ⟨⟨.ellipsis, by simp, by simp [Filter.Matches]⟩, ?_⟩
        intro j hj g hg
        rw [List.getElem?_append_left hj] at hg
        exact hall g (List.mem_of_getElem? hg)
    rw [hfm]
  · intro t ts hperm
    exact C03_merge_partition hob hpart hperm

/-- **C26, when pop_state returns.** With well-formed filters `pop_state` succeeds iff none of them is `...`; with a
`...` it raises ValueError (so, unlike Module.pop_state, `pure.pop_state(...)` is never possible). -/
theorem C26_pop_state_succeeds {p : Pure' α} (hp : p.Good) {fs : List (Filter α)} (hwf : ∀ f ∈ fs, f.WellFormed) :
    ((∃ r, p.popState fs = .ok r) ↔ Filter.ellipsis ∉ fs) ∧
    (Filter.ellipsis ∈ fs → p.popState fs = .error .valueError) := by
  obtain ⟨s, hs, hob, _⟩ := hp.state
  have hbad : Filter.ellipsis ∈ fs → p.popState fs = .error .valueError := by
    intro hmem
    have hmis : MisplacedEllipsis (fs ++ [Filter.ellipsis]) := by
      obtain ⟨j, hj, hjf⟩ := List.getElem_of_mem hmem
      exact ⟨j, by simp; exact hj, by rw [List.getElem?_append_left hj, List.getElem?_eq_getElem hj, hjf]⟩
    simp only [Pure'.popState, hs, (C02_misplaced_ellipsis s hmis).1]
  refine ⟨⟨?_, ?_⟩, hbad⟩
  · rintro ⟨r, hr⟩ hmem
    rw [hbad hmem] at hr; cases hr
  · intro hmem
    have hmis : ¬ MisplacedEllipsis (fs ++ [Filter.ellipsis]) := by
      rintro ⟨j, hj, hjf⟩
      simp only [List.length_append, List.length_singleton] at hj
      have hj' : j < fs.length := by omega
      rw [List.getElem?_append_left hj'] at hjf
      exact hmem (List.mem_of_getElem? hjf)
    have hwf' : ∀ f ∈ fs ++ [Filter.ellipsis], f.WellFormed := by
      intro f hf
      rcases List.mem_append.1 hf with h | h
      · exact hwf f h
      · simp only [List.mem_singleton] at h; subst h; simp [Filter.WellFormed]
    obtain ⟨a, b, _⟩ := C02_partition_fails_iff hob hwf' hmis
    cases hpart : s.partition (fs ++ [.ellipsis]) with
    | ok ss => simp only [Pure'.popState, hs, hpart]; exact ⟨_, rfl⟩
    | error e =>
      have := b e hpart
      subst this
      obtain ⟨k, v, _, h3⟩ := a.1 hpart
      exact absurd (by simp [Filter.Matches]) (h3 .ellipsis (by simp))

example : ∃ a b q, (⟨.many [exState, .new [(py! "d", exStat 7)]], ⟨exCls (py! "A"), 0, .nil, [], false⟩⟩ : Pure' Nat).popState
      [.ofType cBatchStat, .pred (fun k _ => k == py! "c")] = .ok (.many [a, b], q) ∧
    a.items.length = 2 ∧ b.items.length = 1 ∧ q.states.toList.length = 1 := ⟨_, _, _, rfl, by decide, by decide, by decide⟩

/-! ### C27 -/

theorem Access.Plain.own {n : Str} (h : (Access.attr n).Plain) : proxyOwn n = false := by
  obtain ⟨_, h1, h2, h3⟩ := h
  simp [proxyOwn, h1, h2, h3]

theorem extend_plain {a : Access} (h : a.Plain) (b : Option Access) : Proxied.extend (.delayed b) a = .ok (.delayed (some a)) := by
  cases a with
  | item k => rfl
  | attr n => simp [Proxied.extend, h.1, h.own]

theorem fold_plain {chain : List Access} (h : ∀ a ∈ chain, a.Plain) (b : Option Access) :
    chain.foldlM Proxied.extend (.delayed b) = .ok (.delayed (chain.getLast?.or b)) := by
  induction chain generalizing b with
  | nil => rfl
  | cons a chain ih =>
    rw [List.foldlM_cons, extend_plain (h a (by simp))]
    show List.foldlM Proxied.extend (.delayed (some a)) chain = _
    rw [ih (fun x hx => h x (by simp [hx]))]
    cases chain with
    | nil => rfl
    | cons c chain => simp [List.getLast?_cons]

/-- **C27, what the code does.** The function that is called is found by the *last* access of the chain alone, on
the merged module; earlier accesses are forgotten. -/
theorem C27_only_last_access {O : Type} (access : O → Access → Option O) {chain : List Access} {a : Access} (h : ∀ b ∈ chain ++ [a], b.Plain) (x : O) :
    (accessorOf (chain ++ [a])).map (fun f => runAccessor access f x) = .ok (access x a) := by
  simp [accessorOf, fold_plain h, Except.map, Proxied.fn, runAccessor]

/-- **C27, partial.** For chains of at most one access, by an item or by a name other than `accessor` and the names of the proxy, the documented behaviour holds. Missing: longer chains and the
name `accessor`. -/
theorem C27_short_chains_partial {O : Type} (access : O → Access → Option O) {chain : List Access}
    (h : chain.length ≤ 1) (hp : ∀ a ∈ chain, a.Plain) (x : O) : (accessorOf chain).map (fun f => runAccessor access f x) = .ok (followAll access chain x) := by
  match chain, h with
  | [], _ => rfl
  | [a], _ =>
    rw [show [a] = [] ++ [a] from rfl, C27_only_last_access access hp]
    simp [followAll, List.foldlM]

/-- **C27 fails for the name `accessor`.** After any accesses, `.accessor` does not reach for an attribute of that name: the call is the one without it. So `apply.accessor(...)` calls the Module
itself, whether or not it has a method `accessor`. A further access raises an error. -/
theorem C27_accessor {chain : List Access} (h : ∀ a ∈ chain, a.Plain) :
    accessorOf (chain ++ [.attr (py! "accessor")]) = accessorOf chain ∧
    ∀ a : Access, a.Plain ∨ a = .attr (py! "accessor") → ∀ more, ∃ e, accessorOf (chain ++ .attr (py! "accessor") :: a :: more) = .error e ∧ (e = .attributeError ∨ e = .typeError) := by
  have hx : ∀ f, Proxied.extend (.delayed f) (.attr (py! "accessor")) = .ok (.plain f) := fun f => rfl
  constructor
  · simp only [accessorOf, List.foldlM_append, fold_plain h, List.foldlM_cons, List.foldlM_nil]
    rfl
  · intro a ha more
    simp only [accessorOf, List.foldlM_append, fold_plain h, List.foldlM_cons]
    show ∃ e, Except.map Proxied.fn (Proxied.extend (.plain _) a >>= fun s => more.foldlM Proxied.extend s) = _ ∧ _
    cases a with
    | item k => exact ⟨.typeError, rfl, .inr rfl⟩
    | attr n =>
      have hn : proxyOwn n = false := by
        rcases ha with ha | ha
        · exact ha.own
        · cases ha; rfl
      refine ⟨.attributeError, ?_, .inl rfl⟩
      simp only [Proxied.extend, hn]
      rfl

/-- Objects in a tree of named parts, for the counterexample: accessing a part appends its name. -/
def exAccess (x : List Access) (a : Access) : Option (List Access) := some (x ++ [a])

/-- **C27 fails.** `apply.a.b()` calls the `b` of the module, not the `b` of its `a`; `apply.accessor()` calls the module and not its `accessor`. -/
theorem C27_chain_not_followed :
    (accessorOf [.attr (py! "a"), .attr (py! "b")]).map (fun f => runAccessor exAccess f []) ≠ .ok (followAll exAccess [.attr (py! "a"), .attr (py! "b")] []) ∧
    (accessorOf [.attr (py! "accessor")]).map (fun f => runAccessor exAccess f []) ≠ .ok (followAll exAccess [.attr (py! "accessor")] []) := by decide

/-- On the example module: following `a` then `w` gives the block's `w`, the code uses the root's `w`. -/
example : access exHeap (.ref 0) [py! "a", py! "w"] = some (.val (exParam 5)) ∧
    (accessorOf [.attr (py! "a"), .attr (py! "w")]).map (fun f => runAccessor (fun x a => match a with
      | .attr n => access exHeap x [n]
      | .item n => access exHeap x [n]) f (.ref 0))
      = .ok (some (.val (exParam 1))) := by decide

example : ∀ a ∈ [Access.attr (py! "a"), .item (py! "accessor"), .attr (py! "_helper")], a.Plain := by
  intro a ha
  simp only [List.mem_cons, List.not_mem_nil, or_false] at ha
  rcases ha with rfl | rfl | rfl <;> simp [Access.Plain]

/-! ### C28 -/

variable [DecidableEq α]

/-- A new module whose graph is new: what is done with it leaves all earlier modules alone. -/
theorem fresh_frame {w w1 w2 : World α} (wf : WFWorld w) (wf1 : WFWorld w1) {c : Loc} (hcl : c < w1.heap.length)
    (hold : ∀ l : Loc, l < w.heap.length → w1.heap[l]? = w.heap[l]?)
    (hnew : ∀ (l : Loc) (o : ModObj α), Reaches w1.heap c l → w1.heap[l]? = some o → w.heap.length ≤ l) {K : List Loc} (hK : Steps [c] w1 K w2)
    {l : Loc} (hl : l < w.heap.length) : w2.heap[l]? = w.heap[l]? := by
  have hlen : w.heap.length ≤ w1.heap.length := by
    rcases Nat.eq_zero_or_pos w.heap.length with h0 | h0
    · rw [h0]; exact Nat.zero_le _
    · have hx := hold (w.heap.length - 1) (Nat.sub_lt h0 Nat.one_pos)
      rw [List.getElem?_eq_getElem (Nat.sub_lt h0 Nat.one_pos)] at hx
      have := (List.getElem?_eq_some_iff.1 hx).1
      exact Nat.le_of_pred_lt this
  have hl1 : l < w1.heap.length := Nat.lt_of_lt_of_le hl hlen
  have hclosed : ∀ x, Reaches w1.heap l x → x < w.heap.length := by
    rintro x ⟨p, hp⟩
    induction hp with
    | here _ => exact hl
    | @step a b x n p e _ ih =>
      have hb : b < w.heap.length := by
        apply wf.heap.refs a n b
        have : attrAt w1.heap a n = attrAt w.heap a n := by simp only [attrAt, hold a hl]
        rw [← this]; exact e
      exact ih hb (wf1.heap.refs _ _ _ e)
  have hap : Apart w1 [c] [l] := by
    intro a ha b hb x hax hbx
    simp only [List.mem_singleton] at ha hb
    subst ha; subst hb
    have h1 := hclosed x hbx
    have hxlt : x < w1.heap.length := by obtain ⟨p, hp⟩ := hbx; exact hp.lt
    have h2 := hnew x _ hax (List.getElem?_eq_getElem hxlt)
    exact Nat.lt_irrefl _ (Nat.lt_of_lt_of_le h1 h2)
  have := hK.other (B := [l]) wf1 (by simpa using hcl) (by simpa using hl1) hap l (by simp) l ⟨[], .here hl1⟩
  rw [this, hold l hl]

omit [DecidableEq α] in
theorem SameGraph.root_lt {h h' : Heap α} {m c : Loc} (g : SameGraph h m h' c) (hm : m < h.length) : c < h'.length := by
  obtain ⟨b, hb⟩ : ∃ b, observe h' c [] = some b := by
    rw [g.1 []]
    simp [observe, access, shown, List.getElem?_eq_getElem hm]
  rw [observe] at hb
  simp only [access, Option.bind_some, shown] at hb
  rcases Nat.lt_or_ge c h'.length with h | h
  · exact h
  · rw [List.getElem?_eq_none h] at hb; cases hb

/-- **C28, `module.apply`.** Whatever the method does with the module it receives — any history of API calls that
starts from that module — no module that existed before, the original in particular, is changed; the method received a module equal to
the original; and the module returned is the one the method worked on, with the method's changes. -/
theorem C28_module_apply {β : Type} {w w' : World α} (wf : WFWorld w) {m : Loc} (hm : m < w.heap.length) {fuel : Nat}
    {body : Loc → World α → World α × Except Err β}
    (hbody : ∀ c w1, WFWorld w1 → c < w1.heap.length → ∃ K, Steps [c] w1 K (body c w1).1)
    {r : Except Err (β × Loc)} (h : applyModule fuel m body w = (w', r)) (hf : w.heap.length < fuel) :
    (∀ l : Loc, l < w.heap.length → w'.heap[l]? = w.heap[l]?) ∧ SameGraph w.heap m w'.heap m ∧
    ∃ c w1, cloneModule fuel m w = (w1, .ok c) ∧ SameGraph w.heap m w1.heap c ∧ w' = (body c w1).1 ∧
      (∀ out, (body c w1).2 = .ok out → r = .ok (out, c)) ∧ (∀ e, (body c w1).2 = .error e → r = .error e) := by
  obtain ⟨w1, c, hc, wf1, g, hsame, hnew⟩ := C12_clone_fresh wf hm hf
  have hcl := g.root_lt hm
  have g1 : SameGraph w.heap m w1.heap m := sameGraph_of_unchanged wf.heap hm (fun l hl => by
    obtain ⟨p, hp⟩ := hl; exact hsame l hp.lt)
  obtain ⟨K, hK⟩ := hbody c w1 wf1 hcl
  have g2 := (C12_clone_unaffected wf hm hc (K := K)).2 hK
  simp only [applyModule, hc] at h
  have hw' : w' = (body c w1).1 ∧ (∀ out, (body c w1).2 = .ok out → r = .ok (out, c)) ∧
      (∀ e, (body c w1).2 = .error e → r = .error e) := by
    generalize hb : body c w1 = x at h
    obtain ⟨w2, res⟩ := x
    cases res <;> simp only [Prod.mk.injEq] at h <;> obtain ⟨rfl, rfl⟩ := h <;> simp
  refine ⟨?_, by rw [hw'.1]; exact g1.trans g2, c, w1, hc, g, hw'.1, hw'.2.1, hw'.2.2⟩
  intro l hl
  rw [hw'.1]
  exact fresh_frame wf wf1 hcl hsame (fun l o h1 h2 => (hnew l o h1 h2).1) hK hl

/-- **C28, `moduledef.apply`.** With the ModuleDef and State of any module `m` (possibly of another world), the method
runs on a new module equal to `m`; no module that existed before is changed, whatever the method does with its module;
and merging the returned Pure gives a module equal to the one the method left behind. -/
theorem C28_def_apply {β : Type} {h : Heap α} (wfh : WFHeap h) {m : Loc} (hm : m < h.length) {f0 fuel : Nat}
    {ss : List (State (PyVal α))} {d : ModuleDef α} (hp : partitionModule f0 h m [] = .ok (ss, d))
    {w : World α} (wf : WFWorld w) {body : Loc → World α → World α × Except Err β}
    (hbody : ∀ c w1, WFWorld w1 → c < w1.heap.length → ∃ K, Steps [c] w1 K (body c w1).1) {w' : World α}
    {r : Except Err (β × State (PyVal α) × ModuleDef α)} (happ : applyDef fuel d ss body w = (w', r)) :
    (∀ l : Loc, l < w.heap.length → w'.heap[l]? = w.heap[l]?) ∧
    ∃ c w1, mergeDef d ss w = (w1, .ok c) ∧ SameGraph h m w1.heap c ∧ w' = (body c w1).1 ∧ c < w'.heap.length ∧
      (∀ e, (body c w1).2 = .error e → r = .error e) ∧
      (∀ out, (body c w1).2 = .ok out → w'.heap.length < fuel → ∃ s' d', r = .ok (out, s', d') ∧
        ∀ w2, WFWorld w2 → ∃ w3 l, mergeDef d' [s'] w2 = (w3, .ok l) ∧ SameGraph w'.heap c w3.heap l) := by
  obtain ⟨w1, c, hmerge, g, wf1, hold, hnew⟩ := C11_partition_merge wfh hm hp wf
  have hcl := g.root_lt hm
  obtain ⟨K, hK⟩ := hbody c w1 wf1 hcl
  obtain ⟨wf2, hK2, hlen2⟩ := hK.wf wf1 (by simpa using hcl)
  have hframe : ∀ l : Loc, l < w.heap.length → (body c w1).1.heap[l]? = w.heap[l]? := fun l hl =>
    fresh_frame wf wf1 hcl hold (fun l o h1 h2 => (hnew l o h1 h2).1) hK hl
  have hc2 : c < (body c w1).1.heap.length := Nat.lt_of_lt_of_le hcl hlen2
  simp only [applyDef, hmerge] at happ
  cases hb : (body c w1).2 with
  | error e =>
    have hbb : body c w1 = ((body c w1).1, .error e) := by rw [← hb]
    rw [hbb] at happ
    simp only [Prod.mk.injEq] at happ
    obtain ⟨rfl, rfl⟩ := happ
    exact ⟨hframe, c, w1, hmerge, g, rfl, hc2, by simp [hb], by simp [hb]⟩
  | ok out =>
    have hbb : body c w1 = ((body c w1).1, .ok out) := by rw [← hb]
    rw [hbb] at happ
    simp only at happ
    have hw' : w' = (body c w1).1 := by
      split at happ <;> simp only [Prod.mk.injEq] at happ <;> exact happ.1.symm
    subst hw'
    refine ⟨hframe, c, w1, hmerge, g, rfl, hc2, by simp [hb], ?_⟩
    intro out' hout hfuel
    rw [hb] at hout
    cases hout
    obtain ⟨s', d', hpart⟩ := C11_partition_returns wf2.heap hc2 hfuel
    rw [hpart] at happ
    simp only [Prod.mk.injEq, true_and] at happ
    refine ⟨s', d', happ.symm, ?_⟩
    intro w2 hw2
    obtain ⟨w3, l, h1, h2, _⟩ := C11_partition_merge wf2.heap hc2 hpart hw2
    exact ⟨w3, l, h1, h2⟩

/-- A method that assigns an attribute of a submodule. -/
def exBody (l : Loc) (w : World Nat) : World Nat × Except Err Unit :=
  match attrAt w.heap l (py! "a") with
  | some (.ref b) =>
    match setAttr w b (py! "w") (.val (.data cArray 77)) with
    | .ok w' => (w', .ok ())
    | .error e => (w, .error e)
  | _ => (w, .ok ())

theorem exBody_steps (c : Loc) (w : World Nat) : ∃ K, Steps [c] w K (exBody c w).1 := by
  unfold exBody
  split
  · next b hb =>
    split
    · next w' hw =>
      exact ⟨_, .more (.read (by simp) hb) (.more (.assign (l := b) (by simp) ⟨by unfold NoSlash; decide, by decide⟩
        (.inl (by simp [PyVal.Plain])) hw) .done)⟩
    · exact ⟨_, .done⟩
  · exact ⟨_, .done⟩

/-- Applied to the example module: the returned module is changed, the original keeps its value. -/
example : (∀ c w1, WFWorld w1 → c < w1.heap.length → ∃ K, Steps [c] w1 K (exBody c w1).1) ∧ ∃ w' c, applyModule 3 0 exBody exWorld = (w', .ok ((), c)) ∧
    observe w'.heap c [py! "b", py! "w"] = some (.value (exParam 77)) ∧
    observe w'.heap 0 [py! "b", py! "w"] = some (.value (exParam 5)) :=
  ⟨fun c w _ _ => exBody_steps c w, _, _, rfl, by decide, by decide⟩

end Nnx
