import Verif.Proofs.ScanApply
/-
Computations that establish the hypotheses of the scan theorems for concrete cases.
-/
namespace Nnx
variable {α κ A B C : Type} [DecidableEq α]

omit [DecidableEq α] in
/-- The first filter that matches. -/
def firstIdx (fs : List (Filter α)) (k : Str) (x : PyVal α) : Option Nat := fs.findIdx? (fun f => decide (f.test k x = some true))

omit [DecidableEq α] in
theorem test_iff {f : Filter α} (hf : f.WellFormed) (k : Str) (x : PyVal α) : f.test k x = some true ↔ f.Matches k x := by
  rcases toPredicate_spec f with ⟨_, p, hp, h⟩ | ⟨h, _⟩
  · simp only [Filter.test, hp, Option.some.injEq, h]
  · exact absurd hf h

omit [DecidableEq α] in
theorem firstIdx_iff {fs : List (Filter α)} (hf : ∀ f ∈ fs, f.WellFormed) {k : Str} {x : PyVal α} {g : Nat} :
    FirstMatch fs k x g ↔ firstIdx fs k x = some g := by
  rw [firstIdx, List.findIdx?_eq_some_iff_getElem]
  constructor
  · rintro ⟨⟨f, hfg, hm⟩, hn⟩
    obtain ⟨hlt, rfl⟩ := List.getElem?_eq_some_iff.1 hfg
    refine ⟨hlt, by simpa using (test_iff (hf _ (List.getElem_mem hlt)) k x).2 hm, ?_⟩
    intro j hj
    simp only [decide_eq_true_eq]
    rw [test_iff (hf _ (List.getElem_mem _))]
    exact hn j hj _ (List.getElem?_eq_getElem _)
  · rintro ⟨hlt, h1, h2⟩
    simp only [decide_eq_true_eq] at h1 h2
    refine ⟨⟨_, List.getElem?_eq_getElem hlt, (test_iff (hf _ (List.getElem_mem hlt)) k x).1 h1⟩, ?_⟩
    intro j hj f hfj
    obtain ⟨hlj, rfl⟩ := List.getElem?_eq_some_iff.1 hfj
    rw [← test_iff (hf _ (List.getElem_mem hlj))]
    exact h2 j hj

/-- `t` has, of the entries of `s` in the axes collections, the values `val`, and the broadcast entries. -/
def entriesOk (o : ScanOptions α) (val : Str → PyVal α → Int → Option (PyVal α)) (s t : State (PyVal α)) : Bool :=
  decide (List.Pairwise (fun a b => strLe a.1 b.1 = true ∧ a.1 ≠ b.1) t.mapping) &&
  s.mapping.all (fun kv =>
    match firstIdx o.filters kv.1 kv.2 with
    | none => false
    | some g =>
      match o.variableAxes[g]? with
      | some fa =>
        match val kv.1 kv.2 fa.2 with
        | none => false
        | some y => decide (t.get kv.1 = some y)
      | none => if g = o.variableAxes.length then decide (t.get kv.1 = some kv.2) else true) &&
  t.mapping.all (fun kv =>
    match s.get kv.1 with
    | none => false
    | some x =>
      match firstIdx o.filters kv.1 x with
      | none => false
      | some g => decide (g ≤ o.variableAxes.length))

theorem entriesOk_spec {o : ScanOptions α} (hf : ∀ f ∈ o.filters, f.WellFormed) {val : Str → PyVal α → Int → Option (PyVal α)}
    {s t : State (PyVal α)} (h : entriesOk o val s t = true) :
    StrictSorted t.mapping ∧
    (∀ k x (g : Nat) f a, s.get k = some x → o.variableAxes[g]? = some (f, a) → FirstMatch o.filters k x g →
      ∃ y, val k x a = some y ∧ t.get k = some y) ∧
    (∀ k x, s.get k = some x → FirstMatch o.filters k x o.variableAxes.length → t.get k = some x) ∧
    (∀ k y, t.get k = some y → ∃ x g, s.get k = some x ∧ FirstMatch o.filters k x g ∧ g ≤ o.variableAxes.length) := by
  simp only [entriesOk, Bool.and_eq_true, decide_eq_true_eq, List.all_eq_true] at h
  obtain ⟨⟨h1, h2⟩, h3⟩ := h
  refine ⟨h1, ?_, ?_, ?_⟩
  · intro k x g f a hk hga hfm
    have := h2 (k, x) (dget_mem hk)
    rw [firstIdx_iff hf] at hfm
    simp only [hfm, hga] at this
    split at this
    · cases this
    · next y hy => exact ⟨y, hy, by simpa using this⟩
  · intro k x hk hfm
    have := h2 (k, x) (dget_mem hk)
    rw [firstIdx_iff hf] at hfm
    have hno : o.variableAxes[o.variableAxes.length]? = none := List.getElem?_eq_none (Nat.le_refl _)
    simp only [hfm, hno, if_true, decide_eq_true_eq] at this
    exact this
  · intro k y hk
    have := h3 (k, y) (dget_mem hk)
    split at this
    · cases this
    next x hx =>
    split at this
    · cases this
    next g hg => exact ⟨x, g, hx, (firstIdx_iff hf).2 hg, by simpa using this⟩

theorem isSlice_of_check {R : Arrays α} {o : ScanOptions α} (hf : ∀ f ∈ o.filters, f.WellFormed) {s inp : State (PyVal α)} {i : Nat}
    (h : entriesOk o (fun _ x a => x.mapLeaves (R.index a i)) s inp = true) : IsSlice R o s i inp := by
  obtain ⟨h1, h2, h3, h4⟩ := entriesOk_spec hf h
  refine ⟨h1, ?_, h3, h4⟩
  intro k x g f a e1 e2 e3
  obtain ⟨y, e4, e5⟩ := h2 k x g f a e1 e2 e3
  exact ⟨y, sliceVal_iff.2 e4, e5⟩

theorem isStacked_of_check {R : Arrays α} {o : ScanOptions α} (hf : ∀ f ∈ o.filters, f.WellFormed) {s fin : State (PyVal α)}
    {after : List (State (PyVal α))}
    (h : entriesOk o (fun k _ a => stackVals R a (after.filterMap fun t => t.get k)) s fin = true) : IsStacked R o s after fin := by
  obtain ⟨h1, h2, h3, h4⟩ := entriesOk_spec hf h
  refine ⟨h1, ?_, h3, h4⟩
  intro k x g f a e1 e2 e3
  obtain ⟨y, e4, e5⟩ := h2 k x g f a e1 e2 e3
  exact ⟨y, stackedVal_iff.2 e4, e5⟩

omit [DecidableEq α] in
theorem hasLength_of_check {R : Arrays α} {o : ScanOptions α} (hf : ∀ f ∈ o.filters, f.WellFormed) {s : State (PyVal α)}
    {xs : Option (List A)} {n : Nat}
    (h : (s.mapping.all fun kv =>
      match (firstIdx o.filters kv.1 kv.2).bind (fun g : Nat => o.variableAxes[g]?) with
      | none => true
      | some fa =>
        match kv.2.leaves with
        | none => false
        | some ls => ls.all fun y => decide (R.size fa.2 y = some n)) = true)
    (harg : ∀ as, xs = some as → as.length = n) (hopt : ∀ m, o.length = some m → m = n) (hk : o.length = some n ∨ xs ≠ none) :
    HasLength R o s xs n := by
  refine ⟨?_, harg, hopt, ?_⟩
  · intro k x g f a hk hga hfm
    rw [firstIdx_iff hf] at hfm
    have := List.all_eq_true.1 h (k, x) (dget_mem hk)
    simp only [hfm, Option.bind_some, hga] at this
    split at this
    · cases this
    · next ls hls => exact allArrays_iff.2 ⟨ls, hls, by simpa using this⟩
  · rcases hk with hk | hk
    · exact .inl hk
    · exact .inr (.inl hk)

theorem uniform_of_check {o : ScanOptions α} (hf : ∀ f ∈ o.filters, f.WellFormed) {s : State (PyVal α)}
    {after : List (State (PyVal α))}
    (h1 : ∀ t ∈ after, ∀ t' ∈ after, t.keys = t'.keys)
    (h2 : ∀ t ∈ after, ∀ kv ∈ s.mapping, ∀ y ∈ t.get kv.1, firstIdx o.filters kv.1 y = firstIdx o.filters kv.1 kv.2)
    (h3 : ∀ t ∈ after, ∀ kv ∈ t.mapping, s.get kv.1 = none → firstIdx o.filters kv.1 kv.2 = some (o.variableAxes.length + 1) ∧
      kv.2.leaves ≠ some [])
    (h4 : ∀ t ∈ s :: after, ∀ t' ∈ after, ∀ kv ∈ t.mapping, ∀ y ∈ t'.get kv.1,
      firstIdx o.filters kv.1 y = some (o.variableAxes.length + 1) → kv.2.sameTree y = true) : Uniform o s after := by
  refine ⟨?_, ?_, ?_, ?_, ?_⟩
  · intro t ht t' ht' k
    have := h1 t ht t' ht'
    have hk : ∀ s : State (PyVal α), (s.get k).isSome = true ↔ k ∈ s.keys := fun s => dget_isSome
    rw [Bool.eq_iff_iff, hk, hk, this]
  · intro t ht k x y g hx hy hfm
    rw [firstIdx_iff hf] at hfm ⊢
    rw [h2 t ht (k, x) (dget_mem hx) y hy, hfm]
  · intro t ht k y hk hy
    rw [firstIdx_iff hf]
    exact (h3 t ht (k, y) (dget_mem hy) hk).1
  · intro t ht k hk hy
    obtain ⟨y, hy⟩ := Option.isSome_iff_exists.1 hy
    exact ⟨k, y, hk, hy, fun h => (h3 t ht (k, y) (dget_mem hy) hk).2 (noArrays_iff.1 h)⟩
  · intro t ht t' ht' k x y hx hy hfm
    rw [firstIdx_iff hf] at hfm
    exact sameTree_iff.2 (h4 t ht t' ht' (k, x) (dget_mem hx) y hy hfm)

omit [DecidableEq α] in
def PyVal.notCont : PyVal α → Bool
  | .cont _ _ _ => false
  | _ => true

/-- Whether one attribute was left alone or given a node value of the same kind. -/
def okNode (old new : Option (Attr α)) : Bool :=
  decide (new = old) ||
  match old, new with
  | none, some (.val v) => v.isNode
  | some (.val (.cont c x m)), some (.val (.cont c' y m')) =>
    decide (c = c') && decide (m = m') && (PyVal.cont c' y m').isNode && (PyVal.cont c x m).isNode
  | some (.val u), some (.val v) => u.notCont && v.notCont && v.isNode && u.isNode
  | _, _ => false

theorem nodesOnly_of_check {w w' : World α} {root : Loc}
    (h : ∀ a < w.heap.length, ∀ o ∈ w.heap[a]?, ∀ o' ∈ w'.heap[a]?, ∀ n ∈ dkeys o.attrs ++ dkeys o'.attrs,
      okNode (dget o.attrs n) (dget o'.attrs n) = true)
    (hlen : w.heap.length ≤ w'.heap.length) : NodesOnly w w' root := by
  rintro a n ⟨p, hp⟩
  have ha := hp.lt
  have ho : w.heap[a]? = some w.heap[a] := List.getElem?_eq_getElem ha
  have ho' : w'.heap[a]? = some (w'.heap[a]'(Nat.lt_of_lt_of_le ha hlen)) := List.getElem?_eq_getElem _
  simp only [attrAt, ho, ho']
  generalize hob : w.heap[a] = o at *
  generalize hob' : w'.heap[a]'(Nat.lt_of_lt_of_le ha hlen) = o' at *
  by_cases hn : n ∈ dkeys o.attrs ++ dkeys o'.attrs
  · have := h a ha o ho o' ho' n hn
    generalize dget o.attrs n = old at *
    generalize dget o'.attrs n = new at *
    simp only [okNode, Bool.or_eq_true, decide_eq_true_eq] at this
    rcases this with this | this
    · exact .inl this
    · right
      split at this
      · next v => exact ⟨v, rfl, this, nofun⟩
      · next c x m c' y m' =>
        simp only [Bool.and_eq_true, decide_eq_true_eq] at this
        obtain ⟨⟨⟨rfl, rfl⟩, h1⟩, h2⟩ := this
        refine ⟨_, rfl, h1, ?_⟩
        rintro x' h'
        cases h'
        refine ⟨_, rfl, h2, ?_, ?_⟩
        · intro c0 x0 m0 h0; cases h0; exact ⟨_, rfl⟩
        · intro c0 x0 m0 h0; cases h0; exact ⟨_, rfl⟩
      · next u v _ =>
        simp only [Bool.and_eq_true] at this
        obtain ⟨⟨⟨h1, h2⟩, h3⟩, h4⟩ := this
        refine ⟨_, rfl, h3, ?_⟩
        rintro x' h'
        cases h'
        refine ⟨_, rfl, h4, ?_, ?_⟩
        · intro c0 x0 m0 h0; subst h0; cases h1
        · intro c0 x0 m0 h0; subst h0; cases h2
      · cases this
  · rw [List.mem_append, not_or] at hn
    left
    rw [dget_eq_none.2 hn.1, dget_eq_none.2 hn.2]

end Nnx
