import Verif.Proofs.ScanApply
import Verif.Props.SpmdAxes
import Verif.Props.ModuleUpdate
/-
nnx.scan with a partition name: the axis name is taken out of the sharding of the axes variables in each iteration, and put back.
-/
namespace Nnx
variable {α κ A B C : Type} [DecidableEq α]

/-! ### One value -/

omit [DecidableEq α] in
theorem wfVal_container {c : Cls} {v : PyVal α} {m : Md α} (h : WFVal (.cont c v m)) : WFContainer (.cont c v m) := by
  rcases h with h | h
  · cases h
  · exact h

omit [DecidableEq α] in
theorem shardingOf_kind {x y : PyVal α} (h : SameKind x y) : shardingOf y = shardingOf x := by
  cases x with
  | cont c v m => obtain ⟨u, rfl⟩ := h.1 c v m rfl; rfl
  | _ =>
    cases y with
    | cont c u m => obtain ⟨v, hv⟩ := h.2 c u m rfl; cases hv
    | _ => rfl

omit [DecidableEq α] in
theorem withSharding_kind {x y : PyVal α} (h : SameKind x y) (xs : List (PyVal α)) : SameKind (withSharding x xs) (withSharding y xs) := by
  cases x with
  | cont c v m =>
    obtain ⟨u, rfl⟩ := h.1 c v m rfl
    exact ⟨fun _ _ _ e => by cases e; exact ⟨_, rfl⟩, fun _ _ _ e => by cases e; exact ⟨_, rfl⟩⟩
  | _ =>
    cases y with
    | cont c u m => obtain ⟨v, hv⟩ := h.2 c u m rfl; cases hv
    | _ => exact h

omit [DecidableEq α] in
theorem withSharding_leaves (x : PyVal α) (xs : List (PyVal α)) : (withSharding x xs).leaves = x.leaves := by
  cases x <;> simp only [withSharding, PyVal.leaves]

omit [DecidableEq α] in
theorem withSharding_mapLeaves (g : α → Option α) (x : PyVal α) (xs : List (PyVal α)) :
    (withSharding x xs).mapLeaves g = (x.mapLeaves g).map fun y => withSharding y xs := by
  cases x with
  | cont c v m =>
    simp only [withSharding, PyVal.mapLeaves, Option.map_map]
    cases v.mapLeaves g <;> rfl
  | data c a => simp only [withSharding, PyVal.mapLeaves]; cases g a <;> rfl
  | tup ys => simp only [withSharding, PyVal.mapLeaves]; cases mapLeavesL g ys <;> rfl
  | dict ys => simp only [withSharding, PyVal.mapLeaves]; cases mapLeavesM g ys <;> rfl
  | _ => rfl

omit [DecidableEq α] in
theorem AxisRemoved.leaves {i : Int} {name x x' : PyVal α} (h : AxisRemoved i name x x') : x'.leaves = x.leaves := by
  rcases h with ⟨_, rfl⟩ | ⟨xs, n, _, _, _, rfl⟩
  · rfl
  · exact withSharding_leaves _ _

omit [DecidableEq α] in
theorem AxisRemoved.node {i : Int} {name x x' : PyVal α} (h : AxisRemoved i name x x') : x'.isNode = x.isNode := by
  rcases h with ⟨_, rfl⟩ | ⟨xs, n, h, _, _, rfl⟩
  · rfl
  · obtain ⟨c, v, m, rfl, _⟩ := shardingOf_some h; rfl

omit [DecidableEq α] in
theorem AxisRemoved.kind {i : Int} {name x x' y : PyVal α} (h : AxisRemoved i name x x') (hk : SameKind x y) :
    ∃ y', AxisRemoved i name y y' ∧ SameKind x' y' := by
  rcases h with ⟨h, rfl⟩ | ⟨xs, n, h, hi, hn, rfl⟩
  · exact ⟨y, .inl ⟨(shardingOf_kind hk).trans h, rfl⟩, hk⟩
  · exact ⟨_, .inr ⟨xs, n, (shardingOf_kind hk).trans h, hi, hn, rfl⟩, withSharding_kind hk _⟩

omit [DecidableEq α] in
/-- Slices. -/
theorem AxisRemoved.mapLeaves {i : Int} {name x x' y' : PyVal α} (h : AxisRemoved i name x x') {g : α → Option α}
    (hm : x'.mapLeaves g = some y') : ∃ y, x.mapLeaves g = some y ∧ AxisRemoved i name y y' := by
  rcases h with ⟨h, rfl⟩ | ⟨xs, n, h, hi, hn, rfl⟩
  · exact ⟨y', hm, .inl ⟨(shardingOf_kind (mapLeaves_like hm).2.2).trans h, rfl⟩⟩
  · rw [withSharding_mapLeaves, Option.map_eq_some_iff] at hm
    obtain ⟨y, hy, rfl⟩ := hm
    exact ⟨y, hy, .inr ⟨xs, n, (shardingOf_kind (mapLeaves_like hy).2.2).trans h, hi, hn, rfl⟩⟩

/-- `remove_axis` of one value. -/
theorem AxisRemoved.remove {i : Int} {name x x' : PyVal α} (h : AxisRemoved i name x x') (hx : WFVal x) :
    removeAxisLeaf i name x = .ok x' := by
  rcases h with ⟨h, rfl⟩ | ⟨xs, n, h, rfl, hn, rfl⟩
  · simp only [removeAxisLeaf, h]
  · obtain ⟨c, v, m, rfl, _⟩ := shardingOf_some h
    simp only [removeAxisLeaf, h, pyPop_nat, hn, Option.map_some, if_true]
    exact replace_sharding (wfVal_container hx) h _

/-- What attribute `x` holds when the value `y` is assigned to it. -/
def renamed (x : Option (PyVal α)) (y : PyVal α) : PyVal α := newValue (x.map .val) y

omit [DecidableEq α] in
theorem renamed_kind {i : Int} {name x x' y : PyVal α} (h : AxisRemoved i name x x') (hk : SameKind x' y) :
    SameKind x (renamed (some x) y) := by
  cases x with
  | cont c v m => exact ⟨fun _ _ _ e => by cases e; exact ⟨_, rfl⟩, fun _ _ _ e => by cases e; exact ⟨_, rfl⟩⟩
  | _ =>
    rcases h with ⟨_, rfl⟩ | ⟨xs, n, h, _⟩
    · exact hk
    · cases h

/-- `add_axis` of one value that was changed by the iteration. -/
theorem AxisRemoved.add {i : Int} {name x x' y : PyVal α} (h : AxisRemoved i name x x') (hk : SameKind x' y) (hy : WFVal y) :
    addAxisLeaf i name y = .ok (renamed (some x) y) := by
  rcases h with ⟨h, rfl⟩ | ⟨xs, n, h, rfl, hn, rfl⟩
  · have : shardingOf y = none := (shardingOf_kind hk).trans h
    simp only [addAxisLeaf, this]
    cases x' with
    | cont c v m => obtain ⟨u, rfl⟩ := hk.1 c v m rfl; rfl
    | _ => rfl
  · have hs := shardingOf_withSharding h (xs.eraseIdx n)
    have hsy : shardingOf y = some (xs.eraseIdx n) := (shardingOf_kind hk).trans hs
    obtain ⟨c, v, m, rfl, _, hm⟩ := shardingOf_some h
    obtain ⟨u, rfl⟩ := hk.1 c v _ rfl
    have hpop : pyPop xs n = some (name, xs.eraseIdx n) := by rw [pyPop_nat, hn]; rfl
    obtain ⟨hle, hins⟩ := insert_pop hpop
    have hpad : padTo (xs.eraseIdx n) (n : Int) = xs.eraseIdx n := padTo_le _ _ (by exact_mod_cast hle)
    simp only [addAxisLeaf, hsy]
    rw [hpad, hins, replace_sharding (wfVal_container hy) hsy]
    simp only [withSharding, renamed, Option.map_some, newValue, dset_dset_self, dset_get_self m _ _ hm, PyVal.valueOf]

/-- Stacking. -/
theorem stack_renamed {i j : Int} {name x x' : PyVal α} (h : AxisRemoved i name x x') {R : Arrays α} {ys : List (PyVal α)}
    (hk : ∀ y ∈ ys, SameKind x' y) {v : PyVal α} (hv : stackVals R j ys = some v) :
    stackVals R j (ys.map (renamed (some x))) = some (renamed (some x) v) := by
  by_cases hc : ∃ c u m, x = .cont c u m
  · obtain ⟨c, u, m, rfl⟩ := hc
    obtain ⟨m', hx'⟩ : ∃ m', x' = .cont c u m' := by
      rcases h with ⟨_, rfl⟩ | ⟨xs, n, _, _, _, rfl⟩
      · exact ⟨_, rfl⟩
      · exact ⟨_, rfl⟩
    subst hx'
    have hall : ∀ m'' (zs : List (PyVal α)), (∀ y ∈ zs, SameKind (.cont c u m') y) →
        allSome ((zs.map fun y => PyVal.cont c y.valueOf m'').map (asCont c m'')) = some (zs.map PyVal.valueOf) := by
      intro m'' zs
      induction zs with
      | nil => intro _; rfl
      | cons z zs ih =>
        intro hz
        simp only [List.map_cons, asCont, and_self, if_true, allSome]
        have := ih fun y hy => hz y (List.mem_cons_of_mem _ hy)
        simp only [List.map_map] at this ⊢
        rw [this]; rfl
    have hid : ys = ys.map fun y => PyVal.cont c y.valueOf m' := by
      have : ys.map (fun y => PyVal.cont c y.valueOf m') = ys.map id := by
        refine List.map_congr_left ?_
        intro y hy
        obtain ⟨z, rfl⟩ := (hk y hy).1 c u m' rfl
        rfl
      rw [this, List.map_id]
    have hall' := hall m' ys hk
    rw [← hid] at hall'
    cases ys with
    | nil => cases hv
    | cons y ys =>
      obtain ⟨z, rfl⟩ := (hk y List.mem_cons_self).1 c u m' rfl
      simp only [stackVals, PyVal.zipLeaves, hall', Option.map_eq_some_iff] at hv
      obtain ⟨r, hr, rfl⟩ := hv
      have hall2 := hall m (.cont c z m' :: ys) hk
      simp only [List.map_cons] at hall2
      simp only [stackVals, List.map_cons, renamed, Option.map_some, newValue, PyVal.zipLeaves]
      rw [show (ys.map (renamed (some (.cont c u m)))) = ys.map fun y => PyVal.cont c y.valueOf m from rfl, hall2]
      simp only [List.map_cons, PyVal.valueOf] at hr ⊢
      rw [hr]; rfl
  · have hren : ∀ y, renamed (some x) y = y := by
      intro y
      cases x with
      | cont c u m => exact absurd ⟨c, u, m, rfl⟩ hc
      | _ => rfl
    have : ys.map (renamed (some x)) = ys.map id := List.map_congr_left fun y _ => hren y
    rw [this, List.map_id, hren, hv]

/-! ### States -/

omit [DecidableEq α] in
theorem mapExcept_of {X Y : Type} {f : X → Except Err Y} : ∀ {xs : List X} {ys : List Y}, List.Forall₂ (fun x y => f x = .ok y) xs ys →
    mapExcept f xs = .ok ys := by
  intro xs ys h
  induction h with
  | nil => rfl
  | cons h _ ih => simp only [mapExcept, h, ih]

omit [DecidableEq α] in
theorem treeMapExcept_eq {f : PyVal α → Except Err (PyVal α)} {s s' : State (PyVal α)} (hs : s.Canonical) (hs' : s'.Canonical)
    (h : ∀ k x, s.get k = some x → ∃ y, f x = .ok y ∧ s'.get k = some y) (hn : ∀ k, s.get k = none → s'.get k = none) :
    s.treeMapExcept f = .ok s' := by
  have hkeys : s.keys = s'.keys := keys_of_gets hs hs' fun k => by
    cases hk : s.get k with
    | none => rw [hn k hk]
    | some x => obtain ⟨y, _, hy⟩ := h k x hk; rw [hy]; rfl
  have hlen : s'.flatten.1.length = s.keys.length := by
    rw [hkeys]
    simp [State.flatten, State.items, State.keys, dkeys]
  have hm : mapExcept f s.flatten.1 = .ok s'.flatten.1 := by
    refine mapExcept_of (List.forall₂_iff_get.2 ⟨?_, ?_⟩)
    · rw [hlen]; simp [State.flatten, State.items, State.keys, dkeys]
    · intro i h1 h2
      simp only [State.flatten, State.items, List.length_map] at h1 h2
      have hki : s.mapping[i].1 = s'.mapping[i].1 := by
        have := congrArg (fun l => l[i]?) hkeys
        simp only [State.keys, dkeys, List.getElem?_map, List.getElem?_eq_getElem h1, List.getElem?_eq_getElem h2, Option.map_some,
          Option.some.injEq] at this
        exact this
      obtain ⟨y, hy, hy'⟩ := h s.mapping[i].1 s.mapping[i].2 (mem_dget hs.nodup (List.getElem_mem h1))
      have : s'.get s'.mapping[i].1 = some s'.mapping[i].2 := mem_dget hs'.nodup (List.getElem_mem h2)
      rw [← hki, hy'] at this
      cases this
      simpa [State.flatten, State.items] using hy
  simp only [State.treeMapExcept, hm]
  congr 1
  obtain ⟨hc, hu⟩ := State.unflatten_canonical hs (leaves := s'.flatten.1) (by simpa [State.flatten, State.items, State.keys, dkeys] using hlen)
  refine State.Canonical.ext hc hs' ?_
  intro k
  have : s.keys.zip s'.flatten.1 = s'.mapping := by
    rw [hkeys]
    simp only [State.keys, dkeys, State.flatten, State.items]
    generalize s'.mapping = m
    induction m with
    | nil => rfl
    | cons a m ih => simp only [List.map_cons, List.zip_cons_cons, ih]
  rw [State.get, hu, this]
  rfl

/-! ### The module without the axis name -/

variable {w w' : World α} {l : Loc} {o : ScanOptions α} {name : PyVal α} {s0 : State (PyVal α)}

omit [DecidableEq α] in
/-- What an attribute is without the axis name. -/
theorem Unnamed.attr (U : Unnamed o name l s0 w w') (a : Loc) (n : Str) : attrAt w'.heap a n = attrAt w.heap a n ∨
    ∃ k x x' g f i, s0.get k = some x ∧ o.variableAxes[(g : Nat)]? = some (f, i) ∧ FirstMatch o.filters k x g ∧
      Addresses w.heap l k a n ∧ AxisRemoved i name x x' ∧ FirstMatch o.filters k x' g ∧ attrAt w'.heap a n = some (.val x') := by
  by_cases h : ∃ k x g, s0.get k = some x ∧ g < o.variableAxes.length ∧ FirstMatch o.filters k x g ∧ Addresses w.heap l k a n
  · obtain ⟨k, x, g, hk, hg, hfm, ha⟩ := h
    have hge : o.variableAxes[g]? = some (o.variableAxes[g].1, o.variableAxes[g].2) := List.getElem?_eq_getElem hg
    obtain ⟨x', h1, h2, h3⟩ := U.axes k x g _ _ a n hk hge hfm ha
    exact .inr ⟨k, x, x', g, _, _, hk, hge, hfm, ha, h1, h2, h3⟩
  · left
    exact U.rest a n fun k x g hk hg hfm ha => h ⟨k, x, g, hk, hg, hfm, ha⟩

omit [DecidableEq α] in
theorem Unnamed.attr' (U : Unnamed o name l s0 w w') (wf : WFWorld w) (hl : l < w.heap.length) {f : Nat}
    (hs : getState f w.heap l = some s0) (a : Loc) (n : Str) : attrAt w'.heap a n = attrAt w.heap a n ∨
    ∃ k x x' g f i, s0.get k = some x ∧ o.variableAxes[(g : Nat)]? = some (f, i) ∧ FirstMatch o.filters k x g ∧
      Addresses w.heap l k a n ∧ AxisRemoved i name x x' ∧ FirstMatch o.filters k x' g ∧ attrAt w'.heap a n = some (.val x') ∧
      attrAt w.heap a n = some (.val x) ∧ x.isNode = true := by
  rcases U.attr a n with h | ⟨k, x, x', g, f, i, h1, h2, h3, h4, h5, h6, h7⟩
  · exact .inl h
  · obtain ⟨a', n', h8, h9, h10⟩ := (state_paths wf.heap hl hs).1 k x h1
    obtain ⟨rfl, rfl⟩ := h4.functional h8
    exact .inr ⟨k, x, x', g, f, i, h1, h2, h3, h4, h5, h6, h7, h9, h10⟩

omit [DecidableEq α] in
theorem Unnamed.refs (U : Unnamed o name l s0 w w') (wf : WFWorld w) (hl : l < w.heap.length) {f : Nat}
    (hs : getState f w.heap l = some s0) (a : Loc) (n : Str) (b : Loc) :
    attrAt w'.heap a n = some (.ref b) ↔ attrAt w.heap a n = some (.ref b) := by
  rcases U.attr' wf hl hs a n with h | ⟨k, x, x', g, f, i, _, _, _, _, _, _, h1, h2, _⟩
  · rw [h]
  · rw [h1, h2]; constructor <;> (intro h; cases h)

omit [DecidableEq α] in
theorem Unnamed.walk (U : Unnamed o name l s0 w w') (wf : WFWorld w) (hl : l < w.heap.length) {f : Nat}
    (hs : getState f w.heap l = some s0) (a : Loc) (p : List Str) (b : Loc) : Walk w'.heap a p b ↔ Walk w.heap a p b :=
  ⟨fun h => h.congr U.objects.len.symm fun l n b hb => (U.refs wf hl hs l n b).1 hb,
    fun h => h.congr U.objects.len fun l n b hb => (U.refs wf hl hs l n b).2 hb⟩

omit [DecidableEq α] in
theorem Unnamed.core (U : Unnamed o name l s0 w w') (wf : WFWorld w) (wf' : WFWorld w') (hl : l < w.heap.length) {f : Nat}
    (hs : getState f w.heap l = some s0) : CoreEq w.heap w'.heap l := by
  rintro a ⟨q, hq⟩
  have hlt := hq.lt
  have ho : w.heap[a]? = some w.heap[a] := List.getElem?_eq_getElem hlt
  have hlt' : a < w'.heap.length := by rw [U.objects.len]; exact hlt
  have ho' : w'.heap[a]? = some w'.heap[a] := List.getElem?_eq_getElem hlt'
  obtain ⟨e1, e2, e3, _⟩ := U.objects.obj a _ _ ho ho'
  refine ⟨_, _, ho, ho', e2, e1, e3, ?_⟩
  refine core_sort (wf'.heap.nodup _ _ ho') (wf.heap.nodup _ _ ho) ?_
  intro n x hx
  have hat : ∀ h : Heap α, ∀ o, h[a]? = some o → attrAt h a n = dget o.attrs n := by
    intro h o ho; simp only [attrAt, ho]
  rw [← hat _ _ ho, ← hat _ _ ho']
  rcases U.attr' wf hl hs a n with h | ⟨k, y, y', g, f, i, _, _, _, _, h5, _, h1, h2, h3⟩
  · rw [h]
  · rw [h1, h2]
    have h4 := h5.node
    constructor
    · intro h; cases h
      rw [Attr.isNode, h4, h3] at hx; cases hx
    · intro h; cases h
      rw [Attr.isNode, h3] at hx; cases hx

/-- The state without the axis name. -/
structure UnnamedState (o : ScanOptions α) (name : PyVal α) (s s' : State (PyVal α)) : Prop where
  none : ∀ k, s.get k = none → s'.get k = none
  axes : ∀ k x (g : Nat) f i, s.get k = some x → o.variableAxes[g]? = some (f, i) → FirstMatch o.filters k x g →
    ∃ x', AxisRemoved i name x x' ∧ FirstMatch o.filters k x' g ∧ s'.get k = some x'
  rest : ∀ k x (g : Nat), s.get k = some x → FirstMatch o.filters k x g → o.variableAxes.length ≤ g → s'.get k = some x

omit [DecidableEq α] in
theorem Unnamed.state (U : Unnamed o name l s0 w w') (wf : WFWorld w) (wf' : WFWorld w') (hl : l < w.heap.length) {f f' : Nat}
    (hs : getState f w.heap l = some s0) {s' : State (PyVal α)} (hs' : getState f' w'.heap l = some s') : UnnamedState o name s0 s' := by
  have hl' : l < w'.heap.length := by rw [U.objects.len]; exact hl
  obtain ⟨vs, S, d, _, hg⟩ := getState_spec wf.heap hl hs
  obtain ⟨vs', S', d', _, hg'⟩ := getState_spec wf'.heap hl' hs'
  have d2 := d.core wf.heap (U.core wf wf' hl hs) (.here hl)
  obtain ⟨rfl, rfl⟩ := d2.functional d'
  have haddr : ∀ z ∈ vs', ∀ n v, attrAt w.heap z.1 n = some v → Addresses w.heap l (joinSlash (z.2 ++ [n])) z.1 n := by
    intro z hz n v hv
    have hwk := d.walk wf.heap isOrder_sort (.here hl) z hz
    refine ⟨z.2, ?_, hwk⟩
    rw [split_join (by simp)]
    intro t ht
    rcases List.mem_append.1 ht with h' | h'
    · exact hwk.noSlash wf.heap t h'
    · simp at h'; subst h'; exact wf.heap.slash _ _ _ hv
  refine ⟨?_, ?_, ?_⟩
  · intro k hk
    cases hk' : s'.get k with
    | none => rfl
    | some x' =>
      exfalso
      obtain ⟨z, hz, n, h1, h2, rfl⟩ := (hg' k x').1 hk'
      rcases U.attr' wf hl hs z.1 n with h | ⟨k1, y, y', g, f, i, _, _, _, _, _, _, _, h3, h4⟩
      · rw [(hg _ x').2 ⟨z, hz, n, h.symm.trans h1, h2, rfl⟩] at hk; cases hk
      · rw [(hg _ y).2 ⟨z, hz, n, h3, h4, rfl⟩] at hk; cases hk
  · intro k x g f i hk hgi hfm
    obtain ⟨z, hz, n, h1, h2, rfl⟩ := (hg k x).1 hk
    obtain ⟨x', h3, h4, h5⟩ := U.axes _ x g f i z.1 n hk hgi hfm (haddr z hz n _ h1)
    exact ⟨x', h3, h4, (hg' _ x').2 ⟨z, hz, n, h5, by rw [h3.node]; exact h2, rfl⟩⟩
  · intro k x g hk hfm hge
    obtain ⟨z, hz, n, h1, h2, rfl⟩ := (hg k x).1 hk
    refine (hg' _ x).2 ⟨z, hz, n, ?_, h2, rfl⟩
    rcases U.attr' wf hl hs z.1 n with h | ⟨k1, y, y', g1, f, i, h3, h4, h5, h6, _, _, _, h7, _⟩
    · rw [h]; exact h1
    · exfalso
      have := (state_paths wf.heap hl hs).2.1 _ _ _ _ (by rw [h3]; rfl) (by rw [hk]; rfl) h6 (haddr z hz n _ h1)
      subst this
      rw [hk] at h3; cases h3
      have := h5.unique hfm
      subst this
      exact absurd (List.getElem?_eq_some_iff.1 h4).1 (by omega)

/-- The options without metadata. -/
def ScanOptions.plain (o : ScanOptions α) : ScanOptions α := { o with metadata := [] }

variable {d : ModuleDef α} {ss0 ss' : List (State (PyVal α))} {b c0 s' : State (PyVal α)} {R : Arrays α}

omit [DecidableEq α] in
theorem UnnamedState.group (S : Setup w l o.plain s0 d ss0 b c0) (US : UnnamedState o name s0 s') {k : Str} {x' : PyVal α} {g : Nat}
    (hk : s'.get k = some x') (hfm : FirstMatch o.filters k x' g) : ∃ x, s0.get k = some x ∧ FirstMatch o.filters k x g := by
  cases h0 : s0.get k with
  | none => rw [US.none k h0] at hk; cases hk
  | some x =>
    obtain ⟨g1, hf1, _⟩ := S.first h0
    refine ⟨x, rfl, ?_⟩
    by_cases hg1 : g1 < o.variableAxes.length
    · obtain ⟨y, _, h2, h3⟩ := US.axes k x g1 o.variableAxes[g1].1 o.variableAxes[g1].2 h0 (List.getElem?_eq_getElem hg1) hf1
      rw [hk] at h3; cases h3
      have := hfm.unique h2
      subst this
      exact hf1
    · have h3 := US.rest k x g1 h0 hf1 (Nat.le_of_not_lt hg1)
      rw [hk] at h3; cases h3
      have := hfm.unique hf1
      subst this
      exact hf1

omit [DecidableEq α] in
theorem UnnamedState.same_group (S : Setup w l o.plain s0 d ss0 b c0) (US : UnnamedState o name s0 s') {g : Nat}
    (hg : o.variableAxes.length ≤ g) {t t' : State (PyVal α)} (ht : IsGroup o s0 g t) (ht' : IsGroup o s' g t') : t' = t := by
  refine State.Canonical.ext ht'.1 ht.1 ?_
  intro k
  have key : ∀ x, t'.get k = some x ↔ t.get k = some x := by
    intro x
    rw [ht'.2, ht.2]
    constructor
    · rintro ⟨h1, h2⟩
      obtain ⟨y, h3, h4⟩ := US.group S h1 h2
      have := US.rest k y g h3 h4 hg
      rw [h1] at this; cases this
      exact ⟨h3, h4⟩
    · rintro ⟨h1, h2⟩
      exact ⟨US.rest k x g h1 h2 hg, h2⟩
  cases h : t'.get k with
  | none =>
    cases h2 : t.get k with
    | none => rfl
    | some x => rw [(key x).2 h2] at h; cases h
  | some x => rw [(key x).1 h]

omit [DecidableEq α] in
/-- The scan of the module without the axis name, without a partition name. -/
theorem Unnamed.setup (U : Unnamed o name l s0 w w') (S : Setup w l o.plain s0 d ss0 b c0) (wf' : WFWorld w')
    {k : Nat} (hs0 : getState k w'.heap l = some s') :
    UnnamedState o name s0 s' ∧ ∃ ss', Setup w' l o.plain s' d ss' b c0 := by
  have hl' : l < w'.heap.length := by rw [U.objects.len]; exact S.hl
  have hs' : getState (w'.heap.length + 1) w'.heap l = some s' := by
    obtain ⟨s2, h2⟩ := getState_exists wf'.1 hl' (Nat.lt_succ_self _)
    rw [getState_det wf'.1 hl' hs0 h2]; exact h2
  have US := U.state S.wf wf' S.hl S.state hs'
  obtain ⟨ss', hp⟩ := partition_of_matches S.obtainable (getState_obtainable hs') S.part (by
    intro k v hk
    cases h0 : s0.get k with
    | none => rw [US.none k h0] at hk; cases hk
    | some x =>
      obtain ⟨g1, hf1, _⟩ := S.first h0
      by_cases hg1 : g1 < o.variableAxes.length
      · obtain ⟨y, _, h2, h3⟩ := US.axes k x g1 o.variableAxes[g1].1 o.variableAxes[g1].2 h0 (List.getElem?_eq_getElem hg1) hf1
        rw [hk] at h3; cases h3
        exact ⟨_, h2⟩
      · have h3 := US.rest k x g1 h0 hf1 (Nat.le_of_not_lt hg1)
        rw [hk] at h3; cases h3
        exact ⟨_, hf1⟩)
  obtain ⟨hlen, hfm⟩ := C01_partition_first_match (getState_obtainable hs') hp
  rw [filters_length] at hlen
  have hgr : ∀ (g : Nat) t, ss'[g]? = some t → IsGroup o s' g t := fun g t h =>
    ⟨(Obtainable.partition (getState_obtainable hs') hp (List.mem_of_getElem? h)).canonical, fun k x => hfm g t h k x⟩
  have hb2 : ss'[o.plain.variableAxes.length]? = some ss'[o.plain.variableAxes.length] := List.getElem?_eq_getElem (by omega)
  have hc2 : ss'[o.plain.variableAxes.length + 1]? = some ss'[o.plain.variableAxes.length + 1] := List.getElem?_eq_getElem (by omega)
  have eb := US.same_group S (Nat.le_refl _) (S.group S.bcast) (hgr _ _ hb2)
  have ec := US.same_group S (Nat.le_succ _) (S.group S.carry) (hgr _ _ hc2)
  rw [eb] at hb2
  rw [ec] at hc2
  refine ⟨US, ss', wf', hl', ?_, hs', ?_, hp, hb2, hc2, rfl⟩
  · rintro a ob ⟨q, hq⟩ ho
    have hq' := (U.walk S.wf S.hl S.state l q a).1 hq
    have hlt := hq'.lt
    have ho' : w.heap[a]? = some w.heap[a] := List.getElem?_eq_getElem hlt
    have := S.valid a _ ⟨q, hq'⟩ ho'
    obtain ⟨_, _, _, e4⟩ := U.objects.obj a _ _ ho' ho
    rw [traceValid_eq] at this ⊢
    rw [e4, this]
    simp only [World.curTrace, U.objects.jax, U.objects.stack]
  · rw [U.objects.len, ← S.def_]
    simp only [getModuleDef, makeDefRec_core S.wf.heap (U.core S.wf wf' S.hl S.state) _ l [] ⟨[], .here S.hl⟩]

/-! ### One iteration -/

/-- A step's input with and without the axis name. -/
def NamedIn (o : ScanOptions α) (x x' : StepIn α κ A) : Prop :=
  x.ctx = x'.ctx ∧ x.arg = x'.arg ∧ onAxes removeAxis o x.axes = .ok x'.axes

/-- A step's output without and with the axis name. -/
def NamedOut (o : ScanOptions α) (y yn : StepOut α B) : Prop :=
  onAxes addAxis o y.axes = .ok yn.axes ∧ yn.bcastNew = y.bcastNew ∧ yn.carryNew = y.carryNew ∧ yn.out = y.out

theorem scanFn_named {fuel j : Nat} {f : Option (PureContext κ) → C → Option A → Loc → World α → World α × Except Err (C × B)}
    {cc cc' : State (PyVal α) × C} {x x' : StepIn α κ A} {y yn : StepOut α B} {u u' : World α}
    (h : scanFn fuel o.plain j d b f cc x' u = (u', .ok (cc', y))) (hx : NamedIn o x x') (hy : NamedOut o y yn) :
    scanFn fuel o j d b f cc x u = (u', .ok (cc', yn)) := by
  obtain ⟨h1, h2, h3⟩ := hx
  obtain ⟨g1, g2, g3, g4⟩ := hy
  have hpl : ∀ g (ss : List (State (PyVal α))), onAxes g o.plain ss = .ok ss := fun _ _ => rfl
  simp only [scanFn, hpl] at h
  simp only [scanFn, h3, h1, h2]
  rcases hr : insideTrace j none (mergeAndRun d (x'.axes ++ [b, cc.1]) (f x'.ctx cc.2 x'.arg)) u with ⟨u1, e | ⟨l', c, z⟩⟩
  · rw [hr] at h; cases h
  · rw [hr] at h
    dsimp only at h ⊢
    have hfl : o.plain.filters = o.filters := rfl
    rw [hfl] at h
    cases hpm : partitionModule fuel u1.heap l' o.filters with
    | error e => rw [hpm] at h; cases h
    | ok r =>
      obtain ⟨ss, d'⟩ := r
      rw [hpm] at h
      dsimp only at h ⊢
      have hva : o.plain.variableAxes = o.variableAxes := rfl
      rw [hva] at h
      cases hsg : splitGroups o.variableAxes.length ss with
      | none => rw [hsg] at h; cases h
      | some t =>
        obtain ⟨ax, bo, co⟩ := t
        rw [hsg] at h
        dsimp only at h ⊢
        cases h
        dsimp only at g1 g2 g3 g4
        rw [g1]
        obtain ⟨axn, bn, cn, on⟩ := yn
        dsimp only at g2 g3 g4 ⊢
        rw [g2, g3, g4]

theorem laxScan_named {fuel j : Nat} {f : Option (PureContext κ) → C → Option A → Loc → World α → World α × Except Err (C × B)}
    {xs xs' : List (StepIn α κ A)} (hx : List.Forall₂ (NamedIn o) xs xs') : ∀ {cc cc' : State (PyVal α) × C} {ys ysn : List (StepOut α B)}
    {u u' : World α}, laxScan (scanFn fuel o.plain j d b f) cc xs' u = (u', .ok (cc', ys)) → List.Forall₂ (NamedOut o) ys ysn →
    laxScan (scanFn fuel o j d b f) cc xs u = (u', .ok (cc', ysn)) := by
  induction hx with
  | nil => intro cc cc' ys ysn u u' h hy; cases h; cases hy; rfl
  | @cons x x' xs xs' hx _ ih =>
    intro cc cc' ys ysn u u' h hy
    simp only [laxScan] at h ⊢
    rcases hs : scanFn fuel o.plain j d b f cc x' u with ⟨u1, e | ⟨c1, y⟩⟩
    · rw [hs] at h; cases h
    · rw [hs] at h
      dsimp only at h
      cases ht : sameTrees cc.1 c1.1 with
      | false => rw [ht] at h; simp only [Bool.false_eq_true, if_false] at h; cases h
      | true =>
        rw [ht] at h
        simp only [if_true] at h
        rcases hl : laxScan (scanFn fuel o.plain j d b f) c1 xs' u1 with ⟨u2, e | ⟨c2, ys2⟩⟩
        · rw [hl] at h; cases h
        · rw [hl] at h
          cases h
          cases hy with
          | cons hy1 hy2 =>
            rw [scanFn_named hs hx hy1]
            simp only [ht, if_true]
            rw [ih hl hy2]

theorem scanCore_named {fuel j : Nat} {f : Option (PureContext κ) → C → Option A → Loc → World α → World α × Except Err (C × B)}
    {xs xs' : List (StepIn α κ A)} (hrev : o.reverse = false) (hx : List.Forall₂ (NamedIn o) xs xs') {cc cc' : State (PyVal α) × C}
    {pre ysNew pren ysNewn : List (StepOut α B)} {u u' : World α}
    (h : scanCore fuel o.plain j d b f cc xs' u = (u', .ok (cc', pre ++ ysNew, ysNew))) (hp : List.Forall₂ (NamedOut o) pre pren)
    (hn : List.Forall₂ (NamedOut o) ysNew ysNewn) :
    scanCore fuel o j d b f cc xs u = (u', .ok (cc', pren ++ ysNewn, ysNewn)) := by
  have hrev' : o.plain.reverse = false := hrev
  cases hx with
  | nil => simp only [scanCore, hrev', Bool.false_eq_true, if_false, List.head?_nil] at h; cases h
  | @cons x x' xs xs' hx1 hxs =>
    simp only [scanCore, hrev', Bool.false_eq_true, if_false, List.head?_cons, laxScanDir, List.take_succ_cons, List.take_zero,
      List.drop_succ_cons, List.drop_zero] at h
    simp only [scanCore, hrev, Bool.false_eq_true, if_false, List.head?_cons, laxScanDir, List.take_succ_cons, List.take_zero,
      List.drop_succ_cons, List.drop_zero]
    rcases hs : scanFn fuel o.plain j d b f cc x' u with ⟨u1, e | ⟨c1, y⟩⟩
    · rw [hs] at h; cases h
    · rw [hs] at h
      dsimp only at h
      cases hl : y.carryNew.hasLeaves with
      | true =>
        rw [hl] at h
        simp only [if_true, laxScan, hs] at h
        cases ht : sameTrees cc.1 c1.1 with
        | false => rw [ht] at h; simp only [Bool.false_eq_true, if_false] at h; cases h
        | true =>
          rw [ht] at h
          simp only [if_true] at h
          rcases h2 : laxScan (scanFn fuel o.plain j d (b.merge [y.bcastNew]) f) (c1.1.merge [y.carryNew], c1.2) xs' u1 with ⟨u2, e | ⟨c2, ys2⟩⟩
          · rw [h2] at h; cases h
          · rw [h2] at h
            simp only [Prod.mk.injEq, Except.ok.injEq] at h
            obtain ⟨rfl, rfl, h3, rfl⟩ := h
            have hpre : pre = [y] := List.append_cancel_right h3.symm
            subst hpre
            cases hp with
            | cons hy1 hp =>
            cases hp with
            | nil =>
            next yn =>
            have e1 := scanFn_named hs hx1 hy1
            have hcn := hy1.2.2.1
            have hbn := hy1.2.1
            rw [e1]
            dsimp only
            rw [hcn, hl]
            simp only [if_true, laxScan, e1, ht]
            rw [hcn, hbn, laxScan_named hxs h2 hn]
      | false =>
        rw [hl] at h
        simp only [Bool.false_eq_true, if_false] at h
        rcases h2 : laxScan (scanFn fuel o.plain j d b f) cc (x' :: xs') u with ⟨u2, e | ⟨c2, ys2⟩⟩
        · rw [h2] at h; cases h
        · rw [h2] at h
          simp only [Prod.mk.injEq, Except.ok.injEq] at h
          obtain ⟨rfl, rfl, h3, rfl⟩ := h
          have hpre : pre = [] := by
            have := congrArg List.length h3
            rw [List.length_append] at this
            exact List.eq_nil_of_length_eq_zero (by omega)
          subst hpre
          cases hp with
          | nil =>
          have hall := laxScan_named (.cons hx1 hxs) h2 hn
          have hy : ∃ yn, NamedOut o y yn := by
            simp only [laxScan, hs] at h2
            split at h2
            · rcases h4 : laxScan (scanFn fuel o.plain j d b f) c1 xs' u1 with ⟨u3, e | ⟨c3, ys3⟩⟩
              · rw [h4] at h2; cases h2
              · rw [h4] at h2
                cases h2
                cases hn with
                | cons h5 _ => exact ⟨_, h5⟩
            · cases h2
          obtain ⟨yn, hy⟩ := hy
          rw [scanFn_named hs hx1 hy]
          dsimp only
          rw [hy.2.2.1, hl]
          simp only [Bool.false_eq_true, if_false]
          rw [hall]
          rfl

/-! ### The slices -/

/-- One axes state, and its slice. -/
theorem slice_named (S : Setup w l o.plain s0 d ss0 b c0) (S' : Setup w' l o.plain s' d ss' b c0) (US : UnnamedState o name s0 s')
    (hname : dget o.metadata kPartitionName = some name) {g : Nat} {f : Filter α} {a : Int} (hga : o.variableAxes[g]? = some (f, a))
    {t t' r' : State (PyVal α)} (ht : ss0[g]? = some t) (ht' : ss'[g]? = some t') {i : Nat} (hr : sliceState R a i t' = some r') :
    ∃ r, sliceState R a i t = some r ∧ removeAxis r a o.metadata = .ok r' := by
  have hgr := S.group ht
  have hgr' := S'.group ht'
  have hrel : ∀ k x, t.get k = some x → ∃ x', AxisRemoved a name x x' ∧ t'.get k = some x' ∧ WFVal x := by
    intro k x hk
    obtain ⟨h1, h2⟩ := (hgr.2 k x).1 hk
    obtain ⟨x', h3, h4, h5⟩ := US.axes k x g f a h1 hga h2
    exact ⟨x', h3, (hgr'.2 k x').2 ⟨h5, h4⟩, ((Evolves.refl S.wf l).values S.hl S.state h1).1⟩
  have hnone : ∀ k, t.get k = none → t'.get k = none := by
    intro k hk
    cases h : t'.get k with
    | none => rfl
    | some x' =>
      obtain ⟨h1, h2⟩ := (hgr'.2 k x').1 h
      obtain ⟨x, h3, h4⟩ := US.group S h1 h2
      rw [(hgr.2 k x).2 ⟨h3, h4⟩] at hk; cases hk
  obtain ⟨hcr', hget'⟩ := mapVals_spec hgr'.1 hr
  have hval : ∀ k x, t.get k = some x → ∃ y y', x.mapLeaves (R.index a i) = some y ∧ AxisRemoved a name y y' ∧ r'.get k = some y' ∧ WFVal y := by
    intro k x hk
    obtain ⟨x', h1, h2, h3⟩ := hrel k x hk
    have h4 := hget' k
    have h5 : ∃ y', x'.mapLeaves (R.index a i) = some y' := by
      by_contra hno
      rw [h2, Option.bind_some] at h4
      cases hml : x'.mapLeaves (R.index a i) with
      | some y' => exact hno ⟨y', hml⟩
      | none =>
        have := mapVals_keys hgr'.1 hr k
        rw [h4, h2, hml] at this
        cases this
    obtain ⟨y', h5⟩ := h5
    obtain ⟨y, h6, h7⟩ := h1.mapLeaves h5
    exact ⟨y, y', h6, h7, by rw [h4, h2, Option.bind_some, h5], mapLeaves_wf h6 h3⟩
  obtain ⟨r, hr0⟩ := mapVals_exists (g := fun v => v.mapLeaves (R.index a i)) hgr.1 (by
    intro k x hk
    obtain ⟨y, _, h1, _⟩ := hval k x hk
    rw [h1]; rfl)
  obtain ⟨hcr, hget⟩ := mapVals_spec hgr.1 hr0
  refine ⟨r, hr0, ?_⟩
  simp only [removeAxis, hname]
  refine treeMapExcept_eq hcr hcr' ?_ ?_
  · intro k y hk
    rw [hget] at hk
    obtain ⟨x, hx, hy⟩ := Option.bind_eq_some_iff.1 hk
    obtain ⟨y1, y', h1, h2, h3, h4⟩ := hval k x hx
    rw [hy] at h1; cases h1
    exact ⟨y', h2.remove h4, h3⟩
  · intro k hk
    rw [hget'] 
    cases ht0 : t.get k with
    | none => rw [hnone k ht0]; rfl
    | some x =>
      obtain ⟨y, _, h1, _⟩ := hval k x ht0
      rw [hget, ht0, Option.bind_some, h1] at hk; cases hk

/-- The slices with the name, for all steps. -/
theorem stepIn_named (S : Setup w l o.plain s0 d ss0 b c0) (S' : Setup w' l o.plain s' d ss' b c0) (US : UnnamedState o name s0 s')
    (hname : dget o.metadata kPartitionName = some name) {xs : Option (List A)} {ctxs : Nat → Option (PureContext κ)} {i : Nat}
    {x' : StepIn α κ A} (h : stepIn R o (ss'.take o.variableAxes.length) xs ctxs i = some x') :
    ∃ x, stepIn R o (ss0.take o.variableAxes.length) xs ctxs i = some x ∧ NamedIn o x x' := by
  simp only [stepIn] at h
  split at h
  · cases h
  next ax' hax' =>
  obtain ⟨hlen', hat'⟩ := allSome_map_spec _ _ hax'
  have key : ∀ (g : Nat) t a, ((ss0.take o.variableAxes.length).zip (o.variableAxes.map (·.2)))[g]? = some (t, a) →
      ∃ r r', sliceState R a i t = some r ∧ ax'[g]? = some r' ∧ removeAxis r a o.metadata = .ok r' := by
    intro g t a hz
    obtain ⟨ht, f, hf⟩ := (zip_axes S).1 hz
    obtain ⟨t', ht'⟩ := S'.axis (List.getElem?_eq_some_iff.1 hf).1
    obtain ⟨r', h1, h2⟩ := hat' g (t', a) ((zip_axes S').2 ⟨ht', f, hf⟩)
    obtain ⟨r, h3, h4⟩ := slice_named S S' US hname hf ht ht' h1
    exact ⟨r, r', h3, h2, h4⟩
  obtain ⟨ax, hax⟩ := allSome_exists (fun sa : State (PyVal α) × Int => sliceState R sa.2 i sa.1)
    ((ss0.take o.variableAxes.length).zip (o.variableAxes.map (·.2))) (by
      rintro ⟨t, a⟩ hm
      obtain ⟨g, hg⟩ := List.getElem?_of_mem hm
      obtain ⟨r, _, h1, _⟩ := key g t a hg
      simp only [h1, Option.isSome_some])
  obtain ⟨hlen, hat⟩ := allSome_map_spec _ _ hax
  have hl0 : ((ss0.take o.variableAxes.length).zip (o.variableAxes.map (·.2))).length = o.variableAxes.length := by
    have := (C01_partition_first_match S.obtainable S.part).1
    rw [filters_length] at this
    simp only [List.length_zip, List.length_take, List.length_map, this, ScanOptions.plain]
    omega
  have hl0' : ((ss'.take o.variableAxes.length).zip (o.variableAxes.map (·.2))).length = o.variableAxes.length := by
    have := (C01_partition_first_match S'.obtainable S'.part).1
    rw [filters_length] at this
    simp only [List.length_zip, List.length_take, List.length_map, this, ScanOptions.plain]
    omega
  have hrem : onAxes removeAxis o ax = .ok ax' := by
    have hd : dhas o.metadata kPartitionName = true := by simp only [dhas, hname, Option.isSome_some]
    simp only [onAxes, hd, if_true]
    refine mapExcept_of (List.forall₂_iff_get.2 ⟨?_, ?_⟩)
    · rw [List.length_zip, List.length_map, hlen, hlen', hl0, hl0', Nat.min_self]
    · intro g h1 h2
      rw [List.length_zip, List.length_map, hlen, hl0, Nat.min_self] at h1
      have hz := List.getElem?_eq_getElem (l := (ss0.take o.variableAxes.length).zip (o.variableAxes.map (·.2))) (i := g) (by rw [hl0]; exact h1)
      generalize ((ss0.take o.variableAxes.length).zip (o.variableAxes.map (·.2)))[g]'(by rw [hl0]; exact h1) = ta at hz
      obtain ⟨t, a⟩ := ta
      obtain ⟨r, r', h3, h4, h5⟩ := key g t a hz
      obtain ⟨r1, h6, h7⟩ := hat g (t, a) hz
      rw [h3] at h6; cases h6
      obtain ⟨_, f, hf⟩ := (zip_axes S).1 hz
      have e1 : (ax.zip (o.variableAxes.map (·.2)))[g]? = some (r, a) := by
        rw [List.getElem?_zip_eq_some, List.getElem?_map]
        refine ⟨h7, ?_⟩
        have hf' : o.variableAxes[g]? = some (f, a) := hf
        rw [hf']; rfl
      have e2 := (List.getElem?_eq_some_iff.1 e1).2
      have e3 := (List.getElem?_eq_some_iff.1 h4).2
      simp only [List.get_eq_getElem]
      rw [e2, e3]
      exact h5
  cases xs with
  | none =>
    cases h
    exact ⟨⟨ctxs i, ax, none⟩, by simp only [stepIn, hax], rfl, rfl, hrem⟩
  | some as =>
    dsimp only at h
    rw [Option.map_eq_some_iff] at h
    obtain ⟨z, hz, rfl⟩ := h
    exact ⟨⟨ctxs i, ax, some z⟩, by simp only [stepIn, hax, hz, Option.map_some], rfl, rfl, hrem⟩


/-! ### The outputs of the steps -/

/-- A state of values with the metadata they have in `s0`. -/
def renameState (s0 u : State (PyVal α)) : State (PyVal α) := ⟨u.mapping.map fun kv => (kv.1, renamed (s0.get kv.1) kv.2)⟩

omit [DecidableEq α] in
theorem renameState_get (s0 u : State (PyVal α)) (k : Str) : (renameState s0 u).get k = (u.get k).map (renamed (s0.get k)) :=
  dget_map_val (fun k v => renamed (s0.get k) v) u.mapping k

omit [DecidableEq α] in
theorem renameState_canonical {s0 u : State (PyVal α)} (h : u.Canonical) : (renameState s0 u).Canonical := by
  refine strictSorted_of_keys (d := u.mapping) ?_ h
  simp only [renameState, dkeys, List.map_map]
  rfl

/-- A step's output with the axis name. -/
def renameOut (o : ScanOptions α) (s0 : State (PyVal α)) (y : StepOut α B) : StepOut α B :=
  { y with axes := (y.axes.zip (o.variableAxes.map (·.2))).map fun sa => renameState s0 sa.1 }

omit [DecidableEq α] in
/-- What is known about an axes state of an iteration. -/
theorem group_value (S : Setup w l o.plain s0 d ss0 b c0) (S' : Setup w' l o.plain s' d ss' b c0) (US : UnnamedState o name s0 s')
    {g : Nat} {f : Filter α} {i : Int} (hga : o.variableAxes[g]? = some (f, i)) {t : State (PyVal α)} (hco : InColl o.plain s' t)
    {v : World α} (ev : Evolves w' v l) (hs : getState (v.heap.length + 1) v.heap l = some t) {u : State (PyVal α)}
    (hgr : IsGroup o.plain t g u) {k : Str} {y : PyVal α} (hk : u.get k = some y) :
    ∃ x x', s0.get k = some x ∧ FirstMatch o.filters k x g ∧ AxisRemoved i name x x' ∧ s'.get k = some x' ∧
      FirstMatch o.filters k x' g ∧ SameKind x' y ∧ WFVal y := by
  have hg : g < o.plain.variableAxes.length := (List.getElem?_eq_some_iff.1 hga).1
  obtain ⟨x', h1, h2⟩ := (group_keys S' hg hco ev hs hgr k).1 (by rw [hk]; rfl)
  obtain ⟨x, h3, h4⟩ := US.group S h1 h2
  obtain ⟨x1, h5, _, h6⟩ := US.axes k x g f i h3 hga h4
  rw [h1] at h6; cases h6
  obtain ⟨z, h7, h8⟩ := ev.state S'.wf S'.hl S'.state hs h1
  have h9 := ((hgr.2 k y).1 hk).1
  rw [h7] at h9; cases h9
  exact ⟨x, x', h3, h4, h5, h1, h2, h8, (ev.values S'.hl hs h7).1⟩

/-- `add_axis` of an axes state of an iteration. -/
theorem add_group (S : Setup w l o.plain s0 d ss0 b c0) (S' : Setup w' l o.plain s' d ss' b c0) (US : UnnamedState o name s0 s')
    (hname : dget o.metadata kPartitionName = some name)
    {g : Nat} {f : Filter α} {i : Int} (hga : o.variableAxes[g]? = some (f, i)) {t : State (PyVal α)} (hco : InColl o.plain s' t)
    {v : World α} (ev : Evolves w' v l) (hs : getState (v.heap.length + 1) v.heap l = some t) {u : State (PyVal α)}
    (hgr : IsGroup o.plain t g u) : addAxis u i o.metadata = .ok (renameState s0 u) := by
  simp only [addAxis, hname]
  refine treeMapExcept_eq hgr.1 (renameState_canonical hgr.1) ?_ ?_
  · intro k y hk
    obtain ⟨x, x', h1, _, h2, _, _, h3, h4⟩ := group_value S S' US hga hco ev hs hgr hk
    exact ⟨_, h2.add h3 h4, by rw [renameState_get, hk, h1]; rfl⟩
  · intro k hk
    rw [renameState_get, hk]; rfl

theorem named_out (S : Setup w l o.plain s0 d ss0 b c0) (S' : Setup w' l o.plain s' d ss' b c0) (US : UnnamedState o name s0 s')
    (hname : dget o.metadata kPartitionName = some name) {t : State (PyVal α) × B} {y : StepOut α B}
    (h : IsStepOut w' l o.plain t y) (hco : InColl o.plain s' t.1) : NamedOut o y (renameOut o s0 y) := by
  obtain ⟨v, ev, hv⟩ := h.world
  refine ⟨?_, rfl, rfl, rfl⟩
  have hd : dhas o.metadata kPartitionName = true := by simp only [dhas, hname, Option.isSome_some]
  simp only [onAxes, hd, if_true, renameOut]
  refine mapExcept_of ?_
  rw [List.forall₂_map_right_iff]
  refine List.forall₂_same.2 ?_
  rintro ⟨u, i⟩ hm
  obtain ⟨g, hg⟩ := List.getElem?_of_mem hm
  rw [List.getElem?_zip_eq_some, List.getElem?_map, Option.map_eq_some_iff] at hg
  obtain ⟨hu, ⟨f, i'⟩, hf, rfl⟩ := hg
  obtain ⟨u', hu', hgr⟩ := h.out.axes g (List.getElem?_eq_some_iff.1 hf).1
  rw [hu] at hu'; cases hu'
  exact add_group S S' US hname hf hco ev hv hgr

/-- The stacked axes state number `g`, with the axis name. -/
theorem stack_named (S : Setup w l o.plain s0 d ss0 b c0) (S' : Setup w' l o.plain s' d ss' b c0) (US : UnnamedState o name s0 s')
    {outs : List (State (PyVal α) × B)} {ys : List (StepOut α B)} (h : List.Forall₂ (IsStepOut w' l o.plain) outs ys) (hne : outs ≠ [])
    (hco : ∀ t ∈ outs, InColl o.plain s' t.1) {fin : State (PyVal α)} (hfin : IsStacked R o.plain s' (outs.map (·.1)) fin)
    {g : Nat} {f : Filter α} {i : Int} (hga : o.variableAxes[g]? = some (f, i)) :
    ∃ st, stackStates R i ((ys.map (renameOut o s0)).filterMap fun y => y.axes[g]?) = some st ∧ st.Canonical ∧
      (∀ k v, st.get k = some v → ∃ x x' y, s0.get k = some x ∧ FirstMatch o.filters k x g ∧ AxisRemoved i name x x' ∧
        s'.get k = some x' ∧ fin.get k = some y ∧ v = renamed (some x) y ∧ SameKind x' y ∧ WFVal y ∧ y.isNode = true) ∧
      ∀ k x, s0.get k = some x → FirstMatch o.filters k x g → (st.get k).isSome := by
  have hg : g < o.plain.variableAxes.length := (List.getElem?_eq_some_iff.1 hga).1
  have hgs := groups_of hg h
  have hcomm : (ys.map (renameOut o s0)).filterMap (fun y => y.axes[g]?) = (ys.filterMap fun y => y.axes[g]?).map (renameState s0) := by
    clear hne hco hfin hgs
    induction h with
    | nil => rfl
    | @cons t y outs ys h _ ih =>
      obtain ⟨u, hu, _⟩ := h.out.axes g hg
      have : (renameOut o s0 y).axes[g]? = some (renameState s0 u) := by
        simp only [renameOut, List.getElem?_map]
        have : (y.axes.zip (o.variableAxes.map (·.2)))[g]? = some (u, i) := by
          rw [List.getElem?_zip_eq_some, List.getElem?_map, hga]
          exact ⟨hu, rfl⟩
        rw [this]; rfl
      rw [List.map_cons, List.filterMap_cons, this, List.filterMap_cons, hu, List.map_cons, ih]
  rw [hcomm]
  generalize (ys.filterMap fun y => y.axes[g]?) = gs at hgs
  have hworld : ∀ t' ∈ outs, ∃ v, Evolves w' v l ∧ getState (v.heap.length + 1) v.heap l = some t'.1 := by
    clear hne hco hfin hgs hcomm
    induction h with
    | nil => nofun
    | cons h _ ih =>
      intro t' ht'
      rcases List.mem_cons.1 ht' with rfl | ht'
      · exact h.world
      · exact ih t' ht'
  cases hgs with
  | nil => exact absurd rfl hne
  | @cons t u outs gs hgr hgs =>
  have hmem : ∀ {outs : List (State (PyVal α) × B)} {gs : List (State (PyVal α))}, List.Forall₂ (fun t u => IsGroup o.plain t.1 g u) outs gs →
      ∀ u ∈ gs, ∃ t ∈ outs, IsGroup o.plain t.1 g u := by
    intro outs gs h
    induction h with
    | nil => nofun
    | cons h _ ih =>
      intro u hu
      rcases List.mem_cons.1 hu with rfl | hu
      · exact ⟨_, List.mem_cons_self, h⟩
      · obtain ⟨t, ht, h'⟩ := ih u hu
        exact ⟨t, List.mem_cons_of_mem _ ht, h'⟩
  have hkeys : ∀ u' ∈ u :: gs, ∀ k, (u'.get k).isSome = true ↔ ∃ x, s'.get k = some x ∧ FirstMatch o.filters k x g := by
    intro u' hu' k
    obtain ⟨t', ht', hgr'⟩ := hmem (.cons hgr hgs) u' hu'
    obtain ⟨v, ev, hv⟩ := hworld t' ht'
    exact group_keys S' hg (hco t' ht') ev hv hgr' k
  have hvals : ∀ k x x', s0.get k = some x → AxisRemoved i name x x' → s'.get k = some x' → FirstMatch o.filters k x' g →
      ∃ y, stackVals R i (((u :: gs).map (renameState s0)).filterMap fun t => t.get k) = some (renamed (some x) y) ∧ fin.get k = some y ∧
        SameKind x' y ∧ WFVal y ∧ y.isNode = true := by
    intro k x x' h0 hax hx hfm
    obtain ⟨y, h1, h2⟩ := hfin.axes' k x' g f i hx hga hfm
    have h3 : ((u :: gs).map (renameState s0)).filterMap (fun t => t.get k) =
        ((u :: gs).filterMap fun t => t.get k).map (renamed (some x)) := by
      generalize (u :: gs) = us
      induction us with
      | nil => rfl
      | cons a us ih =>
        rw [List.map_cons, List.filterMap_cons, renameState_get, h0, List.filterMap_cons]
        cases a.get k with
        | none => exact ih
        | some z => rw [Option.map_some, ih]; rfl
    have h4 : stackVals R i ((u :: gs).filterMap fun t => t.get k) = some y := by
      rw [group_values (o := o.plain) hx hfm (.cons hgr hgs) hco]; exact h1
    have h5 : ∀ z ∈ (u :: gs).filterMap (fun t => t.get k), SameKind x' z ∧ WFVal z ∧ z.isNode = true := by
      intro z hz
      obtain ⟨u', hu', hz⟩ := List.mem_filterMap.1 hz
      obtain ⟨t', ht', hgr'⟩ := hmem (.cons hgr hgs) u' hu'
      obtain ⟨v, ev, hv⟩ := hworld t' ht'
      obtain ⟨z', h7, h8⟩ := ev.state S'.wf S'.hl S'.state hv hx
      have h9 := ((hgr'.2 k z).1 hz).1
      rw [h7] at h9; cases h9
      exact ⟨h8, ev.values S'.hl hv h7⟩
    rw [h3]
    refine ⟨y, stack_renamed hax (fun z hz => (h5 z hz).1) h4, h2, ?_⟩
    cases hl : (u :: gs).filterMap (fun t => t.get k) with
    | nil => rw [hl] at h4; cases h4
    | cons z zs =>
      rw [hl] at h4 h5
      obtain ⟨k1, k2, k3⟩ := h5 z List.mem_cons_self
      obtain ⟨q1, q2, q3⟩ := stackVals_like h4 k2 k3
      exact ⟨k1.trans q3, q1, q2⟩
  have hboth : ∀ k, (u.get k).isSome = true → ∃ x x', s0.get k = some x ∧ FirstMatch o.filters k x g ∧ AxisRemoved i name x x' ∧
      s'.get k = some x' ∧ FirstMatch o.filters k x' g := by
    intro k hk
    obtain ⟨x', h1, h2⟩ := (hkeys u List.mem_cons_self k).1 hk
    obtain ⟨x, h3, h4⟩ := US.group S h1 h2
    obtain ⟨x1, h5, _, h6⟩ := US.axes k x g f i h3 hga h4
    rw [h1] at h6; cases h6
    exact ⟨x, x', h3, h4, h5, h1, h2⟩
  have hsm : ∀ (u' : State (PyVal α)) k, ((renameState s0 u').get k).isSome = (u'.get k).isSome := by
    intro u' k; rw [renameState_get, Option.isSome_map]
  obtain ⟨st, hst, hc, hget⟩ := stackStates_spec (R := R) (axis := i) (s := renameState s0 u) (ss := gs.map (renameState s0)) (by
      intro u' hu'
      rw [← List.map_cons] at hu'
      obtain ⟨u1, hu1, rfl⟩ := List.mem_map.1 hu'
      obtain ⟨t', _, hgr'⟩ := hmem (.cons hgr hgs) u1 hu1
      exact renameState_canonical hgr'.1) (by
      intro u' hu' k
      obtain ⟨u1, hu1, rfl⟩ := List.mem_map.1 hu'
      rw [hsm, hsm, Bool.eq_iff_iff, hkeys u1 (List.mem_cons_of_mem _ hu1) k, hkeys u List.mem_cons_self k]) (by
      intro k hk
      rw [hsm] at hk
      obtain ⟨x, x', h1, h2, h3, h4, h5⟩ := hboth k hk
      obtain ⟨y, h6, _⟩ := hvals k x x' h1 h3 h4 h5
      rw [List.map_cons] at h6
      rw [h6]; rfl)
  refine ⟨st, hst, hc, ?_, ?_⟩
  · intro k v hy
    rw [hget] at hy
    split at hy
    · next hk =>
      rw [hsm] at hk
      obtain ⟨x, x', h1, h2, h3, h4, h5⟩ := hboth k hk
      obtain ⟨y, h6, h7, h8, h9, h10⟩ := hvals k x x' h1 h3 h4 h5
      rw [List.map_cons, hy] at h6
      cases h6
      exact ⟨x, x', y, h1, h2, h3, h4, h7, rfl, h8, h9, h10⟩
    · cases hy
  · intro k x hx hfm
    obtain ⟨x', h1, h2, h3⟩ := US.axes k x g f i hx hga hfm
    have hk := (hkeys u List.mem_cons_self k).2 ⟨x', h3, h2⟩
    rw [hget, hsm, if_pos hk]
    obtain ⟨y, h6, _⟩ := hvals k x x' hx h1 h3 h2
    rw [List.map_cons] at h6
    rw [h6]; rfl

end Nnx
