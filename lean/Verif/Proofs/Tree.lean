import Verif.Spec.Tree
import Verif.Proofs.Containers
import Verif.Props.PytreeFlatten
/-
Trees of values: flattening, unflattening and mapping, by induction on the tree.
-/
namespace Nnx
variable {α : Type}

theorem Mapped.mono {R : List TreeKey → PyVal α → PyVal α → Prop} {v w : PyVal α} (h : Mapped R v w) :
    ∀ {S : List TreeKey → PyVal α → PyVal α → Prop}, (∀ p x y, R p x y → S p x y) → Mapped S v w := by
  induction h with
  | leaf h r => exact fun hs => .leaf h (hs _ _ _ r)
  | none => exact fun _ => .none
  | tup len _ ih => exact fun hs => .tup len fun i x y hx hy => ih i x y hx hy fun p => hs _
  | dict nd dom _ ih => exact fun hs => .dict nd dom fun k x y hx hy => ih k x y hx hy fun p => hs _
  | cont node _ ih => exact fun hs => .cont node (ih fun p => hs _)
  | static => exact fun _ => .static
  | tree nd dom _ others ih => exact fun hs => .tree nd dom (fun k x y hx hn hy => ih k x y hx hn hy fun p => hs _) others

/-- Leaves that are not containers are replaced by values that are not containers: then this holds of all subtrees. -/
theorem Mapped.plain {R : List TreeKey → PyVal α → PyVal α → Prop} {v w : PyVal α} (h : Mapped R v w)
    (hr : ∀ p x y, R p x y → x.Plain → y.Plain) (hv : v.Plain) : w.Plain := by
  cases h with
  | leaf h r => exact hr _ _ _ r hv
  | none => trivial
  | tup => trivial
  | dict => trivial
  | cont => exact hv.elim
  | static => exact hv.elim
  | tree => trivial

theorem Mapped.isNode {R : List TreeKey → PyVal α → PyVal α → Prop} {v w : PyVal α} (h : Mapped R v w)
    (hr : ∀ p x y, R p x y → x.isNode = true → y.isNode = true) (hv : v.isNode = true) : w.isNode = true := by
  cases h with
  | leaf h r => exact hr _ _ _ r hv
  | none => exact hv
  | tup => exact hv
  | dict => exact hv
  | cont => exact hv
  | static => exact hv
  | tree => exact hv

/-! ### Lists of results -/

theorem allOk_map_ok {X Y : Type _} {f : X → Except Err Y} {l : List X} {ys : List Y} (h : allOk (l.map f) = .ok ys) :
    ys.length = l.length ∧ ∀ (i : Nat) x, l[i]? = some x → ∃ y, ys[i]? = some y ∧ f x = .ok y := by
  induction l generalizing ys with
  | nil => cases h; simp
  | cons a l ih =>
    simp only [List.map_cons] at h
    cases ha : f a with
    | error e => rw [ha] at h; cases h
    | ok y =>
      rw [ha] at h
      simp only [allOk] at h
      split at h
      · cases h
      next xs hxs =>
        cases h
        obtain ⟨hl, hi⟩ := ih hxs
        refine ⟨by simp [hl], ?_⟩
        intro i x hx
        cases i with
        | zero => simp at hx; subst hx; exact ⟨y, rfl, ha⟩
        | succ i => simpa using hi i x (by simpa using hx)

theorem allOk_map_error {X Y : Type _} {f : X → Except Err Y} {l : List X} {e : Err} (h : allOk (l.map f) = .error e) :
    ∃ (i : Nat) (x : X), l[i]? = some x ∧ f x = .error e ∧ ∀ (j : Nat) x', j < i → l[j]? = some x' → ∃ y, f x' = .ok y := by
  induction l with
  | nil => cases h
  | cons a l ih =>
    simp only [List.map_cons] at h
    cases ha : f a with
    | error e' =>
      rw [ha] at h; cases h
      exact ⟨0, a, rfl, ha, fun _ _ h => absurd h (Nat.not_lt_zero _)⟩
    | ok y =>
      rw [ha] at h
      simp only [allOk] at h
      split at h
      · next e' he =>
        cases h
        obtain ⟨i, x, hx, hf, hb⟩ := ih he
        refine ⟨i + 1, x, by simpa using hx, hf, ?_⟩
        intro j x' hj hx'
        cases j with
        | zero => simp at hx'; subst hx'; exact ⟨y, ha⟩
        | succ j => exact hb j x' (by omega) (by simpa using hx')
      · cases h

theorem allOk_map_total {X Y : Type _} {f : X → Except Err Y} {l : List X} (h : ∀ x ∈ l, ∃ y, f x = .ok y) :
    ∃ ys, allOk (l.map f) = .ok ys := by
  induction l with
  | nil => exact ⟨[], rfl⟩
  | cons a l ih =>
    obtain ⟨y, hy⟩ := h a (by simp)
    obtain ⟨ys, hys⟩ := ih fun x hx => h x (by simp [hx])
    exact ⟨y :: ys, by simp [hy, allOk, hys]⟩

theorem columns_getElem {X : Type _} {xs : List X} {ls : List (List X)} {i : Nat} {x : X} (hl : ∀ l ∈ ls, l.length = xs.length)
    (hx : xs[i]? = some x) : ∃ c, (columns xs ls)[i]? = some (x :: c) ∧ c.length = ls.length ∧
      ∀ (j : Nat) l, ls[j]? = some l → c[j]? = l[i]? := by
  induction xs generalizing ls i with
  | nil => simp at hx
  | cons a xs ih =>
    cases i with
    | zero =>
      simp only [List.getElem?_cons_zero, Option.some.injEq] at hx
      subst hx
      refine ⟨_, rfl, ?_, ?_⟩
      · clear ih
        induction ls with
        | nil => rfl
        | cons l ls ih2 =>
          cases l with
          | nil => simpa using hl [] (by simp)
          | cons b l => simpa using ih2 fun l hl' => hl l (by simp [hl'])
      · intro j l hj
        clear ih
        induction ls generalizing j with
        | nil => simp at hj
        | cons l' ls ih2 =>
          cases l' with
          | nil => simpa using hl [] (by simp)
          | cons b l' =>
            cases j with
            | zero => simp at hj; subst hj; simp
            | succ j => simpa using ih2 (fun l hl' => hl l (by simp [hl'])) j (by simpa using hj)
    | succ i =>
      have hl' : ∀ l ∈ ls.map List.tail, l.length = xs.length := by
        intro l hm
        obtain ⟨l', hm', rfl⟩ := List.mem_map.1 hm
        simp [hl l' hm']
      obtain ⟨c, h1, h2, h3⟩ := ih hl' (by simpa using hx)
      refine ⟨c, by simpa [columns] using h1, by simpa using h2, ?_⟩
      intro j l hj
      rw [h3 j l.tail (by simp [hj])]
      cases l <;> simp

theorem columns_length {X : Type _} (xs : List X) (ls : List (List X)) : (columns xs ls).length = xs.length := by
  induction xs generalizing ls with
  | nil => rfl
  | cons a xs ih => simp [columns, ih]

/-! ### One node -/

theorem treeFlatten_eq (v : PyVal α) : treeFlatten v =
    match flattenNode v with
    | .error e => .error e
    | .ok none => .ok ([v], .leaf)
    | .ok (some (kids, d)) =>
      match allOk (kids.map treeFlatten) with
      | .error e => .error e
      | .ok rs => .ok (rs.flatMap (·.1), .node d (rs.map (·.2))) := by
  rw [treeFlatten]
  split
  · next h => rw [h]
  · next h => rw [h]
  · next kids d h =>
    rw [h]
    have : kids.attach.map (fun k => treeFlatten k.1) = kids.map treeFlatten := by simp
    rw [this]
    simp only
    cases allOk (kids.map treeFlatten) <;> rfl

variable [DecidableEq α]

omit [DecidableEq α] in
/-- One node: `w` is `v` with its children replaced by children that are related by `K`. -/
inductive NodeMapped (K : TreeKey → PyVal α → PyVal α → Prop) : PyVal α → PyVal α → Prop
  | none : NodeMapped K .none .none
  | tup {xs ys : List (PyVal α)} (len : ys.length = xs.length)
      (items : ∀ i x y, xs[i]? = some x → ys[i]? = some y → K (.item i) x y) : NodeMapped K (.tup xs) (.tup ys)
  | dict {m n : Md α} (nodup : DNodup n) (dom : ∀ k, k ∈ dkeys n ↔ k ∈ dkeys m)
      (entries : ∀ k x y, dget m k = some x → dget n k = some y → K (.key k) x y) : NodeMapped K (.dict m) (.dict n)
  | cont {c : Cls} {v w : PyVal α} {m : Md α} (node : c.isSub cNodeBase = true) (h : K (.attr (py! "value")) v w) :
      NodeMapped K (.cont c v m) (.cont c w m)
  | static {v : PyVal α} {m : Md α} : NodeMapped K (.cont cStatic v m) (.cont cStatic v m)
  | tree {c : Cls} {m n : Md α} (nodup : DNodup n) (dom : ∀ k, k ∈ dkeys n ↔ k ∈ dkeys m)
      (nodes : ∀ k x y, dget m k = some x → x.isNode = true → dget n k = some y → K (.attr k) x y)
      (others : ∀ k x, dget m k = some x → x.isNode = false → dget n k = some x) : NodeMapped K (.tree c m) (.tree c n)

omit [DecidableEq α] in
theorem NodeMapped.mapped {R : List TreeKey → PyVal α → PyVal α → Prop} {v w : PyVal α}
    (h : NodeMapped (fun s => Mapped (fun p => R (s :: p))) v w) : Mapped R v w := by
  cases h with
  | none => exact .none
  | tup len h => exact .tup len h
  | dict nd dom h => exact .dict nd dom h
  | cont node h => exact .cont node h
  | static => exact .static
  | tree nd dom h others => exact .tree nd dom h others

/-- What the induction needs to know of an inner node `v` with children `kids`. -/
structure IsInner (v : PyVal α) (kids : List (PyVal α)) (d : NodeDef α) : Prop where
  flat : flattenNode v = .ok (some (kids, d))
  notLeaf : ¬ TreeLeaf v
  len : d.steps.length = kids.length
  good : ∀ k ∈ kids, GoodTree k
  nodup : d.steps.Nodup
  sub : ∀ (i : Nat) s x p y, d.steps[i]? = some s → kids[i]? = some x → Sub x p y → Sub v (s :: p) y
  inv : ∀ p y, Sub v p y → (p = [] ∧ y = v) ∨
    ∃ (i : Nat) (s : TreeKey) (x : PyVal α) (q : List TreeKey), d.steps[i]? = some s ∧ kids[i]? = some x ∧ p = s :: q ∧ Sub x q y
  build : ∀ (K : TreeKey → PyVal α → PyVal α → Prop) (ws : List (PyVal α)), ws.length = kids.length →
    (∀ (i : Nat) s x y, d.steps[i]? = some s → kids[i]? = some x → ws[i]? = some y → K s x y ∧ (x.Plain → y.Plain)) →
    ∃ w, unflattenNode d ws = .ok w ∧ NodeMapped K v w ∧
      ((∀ (i : Nat) x y, kids[i]? = some x → ws[i]? = some y → x.isNode = true → y.isNode = true) →
        flattenNode w = .ok (some (ws, d)))

theorem inner_none : IsInner (.none : PyVal α) [] .none where
  flat := rfl
  notLeaf := id
  len := rfl
  good := by simp
  nodup := List.nodup_nil
  sub := by simp
  inv := by
    intro p y h
    cases h
    exact .inl ⟨rfl, rfl⟩
  build := by
    intro R ws hl _
    refine ⟨.none, rfl, .none, ?_⟩
    intro _
    simp at hl
    subst hl
    rfl

theorem inner_tup {xs : List (PyVal α)} (h : ∀ x ∈ xs, GoodTree x) : IsInner (.tup xs) xs (.tup xs.length) where
  flat := rfl
  notLeaf := id
  len := by simp [NodeDef.steps]
  good := h
  nodup := by
    refine List.Pairwise.map _ ?_ List.nodup_range
    intro a b h e
    cases e
    exact h rfl
  inv := by
    intro p y h
    cases h with
    | here => exact .inl ⟨rfl, rfl⟩
    | @item _ i x _ q hx hs =>
      have hi : i < xs.length := by
        by_contra hc
        rw [List.getElem?_eq_none (by omega)] at hx
        cases hx
      exact .inr ⟨i, .item i, x, q, by simp [NodeDef.steps, List.getElem?_range hi], hx, rfl, hs⟩
  sub := by
    intro i s x p y hs hx hsub
    have hi : i < xs.length := by
      by_contra hc
      rw [List.getElem?_eq_none (by omega)] at hx
      cases hx
    simp only [NodeDef.steps, List.getElem?_map, List.getElem?_range hi, Option.map_some, Option.some.injEq] at hs
    subst hs
    exact .item hx hsub
  build := by
    intro R ws hl hm
    refine ⟨.tup ws, rfl, .tup hl ?_, ?_⟩
    · intro i x y hx hy
      have hi : i < xs.length := by
        by_contra hc
        rw [List.getElem?_eq_none (by omega)] at hx
        cases hx
      exact (hm i (.item i) x y (by simp [NodeDef.steps, List.getElem?_range hi]) hx hy).1
    · intro _
      simp [flattenNode, hl]

theorem inner_dict {m : Md α} (hn : DNodup m) (h : ∀ k x, dget m k = some x → GoodTree x) :
    IsInner (.dict m) ((sortItems m).map (·.2)) (.dict ((sortItems m).map (·.1))) where
  flat := rfl
  notLeaf := id
  len := by simp [NodeDef.steps]
  good := by
    intro k hk
    obtain ⟨⟨a, b⟩, hm, rfl⟩ := List.mem_map.1 hk
    exact h a b (sortItems_dget hn _ hm)
  nodup := by
    refine List.Pairwise.map _ ?_ (sortItems_strict hn).nodup
    intro a b h e
    cases e
    exact h rfl
  inv := by
    intro p y h
    cases h with
    | here => exact .inl ⟨rfl, rfl⟩
    | @key _ k x _ q hx hs =>
      have hmem : (k, x) ∈ sortItems m := (sortItems_perm m).mem_iff.2 (dget_mem hx)
      obtain ⟨i, hi⟩ := List.getElem?_of_mem hmem
      exact .inr ⟨i, .key k, x, q, by simp [NodeDef.steps, hi], by rw [List.getElem?_map, hi]; rfl, rfl, hs⟩
  sub := by
    intro i s x p y hs hx hsub
    simp only [NodeDef.steps, List.getElem?_map, Option.map_eq_some_iff] at hs hx
    obtain ⟨k, ⟨kv, e1, rfl⟩, rfl⟩ := hs
    obtain ⟨kv', e2, rfl⟩ := hx
    rw [e1] at e2
    cases e2
    exact .key (sortItems_dget hn _ (List.mem_of_getElem? e1)) hsub
  build := by
    intro R ws hl hm
    have hst := sortItems_strict hn
    have hks : ((sortItems m).map (·.1)).Nodup := hst.nodup
    have hl' : ws.length = ((sortItems m).map (·.1)).length := by rw [hl]; simp
    have hkeys : dkeys (((sortItems m).map (·.1)).zip ws) = (sortItems m).map (·.1) := List.map_fst_zip (by omega)
    refine ⟨_, rfl, .dict (dnodup_zip hks ws) ?_ ?_, ?_⟩
    · intro k
      rw [mem_dkeys_zip hl']
      exact ((sortItems_perm m).map (·.1)).mem_iff
    · intro k x y hx hy
      have hmem : (k, x) ∈ sortItems m := (sortItems_perm m).mem_iff.2 (dget_mem hx)
      obtain ⟨i, hi⟩ := List.getElem?_of_mem hmem
      have hk : ((sortItems m).map (·.1))[i]? = some k := by rw [List.getElem?_map, hi]; rfl
      have hlt : i < ws.length := by
        by_contra hc
        rw [List.getElem?_eq_none (by omega)] at hk
        cases hk
      have hy' := dget_zip hks hk (List.getElem?_eq_getElem hlt)
      rw [hy'] at hy
      cases hy
      exact (hm i (.key k) x _ (by simp [NodeDef.steps, hi]) (by rw [List.getElem?_map, hi]; rfl) (List.getElem?_eq_getElem hlt)).1
    · intro _
      have hss : StrictSorted (((sortItems m).map (·.1)).zip ws) := by
        have : (dkeys (((sortItems m).map (·.1)).zip ws)).Pairwise (fun a b => strLe a b = true ∧ a ≠ b) := by
          rw [hkeys]
          exact List.pairwise_map.2 hst
        exact List.pairwise_map.1 this
      have h2 : ((((sortItems m).map (·.1)).zip ws).map (·.2)) = ws := List.map_snd_zip (by omega)
      have h1 : ((((sortItems m).map (·.1)).zip ws).map (·.1)) = (sortItems m).map (·.1) := List.map_fst_zip (by omega)
      simp only [flattenNode, sortItems_of_strict hss, h1, h2]

theorem inner_cont {c : Cls} {v : PyVal α} {m : Md α} (wf : WFContainer (.cont c v m)) (hc : c.isSub cNodeBase = true) (h : GoodTree v) :
    IsInner (.cont c v m) [v] (.cont (c, m, none)) where
  flat := by simp [flattenNode, flattenContainer, hc]
  notLeaf := by simp [TreeLeaf, hc]
  len := rfl
  good := by simpa using h
  nodup := by simp [NodeDef.steps]
  inv := by
    intro p y h
    cases h with
    | here => exact .inl ⟨rfl, rfl⟩
    | @value _ _ _ _ q _ hs => exact .inr ⟨0, _, v, q, rfl, rfl, rfl, hs⟩
  sub := by
    intro i s x p y hs hx hsub
    cases i with
    | succ i => simp at hx
    | zero =>
      simp only [NodeDef.steps, List.getElem?_cons_zero, Option.some.injEq] at hs hx
      subst hs; subst hx
      exact .value hc hsub
  build := by
    intro R ws hl hm
    match ws, hl with
    | [w], _ =>
      obtain ⟨h1, h2⟩ := hm 0 _ v w rfl rfl rfl
      have hw := h2 wf.plain
      refine ⟨.cont c w m, ?_, .cont hc h1, ?_⟩
      · simp only [unflattenNode, unflattenContainer, construct_plain hw, classInit_wf wf hw]
      · intro _
        simp [flattenNode, flattenContainer, hc]

theorem inner_static {v : PyVal α} {m : Md α} (wf : WFContainer (.cont cStatic v m)) : IsInner (.cont cStatic v m) [] (.cont (cStatic, m, some v)) where
  flat := by
    have : cStatic.isSub cNodeBase = false := by decide
    simp [flattenNode, flattenContainer, this]
  notLeaf := by simp [TreeLeaf]
  len := rfl
  good := by simp
  nodup := List.nodup_nil
  sub := by simp
  inv := by
    intro p y h
    cases h with
    | here => exact .inl ⟨rfl, rfl⟩
    | value hc => exact absurd hc (by decide)
  build := by
    intro R ws hl _
    have hm : m = [] := by
      cases wf with
      | mk _ _ _ static _ => exact static (by decide)
    subst hm
    simp at hl
    subst hl
    refine ⟨.cont cStatic v [], ?_, .static, ?_⟩
    · simp only [unflattenNode, unflattenContainer, construct_plain wf.plain, classInit_wf wf wf.plain]
    · intro _
      have : cStatic.isSub cNodeBase = false := by decide
      simp [flattenNode, flattenContainer, this]

omit [DecidableEq α] in
theorem pytreeFlatten_unflatten {c : Cls} {m : Md α} (wf : WFPytree m) {ws : List (PyVal α)} {vals : List (PyVal α)} {aux : List Str × Md α}
    (hf : pytreeFlatten (.tree c m) = .ok (vals, aux)) (hl : ws.length = vals.length)
    (hn : ∀ (i : Nat) x y, vals[i]? = some x → ws[i]? = some y → x.isNode = true → y.isNode = true) :
    pytreeFlatten (pytreeUnflatten c aux ws) = .ok (ws, aux) := by
  obtain ⟨n, hu, hnd, hdom, hoth, hnew⟩ := C40_replace_children wf hf hl
  rw [hu]
  obtain ⟨e1, e2, e3⟩ := pytreeFlatten_keys wf hf
  have hmem : ∀ kv ∈ sortItems m, dget m kv.1 = some kv.2 := sortItems_dget wf.nodup
  have hval : ∀ kv ∈ sortItems m, ∃ y, dget n kv.1 = some y ∧ y.isNode = kv.2.isNode ∧ (kv.2.isNode = false → y = kv.2) := by
    intro kv hkv
    cases hb : kv.2.isNode with
    | false => exact ⟨kv.2, hoth _ _ (hmem kv hkv) hb, hb, fun _ => rfl⟩
    | true =>
      have hin : kv ∈ (sortItems m).filter (fun kv => kv.2.isNode) := List.mem_filter.2 ⟨hkv, hb⟩
      obtain ⟨i, hi⟩ := List.getElem?_of_mem hin
      have h1 : vals[i]? = some kv.2 := by rw [e1, List.getElem?_map, hi]; rfl
      have hlt : i < ws.length := by
        by_contra hc
        rw [List.getElem?_eq_none (by omega)] at h1
        cases h1
      have h2 := List.getElem?_eq_getElem hlt
      exact ⟨ws[i], hnew i kv.1 _ (by rw [e2, List.getElem?_map, hi]; rfl) h2, hn i _ _ h1 h2 hb, fun h => by cases h⟩
  let new : Str × PyVal α → Str × PyVal α := fun kv => (kv.1, (dget n kv.1).getD .none)
  have hfields : sortedFields n = some (((sortItems m).map new).map (·.1)) := by
    have hks : dget n kSorted = dget m kSorted := by
      rw [wf.sorted]
      exact hoth _ _ wf.sorted rfl
    have : sortedFields n = sortedFields m := by unfold sortedFields; rw [hks]
    rw [this, sortedFields_wf wf, List.map_map]
    rfl
  have hitems : ∀ kv ∈ (sortItems m).map new, dget n kv.1 = some kv.2 := by
    intro kv hkv
    obtain ⟨kv', hkv', rfl⟩ := List.mem_map.1 hkv
    obtain ⟨y, hy, _⟩ := hval kv' hkv'
    simp [new, hy]
  have hnode : ∀ kv ∈ sortItems m, (new kv).2.isNode = kv.2.isNode := by
    intro kv hkv
    obtain ⟨y, hy, hb, _⟩ := hval kv hkv
    simp [new, hy, hb]
  simp only [pytreeFlatten, pytreeFlattenKeys, hfields, flattenFields_of_items hitems]
  have hA : ((sortItems m).map new).filter (fun kv => kv.2.isNode) = ((sortItems m).filter (fun kv => kv.2.isNode)).map new := by
    rw [List.filter_map]
    congr 1
    exact List.filter_congr fun kv hkv => hnode kv hkv
  have hB : ((sortItems m).map new).filter (fun kv => !kv.2.isNode) = (sortItems m).filter (fun kv => !kv.2.isNode) := by
    rw [List.filter_map]
    have : (sortItems m).filter ((fun kv => !kv.2.isNode) ∘ new) = (sortItems m).filter (fun kv => !kv.2.isNode) :=
      List.filter_congr fun kv hkv => by simp [hnode kv hkv]
    rw [this]
    conv_rhs => rw [← List.map_id ((sortItems m).filter (fun kv => !kv.2.isNode))]
    refine List.map_congr_left fun kv hkv => ?_
    obtain ⟨h1, h2⟩ := List.mem_filter.1 hkv
    obtain ⟨y, hy, _, hs⟩ := hval kv h1
    have := hs (by simpa using h2)
    subst this
    simp [new, hy]
  have hC : (((sortItems m).filter (fun kv => kv.2.isNode)).map new).map (·.2) = ws := by
    apply List.ext_getElem?
    intro i
    rw [List.getElem?_map, List.getElem?_map]
    cases hi : ((sortItems m).filter (fun kv => kv.2.isNode))[i]? with
    | none =>
      have h1 : vals[i]? = none := by rw [e1, List.getElem?_map, hi]; rfl
      rw [List.getElem?_eq_none_iff] at h1
      simp [hl, h1]
    | some kv =>
      have h1 : vals[i]? = some kv.2 := by rw [e1, List.getElem?_map, hi]; rfl
      have hlt : i < ws.length := by
        by_contra hc
        rw [List.getElem?_eq_none (by omega)] at h1
        cases h1
      have h2 := List.getElem?_eq_getElem hlt
      have := hnew i kv.1 _ (by rw [e2, List.getElem?_map, hi]; rfl) h2
      rw [h2]
      simp [new, this]
  rw [hA, hB, hC]
  have hD : (((sortItems m).filter (fun kv => kv.2.isNode)).map new).map (·.1) = aux.1 := by
    rw [e2, List.map_map]; rfl
  rw [hD, ← e3]

theorem inner_tree {c : Cls} {m : Md α} (wf : WFPytree m) (h : ∀ k x, dget m k = some x → x.isNode = true → GoodTree x) :
    ∃ kids d, IsInner (.tree c m) kids d := by
  have hf := pytreeFlatten_wf (c := c) wf
  have hst := sortItems_strict wf.nodup
  have hmem : ∀ (i : Nat) kv, ((sortItems m).filter (fun kv => kv.2.isNode))[i]? = some kv → dget m kv.1 = some kv.2 ∧ kv.2.isNode = true := by
    intro i kv hi
    obtain ⟨h1, h2⟩ := List.mem_filter.1 (List.mem_of_getElem? hi)
    exact ⟨sortItems_dget wf.nodup _ h1, h2⟩
  refine ⟨_, .tree c _, { flat := by rw [flattenNode, hf], notLeaf := id, len := by simp [NodeDef.steps], good := ?_, nodup := ?_, sub := ?_, inv := ?_, build := ?_ }⟩
  · intro k hk
    obtain ⟨kv, hkv, rfl⟩ := List.mem_map.1 hk
    obtain ⟨i, hi⟩ := List.getElem?_of_mem hkv
    exact h _ _ (hmem i kv hi).1 (hmem i kv hi).2
  · have h1 : ((sortItems m).map (·.1)).Nodup := hst.nodup
    refine List.Pairwise.map _ ?_ (h1.sublist (List.filter_sublist.map _))
    intro a b h e
    cases e
    exact h rfl
  · intro i s x p y hs hx hsub
    simp only [NodeDef.steps, List.getElem?_map, Option.map_eq_some_iff] at hs hx
    obtain ⟨k, ⟨kv, e1, rfl⟩, rfl⟩ := hs
    obtain ⟨kv', e2, rfl⟩ := hx
    rw [e1] at e2
    cases e2
    exact .field (hmem i kv e1).1 (hmem i kv e1).2 hsub
  · intro p y hsub
    cases hsub with
    | here => exact .inl ⟨rfl, rfl⟩
    | @field _ _ f x _ q hx hn hs =>
      have hin : (f, x) ∈ (sortItems m).filter (fun kv => kv.2.isNode) :=
        List.mem_filter.2 ⟨(sortItems_perm m).mem_iff.2 (dget_mem hx), hn⟩
      obtain ⟨i, hi⟩ := List.getElem?_of_mem hin
      exact .inr ⟨i, .attr f, x, q, by simp [NodeDef.steps, hi], by rw [List.getElem?_map, hi]; rfl, rfl, hs⟩
  · intro R ws hl hm
    obtain ⟨n, hu, hnd, hdom, hoth, hnew⟩ := C40_replace_children wf hf hl
    refine ⟨pytreeUnflatten c _ ws, rfl, ?_, ?_⟩
    · rw [hu]
      refine .tree hnd hdom ?_ hoth
      intro k x y hx hn hy
      have hin : (k, x) ∈ (sortItems m).filter (fun kv => kv.2.isNode) :=
        List.mem_filter.2 ⟨(sortItems_perm m).mem_iff.2 (dget_mem hx), hn⟩
      obtain ⟨i, hi⟩ := List.getElem?_of_mem hin
      have h1 : (((sortItems m).filter (fun kv => kv.2.isNode)).map (·.2))[i]? = some x := by rw [List.getElem?_map, hi]; rfl
      have hlt : i < ws.length := by
        by_contra hc
        rw [List.getElem?_eq_none (by omega)] at h1
        cases h1
      have h2 := List.getElem?_eq_getElem hlt
      have h3 := hnew i k _ (by rw [List.getElem?_map, hi]; rfl) h2
      rw [hy] at h3
      cases h3
      exact (hm i (.attr k) x _ (by simp [NodeDef.steps, hi]) h1 h2).1
    · intro hn
      rw [flattenNode.eq_def]
      rw [hu]
      simp only
      rw [← hu, pytreeFlatten_unflatten wf hf hl hn]

omit [DecidableEq α] in
theorem flattenNode_leaf {v : PyVal α} (h : TreeLeaf v) : flattenNode v = .ok Option.none := by
  cases v with
  | none => exact h.elim
  | str s => rfl
  | data c a => rfl
  | tup xs => exact h.elim
  | cmeta v m => rfl
  | tree c m => exact h.elim
  | dict m => exact h.elim
  | cont c v m => simp [flattenNode, flattenContainer, h.1, h.2]

/-- Every good tree is a leaf or an inner node. -/
theorem GoodTree.cases' {v : PyVal α} (h : GoodTree v) :
    (TreeLeaf v ∧ flattenNode v = .ok Option.none) ∨ ∃ kids d, IsInner v kids d := by
  cases h with
  | leaf h => exact .inl ⟨h, flattenNode_leaf h⟩
  | none => exact .inr ⟨_, _, inner_none⟩
  | tup h => exact .inr ⟨_, _, inner_tup h⟩
  | dict hn h => exact .inr ⟨_, _, inner_dict hn h⟩
  | @cont c v m wf h =>
    by_cases hc : c.isSub cNodeBase = true
    · exact .inr ⟨_, _, inner_cont wf hc h⟩
    · by_cases hs : c = cStatic
      · subst hs
        exact .inr ⟨_, _, inner_static wf⟩
      · simp only [Bool.not_eq_true] at hc
        exact .inl ⟨⟨hc, hs⟩, by simp [flattenNode, flattenContainer, hc, hs]⟩
  | tree wf h => exact .inr (inner_tree wf h)

/-! ### Fitting -/

omit [DecidableEq α] in
theorem not_fits_leaf {v r : PyVal α} (h : Fits v r) (hv : ¬ TreeLeaf v) : ¬ TreeLeaf r := by
  cases h with
  | leaf h => exact absurd h hv
  | none => exact hv
  | tup => exact id
  | dict => exact id
  | cont node => simp [TreeLeaf, node]
  | static => simp [TreeLeaf]
  | tree => exact id

theorem eqv_steps {d e : NodeDef α} (h : d.eqv e = true) : e.steps = d.steps := by
  cases d <;> cases e <;> simp_all [NodeDef.eqv, NodeDef.steps]
  rename_i a b
  obtain ⟨c, m, v⟩ := a
  obtain ⟨c', n, u⟩ := b
  obtain ⟨⟨rfl, _⟩, rfl⟩ := h
  cases v <;> rfl

/-- The fields of two Pytrees that fit: their children are at the same positions. -/
theorem treeFits {c c' : Cls} {m n : Md α} (wm : WFPytree m) (wn : WFPytree n) :
    (Fits (.tree c m) (.tree c' n) ↔ c = c' ∧
      (((sortItems m).filter (fun kv => kv.2.isNode)).map (·.1) = ((sortItems n).filter (fun kv => kv.2.isNode)).map (·.1)) ∧
      mdEq ((sortItems m).filter (fun kv => !kv.2.isNode)) ((sortItems n).filter (fun kv => !kv.2.isNode)) = true ∧
      ∀ (i : Nat) x z, (((sortItems m).filter (fun kv => kv.2.isNode)).map (·.2))[i]? = some x →
        (((sortItems n).filter (fun kv => kv.2.isNode)).map (·.2))[i]? = some z → Fits x z) := by
  have sm := sortItems_strict wm.nodup
  have sn := sortItems_strict wn.nodup
  have fnd : ∀ {l : Md α} (b : Str × PyVal α → Bool), StrictSorted l → DNodup (l.filter b) := by
    intro l b hl
    exact hl.nodup.sublist (List.filter_sublist.map _)
  have look : ∀ {l : Md α} (b : Str × PyVal α → Bool), DNodup l → ∀ k x, dget ((sortItems l).filter b) k = some x ↔ dget l k = some x ∧ b (k, x) = true := by
    intro l b hl k x
    constructor
    · intro h
      obtain ⟨h1, h2⟩ := List.mem_filter.1 (dget_mem h)
      exact ⟨sortItems_dget hl _ h1, h2⟩
    · rintro ⟨h1, h2⟩
      exact mem_dget (fnd b (sortItems_strict hl)) (List.mem_filter.2 ⟨(sortItems_perm l).mem_iff.2 (dget_mem h1), h2⟩)
  have look1 := look (l := m) (fun kv => kv.2.isNode) wm.nodup
  have look2 := look (l := n) (fun kv => kv.2.isNode) wn.nodup
  have look3 := look (l := m) (fun kv => !kv.2.isNode) wm.nodup
  have look4 := look (l := n) (fun kv => !kv.2.isNode) wn.nodup
  have dA := sm.filter (fun kv => kv.2.isNode)
  have dB := sn.filter (fun kv => kv.2.isNode)
  have dS := sm.filter (fun kv => !kv.2.isNode)
  have dT := sn.filter (fun kv => !kv.2.isNode)
  revert look1 look2 look3 look4 dA dB dS dT
  generalize (sortItems m).filter (fun kv => kv.2.isNode) = A
  generalize (sortItems n).filter (fun kv => kv.2.isNode) = B
  generalize (sortItems m).filter (fun kv => !kv.2.isNode) = S
  generalize (sortItems n).filter (fun kv => !kv.2.isNode) = T
  intro look1 look2 look3 look4 dA dB dS dT
  have mk : ∀ {d : Md α} {k : Str}, k ∈ dkeys d ↔ ∃ x, dget d k = some x := by
    intro d k
    rw [← dget_isSome, Option.isSome_iff_exists]
  have at' : ∀ {D : Md α} {k : Str} {x : PyVal α}, dget D k = some x → ∃ i : Nat, D[i]? = some (k, x) :=
    fun h => List.getElem?_of_mem (dget_mem h)
  rw [mdEq_iff dS.nodup dT.nodup]
  constructor
  · intro h
    cases h with
    | leaf h => exact h.elim
    | tree dom nodes entries others =>
      have hnames : A.map (·.1) = B.map (·.1) := by
        have := sortItems_names_ext dA.nodup dB.nodup (fun k => by
          rw [mk, mk]
          constructor
          · rintro ⟨x, hx⟩
            obtain ⟨h1, h2⟩ := (look1 k x).1 hx
            obtain ⟨y, hy⟩ := mk.1 ((dom k).2 (mk.2 ⟨x, h1⟩))
            exact ⟨y, (look2 k y).2 ⟨hy, by simpa [nodes k x y h1 hy] using h2⟩⟩
          · rintro ⟨y, hy⟩
            obtain ⟨h1, h2⟩ := (look2 k y).1 hy
            obtain ⟨x, hx⟩ := mk.1 ((dom k).1 (mk.2 ⟨y, h1⟩))
            exact ⟨x, (look1 k x).2 ⟨hx, by simpa [nodes k x y hx h1] using h2⟩⟩)
        rwa [sortItems_of_strict dA, sortItems_of_strict dB] at this
      refine ⟨rfl, hnames, ?_, ?_⟩
      · intro k
        apply Option.ext
        intro x
        rw [look3, look4]
        constructor
        · rintro ⟨h1, h2⟩
          exact ⟨others k x h1 (by simpa using h2), h2⟩
        · rintro ⟨h1, h2⟩
          obtain ⟨x', hx'⟩ := mk.1 ((dom k).1 (mk.2 ⟨x, h1⟩))
          have hb := nodes k x' x hx' h1
          have h3 := others k x' hx' (by rw [← hb]; simpa using h2)
          rw [h1] at h3
          cases h3
          exact ⟨hx', h2⟩
      · intro i x z hx hz
        rw [List.getElem?_map, Option.map_eq_some_iff] at hx hz
        obtain ⟨⟨k, x⟩, h1, rfl⟩ := hx
        obtain ⟨⟨k', z⟩, h2, rfl⟩ := hz
        have hk : (A.map (·.1))[i]? = (B.map (·.1))[i]? := by rw [hnames]
        rw [List.getElem?_map, List.getElem?_map, h1, h2] at hk
        cases hk
        obtain ⟨h3, h4⟩ := (look1 _ _).1 (mem_dget dA.nodup (List.mem_of_getElem? h1))
        obtain ⟨h5, _⟩ := (look2 _ _).1 (mem_dget dB.nodup (List.mem_of_getElem? h2))
        exact entries _ _ _ h3 h4 h5
  · rintro ⟨rfl, hnames, hstat, hkids⟩
    have other : ∀ k x, dget m k = some x → x.isNode = false → dget n k = some x := by
      intro k x hx hb
      have := (look3 k x).2 ⟨hx, by simpa using hb⟩
      rw [hstat k] at this
      exact ((look4 k x).1 this).1
    have node : ∀ k x, dget m k = some x → x.isNode = true → ∃ y, dget n k = some y ∧ y.isNode = true ∧ Fits x y := by
      intro k x hx hb
      obtain ⟨i, hi⟩ := at' ((look1 k x).2 ⟨hx, hb⟩)
      have hk : (A.map (·.1))[i]? = (B.map (·.1))[i]? := by rw [hnames]
      rw [List.getElem?_map, List.getElem?_map, hi] at hk
      obtain ⟨⟨k', z⟩, h2, e⟩ := Option.map_eq_some_iff.1 hk.symm
      cases e
      obtain ⟨h5, h6⟩ := (look2 _ _).1 (mem_dget dB.nodup (List.mem_of_getElem? h2))
      exact ⟨z, h5, h6, hkids i x z (by rw [List.getElem?_map, hi]; rfl) (by rw [List.getElem?_map, h2]; rfl)⟩
    have all : ∀ k x, dget m k = some x → ∃ y, dget n k = some y ∧ y.isNode = x.isNode := by
      intro k x hx
      cases hb : x.isNode with
      | false => exact ⟨x, other k x hx hb, hb⟩
      | true =>
        obtain ⟨y, h1, h2, _⟩ := node k x hx hb
        exact ⟨y, h1, h2⟩
    refine .tree ?_ ?_ ?_ other
    · intro k
      rw [mk, mk]
      constructor
      · rintro ⟨y, hy⟩
        cases hb : y.isNode with
        | false =>
          have := (look4 k y).2 ⟨hy, by simpa using hb⟩
          rw [← hstat k] at this
          exact ⟨y, ((look3 k y).1 this).1⟩
        | true =>
          obtain ⟨i, hi⟩ := at' ((look2 k y).2 ⟨hy, hb⟩)
          have hk : (A.map (·.1))[i]? = (B.map (·.1))[i]? := by rw [hnames]
          rw [List.getElem?_map, List.getElem?_map, hi] at hk
          obtain ⟨⟨k', z⟩, h2, e⟩ := Option.map_eq_some_iff.1 hk
          cases e
          exact ⟨z, ((look1 _ _).1 (mem_dget dA.nodup (List.mem_of_getElem? h2))).1⟩
      · rintro ⟨x, hx⟩
        obtain ⟨y, hy, _⟩ := all k x hx
        exact ⟨y, hy⟩
    · intro k x y hx hy
      obtain ⟨y', hy', hb⟩ := all k x hx
      rw [hy] at hy'
      cases hy'
      exact hb
    · intro k x y hx hb hy
      obtain ⟨y', hy', _, hf⟩ := node k x hx hb
      rw [hy] at hy'
      cases hy'
      exact hf

omit [DecidableEq α] in
theorem dictFits {m n : Md α} (wm : DNodup m) (wn : DNodup n) :
    Fits (.dict m) (.dict n) ↔ (sortItems m).map (·.1) = (sortItems n).map (·.1) ∧
      ∀ (i : Nat) x z, ((sortItems m).map (·.2))[i]? = some x → ((sortItems n).map (·.2))[i]? = some z → Fits x z := by
  constructor
  · intro h
    cases h with
    | leaf h => exact h.elim
    | dict dom entries =>
      have hnames := sortItems_names_ext wm wn (fun k => (dom k).symm)
      refine ⟨hnames, ?_⟩
      intro i x z hx hz
      rw [List.getElem?_map, Option.map_eq_some_iff] at hx hz
      obtain ⟨⟨k, x⟩, h1, rfl⟩ := hx
      obtain ⟨⟨k', z⟩, h2, rfl⟩ := hz
      have hk : ((sortItems m).map (·.1))[i]? = ((sortItems n).map (·.1))[i]? := by rw [hnames]
      rw [List.getElem?_map, List.getElem?_map, h1, h2] at hk
      cases hk
      exact entries k x z (sortItems_dget wm _ (List.mem_of_getElem? h1)) (sortItems_dget wn _ (List.mem_of_getElem? h2))
  · rintro ⟨hnames, hkids⟩
    refine .dict ?_ ?_
    · intro k
      have h1 : k ∈ (sortItems m).map (·.1) ↔ k ∈ dkeys m := ((sortItems_perm m).map (·.1)).mem_iff
      have h2 : k ∈ (sortItems n).map (·.1) ↔ k ∈ dkeys n := ((sortItems_perm n).map (·.1)).mem_iff
      rw [← h1, ← h2, hnames]
    · intro k x y hx hy
      obtain ⟨i, hi⟩ := List.getElem?_of_mem ((sortItems_perm m).mem_iff.2 (dget_mem hx))
      have hk : ((sortItems m).map (·.1))[i]? = ((sortItems n).map (·.1))[i]? := by rw [hnames]
      rw [List.getElem?_map, List.getElem?_map, hi] at hk
      obtain ⟨⟨k', z⟩, h2, e⟩ := Option.map_eq_some_iff.1 hk.symm
      cases e
      have := sortItems_dget wn _ (List.mem_of_getElem? h2)
      rw [hy] at this
      cases this
      exact hkids i x z (by rw [List.getElem?_map, hi]; rfl) (by rw [List.getElem?_map, h2]; rfl)

omit [DecidableEq α] in
theorem flattenNode_cont' {c : Cls} {v : PyVal α} {m : Md α} {kids : List (PyVal α)} {d : NodeDef α}
    (h : flattenNode (.cont c v m) = .ok (some (kids, d))) :
    ¬ TreeLeaf (.cont c v m) ∧ ((c.isSub cNodeBase = true ∧ kids = [v] ∧ d = .cont (c, m, none)) ∨
      (c = cStatic ∧ kids = [] ∧ d = .cont (c, m, some v))) := by
  simp only [flattenNode, flattenContainer] at h
  split at h
  · cases h
  · next kids' aux he =>
    cases h
    split at he
    · next hc =>
      cases he
      exact ⟨by simp [TreeLeaf, hc], .inl ⟨hc, rfl, rfl⟩⟩
    · split at he
      · next hc =>
        cases he
        subst hc
        exact ⟨by simp [TreeLeaf], .inr ⟨rfl, rfl, rfl⟩⟩
      · cases he

omit [DecidableEq α] in
theorem flattenNode_cont {c : Cls} {v : PyVal α} {m : Md α} {kids : List (PyVal α)} {d : NodeDef α}
    (h : flattenNode (.cont c v m) = .ok (some (kids, d))) : ∃ aux, d = .cont aux := by
  rcases (flattenNode_cont' h).2 with ⟨_, _, rfl⟩ | ⟨_, _, rfl⟩ <;> exact ⟨_, rfl⟩

omit [DecidableEq α] in
theorem flattenNode_tree {c : Cls} {m : Md α} {kids : List (PyVal α)} {d : NodeDef α}
    (h : flattenNode (.tree c m) = .ok (some (kids, d))) : ∃ aux, d = .tree c aux := by
  rw [flattenNode] at h
  split at h <;> cases h
  exact ⟨_, rfl⟩

/-- Two inner nodes fit when they have the same type and auxiliary data, and their children fit. -/
theorem fits_iff {v r : PyVal α} {kids kids' : List (PyVal α)} {d d' : NodeDef α} (gv : GoodTree v) (gr : GoodTree r)
    (hv : flattenNode v = .ok (some (kids, d))) (hr : flattenNode r = .ok (some (kids', d'))) :
    Fits v r ↔ d.eqv d' = true ∧ kids'.length = kids.length ∧ ∀ (i : Nat) x z, kids[i]? = some x → kids'[i]? = some z → Fits x z := by
  have nosub : cStatic.isSub cNodeBase = false := by decide
  cases v with
  | str s => cases hv
  | data c a => cases hv
  | cmeta v m => cases hv
  | none =>
    cases hv
    cases r with
    | none => cases hr; simp [NodeDef.eqv, Fits.none]
    | str s => cases hr
    | data c a => cases hr
    | cmeta v m => cases hr
    | tup xs => cases hr; exact ⟨fun h => by cases h with | leaf h => exact h.elim, fun h => by simp [NodeDef.eqv] at h⟩
    | dict xs => cases hr; exact ⟨fun h => by cases h with | leaf h => exact h.elim, fun h => by simp [NodeDef.eqv] at h⟩
    | cont c v m =>
      obtain ⟨aux, rfl⟩ := flattenNode_cont hr
      exact ⟨fun h => by cases h with | leaf h => exact h.elim, fun h => by simp [NodeDef.eqv] at h⟩
    | tree c m =>
      obtain ⟨aux, rfl⟩ := flattenNode_tree hr
      exact ⟨fun h => by cases h with | leaf h => exact h.elim, fun h => by simp [NodeDef.eqv] at h⟩
  | tup xs =>
    cases hv
    cases r with
    | tup ys =>
      cases hr
      constructor
      · intro h
        cases h with
        | leaf h => exact h.elim
        | tup len items => exact ⟨by simp [NodeDef.eqv, len], len, items⟩
      · rintro ⟨_, len, items⟩
        exact .tup len items
    | str s => cases hr
    | data c a => cases hr
    | cmeta v m => cases hr
    | none => cases hr; exact ⟨fun h => by cases h with | leaf h => exact h.elim, fun h => by simp [NodeDef.eqv] at h⟩
    | dict xs => cases hr; exact ⟨fun h => by cases h with | leaf h => exact h.elim, fun h => by simp [NodeDef.eqv] at h⟩
    | cont c v m =>
      obtain ⟨aux, rfl⟩ := flattenNode_cont hr
      exact ⟨fun h => by cases h with | leaf h => exact h.elim, fun h => by simp [NodeDef.eqv] at h⟩
    | tree c m =>
      obtain ⟨aux, rfl⟩ := flattenNode_tree hr
      exact ⟨fun h => by cases h with | leaf h => exact h.elim, fun h => by simp [NodeDef.eqv] at h⟩
  | dict m =>
    cases hv
    cases r with
    | dict n =>
      cases hr
      have wm : DNodup m := by cases gv with | leaf h => exact h.elim | dict nd _ => exact nd
      have wn : DNodup n := by cases gr with | leaf h => exact h.elim | dict nd _ => exact nd
      rw [dictFits wm wn]
      simp only [NodeDef.eqv, decide_eq_true_eq]
      constructor
      · rintro ⟨h1, h2⟩
        refine ⟨h1, ?_, h2⟩
        simpa using (congrArg List.length h1).symm
      · rintro ⟨h1, _, h2⟩
        exact ⟨h1, h2⟩
    | tup xs => cases hr; exact ⟨fun h => by cases h with | leaf h => exact h.elim, fun h => by simp [NodeDef.eqv] at h⟩
    | str s => cases hr
    | data c a => cases hr
    | cmeta v m => cases hr
    | none => cases hr; exact ⟨fun h => by cases h with | leaf h => exact h.elim, fun h => by simp [NodeDef.eqv] at h⟩
    | cont c v m =>
      obtain ⟨aux, rfl⟩ := flattenNode_cont hr
      exact ⟨fun h => by cases h with | leaf h => exact h.elim, fun h => by simp [NodeDef.eqv] at h⟩
    | tree c m =>
      obtain ⟨aux, rfl⟩ := flattenNode_tree hr
      exact ⟨fun h => by cases h with | leaf h => exact h.elim, fun h => by simp [NodeDef.eqv] at h⟩
  | tree c m =>
    have wm : WFPytree m := by cases gv with | leaf h => exact h.elim | tree wf _ => exact wf
    rw [flattenNode, pytreeFlatten_wf wm] at hv
    cases hv
    cases r with
    | tree c' n =>
      have wn : WFPytree n := by cases gr with | leaf h => exact h.elim | tree wf _ => exact wf
      rw [flattenNode, pytreeFlatten_wf wn] at hr
      cases hr
      rw [treeFits wm wn]
      simp only [NodeDef.eqv, Bool.and_eq_true, decide_eq_true_eq]
      constructor
      · rintro ⟨h1, h2, h3, h4⟩
        refine ⟨⟨⟨h1, h2⟩, h3⟩, ?_, h4⟩
        simpa using (congrArg List.length h2).symm
      · rintro ⟨⟨⟨h1, h2⟩, h3⟩, _, h4⟩
        exact ⟨h1, h2, h3, h4⟩
    | dict n => cases hr; exact ⟨fun h => by cases h with | leaf h => exact h.elim, fun h => by simp [NodeDef.eqv] at h⟩
    | tup xs => cases hr; exact ⟨fun h => by cases h with | leaf h => exact h.elim, fun h => by simp [NodeDef.eqv] at h⟩
    | str s => cases hr
    | data c a => cases hr
    | cmeta v m => cases hr
    | none => cases hr; exact ⟨fun h => by cases h with | leaf h => exact h.elim, fun h => by simp [NodeDef.eqv] at h⟩
    | cont c v m =>
      obtain ⟨aux, rfl⟩ := flattenNode_cont hr
      exact ⟨fun h => by cases h with | leaf h => exact h.elim, fun h => by simp [NodeDef.eqv] at h⟩
  | cont c v m =>
    obtain ⟨nl, hv⟩ := flattenNode_cont' hv
    obtain ⟨aux, rfl⟩ : ∃ aux, d = .cont aux := by rcases hv with ⟨_, _, rfl⟩ | ⟨_, _, rfl⟩ <;> exact ⟨_, rfl⟩
    cases r with
    | cont c' w n =>
      obtain ⟨nl', hr⟩ := flattenNode_cont' hr
      have wm : WFContainer (.cont c v m) := by cases gv with | leaf h => exact absurd h nl | cont wf _ => exact wf
      have wn : WFContainer (.cont c' w n) := by cases gr with | leaf h => exact absurd h nl' | cont wf _ => exact wf
      have dm : DNodup m := by cases wm; assumption
      have dn : DNodup n := by cases wn; assumption
      rcases hv with ⟨hc, rfl, e⟩ | ⟨rfl, rfl, e⟩ <;> cases e <;> rcases hr with ⟨hc', rfl, rfl⟩ | ⟨rfl, rfl, rfl⟩
      · simp only [NodeDef.eqv, Bool.and_eq_true, decide_eq_true_eq, mdEq_iff dm dn, and_true]
        constructor
        · intro h
          cases h with
          | leaf h => exact absurd h nl
          | cont _ same h => exact ⟨⟨rfl, same⟩, rfl, fun i x z hx hz => by
              cases i with
              | zero => cases hx; cases hz; exact h
              | succ i => simp at hx⟩
          | static => rw [nosub] at hc; cases hc
        · rintro ⟨⟨rfl, same⟩, _, h⟩
          exact .cont hc same (h 0 _ _ rfl rfl)
      · constructor
        · intro h
          cases h with
          | leaf h => exact absurd h nl
          | cont node => rw [nosub] at node; cases node
          | static => rw [nosub] at hc; cases hc
        · intro h
          simp [NodeDef.eqv] at h
      · constructor
        · intro h
          cases h with
          | leaf h => exact absurd h nl
          | cont node => rw [nosub] at node; cases node
          | static => rw [nosub] at hc'; cases hc'
        · intro h
          simp [NodeDef.eqv] at h
      · have hm : m = [] := by
          cases wm with
          | mk _ _ _ static _ => exact static (by decide)
        have hn : n = [] := by
          cases wn with
          | mk _ _ _ static _ => exact static (by decide)
        subst hm; subst hn
        simp only [NodeDef.eqv, Bool.and_eq_true, decide_eq_true_eq, mdEq_iff dm dn, Option.some.injEq, true_and]
        constructor
        · intro h
          cases h with
          | leaf h => exact absurd h nl
          | cont node => rw [nosub] at node; cases node
          | static => simp [MdSame]
        · intro h
          have : v = w := by simp_all
          subst this
          exact .static
    | dict n => cases hr; exact ⟨fun h => by cases h with | leaf h => exact absurd h nl, fun h => by simp [NodeDef.eqv] at h⟩
    | tup xs => cases hr; exact ⟨fun h => by cases h with | leaf h => exact absurd h nl, fun h => by simp [NodeDef.eqv] at h⟩
    | str s => cases hr
    | data c a => cases hr
    | cmeta v m => cases hr
    | none => cases hr; exact ⟨fun h => by cases h with | leaf h => exact absurd h nl, fun h => by simp [NodeDef.eqv] at h⟩
    | tree c m =>
      obtain ⟨aux, rfl⟩ := flattenNode_tree hr
      exact ⟨fun h => by cases h with | leaf h => exact absurd h nl, fun h => by simp [NodeDef.eqv] at h⟩

end Nnx
