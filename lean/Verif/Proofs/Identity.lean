import Verif.Spec.Identity
import Verif.Proofs.Forget
import Verif.Proofs.Context
/-
Modules whose attributes refer to container objects behave as Modules whose attributes are values.
-/
namespace Nnx
variable {α : Type}

/-! ### References -/

theorem attr_seen_ref (B : Boxes α) (l : Loc) : (Attr.ref l : Attr (Held α)).seen B = .ref l := rfl
theorem attr_seen_val (B : Boxes α) (v : PyVal (Held α)) : (Attr.val v).seen B = .val (v.seen B) := rfl

theorem RefOk.cls {B : Boxes α} {v : PyVal (Held α)} (h : RefOk B v) : (v.seen B).cls = v.cls := by
  obtain ⟨x, rfl, _⟩ := h
  rfl

theorem isNode_of_cls {β γ : Type} {u : PyVal β} {v : PyVal γ} (h : u.cls = v.cls) : u.isNode = v.isNode := by
  simp only [PyVal.isNode, PyVal.isInstance, h]

theorem RefOk.isNode {B : Boxes α} {v : PyVal (Held α)} (h : RefOk B v) : (v.seen B).isNode = v.isNode := isNode_of_cls h.cls

theorem getD_of_some {β : Type} {l : List β} {i : Nat} {x d : β} (h : l[i]? = some x) : l.getD i d = x := by
  simp [List.getD, h]

theorem prefix_getElem? {β : Type} {l m : List β} (h : l <+: m) {i : Nat} {x : β} (e : l[i]? = some x) : m[i]? = some x := by
  obtain ⟨t, rfl⟩ := h
  rw [List.getElem?_append_left (List.getElem?_eq_some_iff.1 e).1, e]

theorem RefOk.mono {B B' : Boxes α} (h : B <+: B') {v : PyVal (Held α)} (r : RefOk B v) : RefOk B' v ∧ v.seen B' = v.seen B := by
  obtain ⟨x, rfl, hx⟩ := r
  cases x with
  | val u => exact ⟨⟨.val u, rfl, hx⟩, rfl⟩
  | box b =>
    obtain ⟨c, u, m, e⟩ := hx
    have e' := prefix_getElem? h e
    have s1 : (Held.box b).seen B = .cont c u m := getD_of_some e
    have s2 : (Held.box b).seen B' = .cont c u m := getD_of_some e'
    refine ⟨⟨.box b, ?_, c, u, m, e'⟩, ?_⟩
    · simp only [Held.obj, s1, s2]
    · simp only [Held.obj, PyVal.seen, s1, s2]

theorem Attr.RefOk.mono {B B' : Boxes α} (h : B <+: B') {a : Attr (Held α)} (r : a.RefOk B) : a.RefOk B' ∧ a.seen B' = a.seen B := by
  cases a with
  | ref l => exact ⟨trivial, rfl⟩
  | val v =>
    obtain ⟨h1, h2⟩ := Nnx.RefOk.mono h (v := v) r
    exact ⟨h1, congrArg Attr.val h2⟩

theorem ItemsOk.mono {B B' : Boxes α} (h : B <+: B') {items : List (Str × PyVal (Held α))} (r : ItemsOk B items) :
    ItemsOk B' items ∧ (items.map fun kv => (kv.1, kv.2.seen B')) = items.map fun kv => (kv.1, kv.2.seen B) := by
  refine ⟨fun kv hkv => ((r kv hkv).mono h).1, ?_⟩
  apply List.map_congr_left
  intro kv hkv
  rw [((r kv hkv).mono h).2]

theorem StaticsOk.mono {B B' : Boxes α} (h : B <+: B') {items : List (Str × PyVal (Held α))} (r : StaticsOk B items) :
    StaticsOk B' items ∧ (items.map fun kv => (kv.1, kv.2.seen B')) = items.map fun kv => (kv.1, kv.2.seen B) :=
  ⟨fun kv hkv => ⟨((r kv hkv).1.mono h).1, (r kv hkv).2⟩, (ItemsOk.mono h (fun kv hkv => (r kv hkv).1)).2⟩

theorem HeapOk.mono {B B' : Boxes α} (h : B <+: B') {H : Heap (Held α)} (r : HeapOk B H) :
    HeapOk B' H ∧ H.map (ModObj.seen B') = H.map (ModObj.seen B) := by
  refine ⟨fun o ho => ⟨(r o ho).1, fun kv hkv => (((r o ho).2 kv hkv).mono h).1⟩, ?_⟩
  apply List.map_congr_left
  intro o ho
  have : (o.attrs.map fun kv => (kv.1, kv.2.seen B')) = o.attrs.map fun kv => (kv.1, kv.2.seen B) := by
    apply List.map_congr_left
    intro kv hkv
    rw [(((r o ho).2 kv hkv).mono h).2]
  simp only [ModObj.seen, this]

theorem Subs.Ok.mono {B B' : Boxes α} (h : B <+: B') : ∀ {s : Subs (Held α)}, s.Ok B → s.Ok B' ∧ s.seen B' = s.seen B
  | .nil, _ => ⟨trivial, rfl⟩
  | .ref _ _ r, hr => by
    obtain ⟨h1, h2⟩ := Subs.Ok.mono h (s := r) hr
    exact ⟨h1, by simp only [Subs.seen, h2]⟩
  | .sub _ _ _ s st _ r, hr => by
    obtain ⟨a1, a2⟩ := Subs.Ok.mono h hr.1
    obtain ⟨b1, b2⟩ := hr.2.1.mono h
    obtain ⟨c1, c2⟩ := Subs.Ok.mono h hr.2.2
    exact ⟨⟨a1, b1, c1⟩, by simp only [Subs.seen, a2, b2, c2]⟩

theorem ModuleDef.Ok.mono {B B' : Boxes α} (h : B <+: B') {d : ModuleDef (Held α)} (r : d.Ok B) : d.Ok B' ∧ d.seen B' = d.seen B := by
  obtain ⟨a1, a2⟩ := Subs.Ok.mono h r.1
  obtain ⟨b1, b2⟩ := r.2.mono h
  exact ⟨⟨a1, b1⟩, by simp only [ModuleDef.seen, a2, b2]⟩

theorem heap_seen_getElem (B : Boxes α) (h : Heap (Held α)) (l : Loc) : (h.map (ModObj.seen B))[l]? = (h[l]?).map (ModObj.seen B) := by
  simp

theorem attrs_seen_dget (B : Boxes α) (d : Dict Str (Attr (Held α))) (n : Str) :
    dget (d.map fun kv => (kv.1, kv.2.seen B)) n = (dget d n).map (Attr.seen B) := dget_map_val (fun _ => Attr.seen B) d n

theorem attrAt_seen (B : Boxes α) (h : Heap (Held α)) (l : Loc) (n : Str) :
    attrAt (h.map (ModObj.seen B)) l n = (attrAt h l n).map (Attr.seen B) := by
  simp only [attrAt, heap_seen_getElem]
  cases h[l]? with
  | none => rfl
  | some o => exact attrs_seen_dget B o.attrs n

theorem HeapOk.obj {B : Boxes α} {h : Heap (Held α)} (r : HeapOk B h) {l : Loc} {o : ModObj (Held α)} (e : h[l]? = some o) :
    DNodup o.attrs ∧ ∀ kv ∈ o.attrs, kv.2.RefOk B := r o (List.mem_of_getElem? e)

theorem HeapOk.set {B : Boxes α} {h : Heap (Held α)} (r : HeapOk B h) {l : Loc} {o : ModObj (Held α)}
    (ho : DNodup o.attrs ∧ ∀ kv ∈ o.attrs, kv.2.RefOk B) : HeapOk B (h.set l o) := by
  intro o' h'
  rcases List.mem_or_eq_of_mem_set h' with h' | rfl
  · exact r o' h'
  · exact ho

theorem HeapOk.append {B : Boxes α} {h : Heap (Held α)} (r : HeapOk B h) {o : ModObj (Held α)}
    (ho : DNodup o.attrs ∧ ∀ kv ∈ o.attrs, kv.2.RefOk B) : HeapOk B (h ++ [o]) := by
  intro o' h'
  rcases List.mem_append.1 h' with h' | h'
  · exact r o' h'
  · cases List.mem_singleton.1 h'
    exact ho

/-! ### get_state -/

theorem state_new_seen (B : Boxes α) (items : List (Str × PyVal (Held α))) :
    (State.new items).seen B = State.new (items.map fun kv => (kv.1, kv.2.seen B)) := by
  simp only [State.new, State.seen, sortItems_map, dofList_map_val]

theorem mem_sortItems_iff {V : Type} {l : List (Str × V)} {x : Str × V} : x ∈ sortItems l ↔ x ∈ l := (sortItems_perm l).mem_iff

theorem state_new_ok {B : Boxes α} {items : List (Str × PyVal (Held α))} (h : ItemsOk B items) : ItemsOk B (State.new items).items :=
  fun kv hkv => h kv (mem_sortItems_iff.1 (mem_dofList hkv))

/-- Entries with what one sees. -/
def seenItems (B : Boxes α) (items : List (Str × PyVal (Held α))) : List (Str × PyVal α) := items.map fun kv => (kv.1, kv.2.seen B)

theorem iterStateAttrs_boxes {B : Boxes α} {rec : Loc → List Nat → List Str → Option (List (Str × PyVal (Held α)) × List Nat)}
    {rec' : Loc → List Nat → List Str → Option (List (Str × PyVal α) × List Nat)}
    (hr : ∀ l idx p, rec' l idx p = (rec l idx p).map fun r => (seenItems B r.1, r.2))
    (hok : ∀ l idx p r, rec l idx p = some r → ItemsOk B r.1) (as : List (Str × Attr (Held α))) :
    (∀ kv ∈ as, kv.2.RefOk B) → ∀ idx p, iterStateAttrs rec' (as.map fun kv => (kv.1, kv.2.seen B)) idx p =
      ((iterStateAttrs rec as idx p).map fun r => (seenItems B r.1, r.2)) ∧ ∀ r, iterStateAttrs rec as idx p = some r → ItemsOk B r.1 := by
  induction as with
  | nil =>
    intro _ idx p
    refine ⟨rfl, fun r h => ?_⟩
    cases h
    exact fun kv h => (by cases h)
  | cons x as ih =>
    intro ok idx p
    obtain ⟨n, a⟩ := x
    have ih := ih (fun kv h => ok kv (.tail _ h))
    cases a with
    | ref l =>
      simp only [List.map_cons, attr_seen_ref, iterStateAttrs, hr]
      cases e : rec l idx (p ++ [n]) with
      | none => exact ⟨rfl, fun r h => by cases h⟩
      | some r =>
        have k := ih r.2 p
        simp only [Option.map_some, k.1]
        cases e' : iterStateAttrs rec as r.2 p with
        | none => exact ⟨rfl, fun r h => by cases h⟩
        | some r' =>
          refine ⟨by simp [seenItems], ?_⟩
          intro r0 h0 kv hkv
          cases h0
          rcases List.mem_append.1 hkv with h | h
          · exact hok _ _ _ _ e kv h
          · exact k.2 _ e' kv h
    | val v =>
      have hv : RefOk B v := ok _ (.head _)
      have k := ih idx p
      simp only [List.map_cons, attr_seen_val, iterStateAttrs, k.1, hv.isNode]
      cases e : iterStateAttrs rec as idx p with
      | none => exact ⟨rfl, fun r h => by cases h⟩
      | some r =>
        simp only [Option.map_some]
        constructor
        · split <;> rfl
        · intro r0 h0
          split at h0
          · cases h0
            intro kv hkv
            rcases List.mem_cons.1 hkv with rfl | h
            · exact hv
            · exact k.2 _ e kv h
          · cases h0
            exact k.2 _ e

theorem iterStateRec_boxes {B : Boxes α} {h : Heap (Held α)} (ok : HeapOk B h) : ∀ (fuel : Nat),
    (∀ l idx p, iterStateRec (h.map (ModObj.seen B)) fuel l idx p = (iterStateRec h fuel l idx p).map fun r => (seenItems B r.1, r.2)) ∧
      ∀ l idx p r, iterStateRec h fuel l idx p = some r → ItemsOk B r.1 := by
  intro fuel
  induction fuel with
  | zero => exact ⟨fun l idx p => rfl, fun l idx p r h => by cases h⟩
  | succ fuel ih =>
    have key : ∀ l idx p, iterStateRec (h.map (ModObj.seen B)) (fuel + 1) l idx p =
        ((iterStateRec h (fuel + 1) l idx p).map fun r => (seenItems B r.1, r.2)) ∧
        ∀ r, iterStateRec h (fuel + 1) l idx p = some r → ItemsOk B r.1 := by
      intro l idx p
      simp only [iterStateRec, heap_seen_getElem]
      cases e : h[l]? with
      | none => exact ⟨rfl, fun r h => by cases h⟩
      | some o =>
        have k := iterStateAttrs_boxes ih.1 ih.2 (sortItems o.attrs)
          (fun kv hkv => (ok.obj e).2 kv (mem_sortItems_iff.1 hkv)) (idx ++ [o.uid]) p
        simp only [Option.map_some, ModObj.seen, sortItems_map]
        constructor
        · split
          · rfl
          · exact k.1
        · intro r hr
          split at hr
          · cases hr; exact fun kv h => (by cases h)
          · exact k.2 r hr
    exact ⟨fun l idx p => (key l idx p).1, fun l idx p => (key l idx p).2⟩

theorem getState_seen {B : Boxes α} {h : Heap (Held α)} (ok : HeapOk B h) (fuel : Nat) (l : Loc) :
    getState fuel (h.map (ModObj.seen B)) l = (getState fuel h l).map (State.seen B) ∧
      ∀ s, getState fuel h l = some s → ItemsOk B s.items := by
  simp only [getState, (iterStateRec_boxes ok fuel).1]
  cases e : iterStateRec h fuel l [] [] with
  | none => exact ⟨rfl, fun s h => by cases h⟩
  | some r =>
    refine ⟨?_, ?_⟩
    · simp only [Option.map_some, state_new_seen, seenItems]
    · intro s hs
      cases hs
      exact state_new_ok ((iterStateRec_boxes ok fuel).2 _ _ _ _ e)

/-! ### ModuleDef -/

/-- The result of `_make_module_def_recursive` with what one sees. -/
def seenDef (B : Boxes α) : Nat ⊕ ModuleDef (Held α) → Nat ⊕ ModuleDef α
  | .inl i => .inl i
  | .inr d => .inr (d.seen B)

def DefOk (B : Boxes α) : Nat ⊕ ModuleDef (Held α) → Prop
  | .inl _ => True
  | .inr d => d.Ok B

theorem subs_cons_seen (B : Boxes α) (n : Str) (d : Nat ⊕ ModuleDef (Held α)) (s : Subs (Held α)) :
    (Subs.cons n d s).seen B = Subs.cons n (seenDef B d) (s.seen B) := by
  cases d <;> rfl

theorem subs_cons_ok {B : Boxes α} {n : Str} {d : Nat ⊕ ModuleDef (Held α)} {s : Subs (Held α)} (hd : DefOk B d) (hs : s.Ok B) :
    (Subs.cons n d s).Ok B := by
  cases d with
  | inl i => exact hs
  | inr d => exact ⟨hd.1, hd.2, hs⟩

theorem makeDefAttrs_seen {B : Boxes α} {rec : Loc → List Nat → Option ((Nat ⊕ ModuleDef (Held α)) × List Nat)}
    {rec' : Loc → List Nat → Option ((Nat ⊕ ModuleDef α) × List Nat)}
    (hr : ∀ l idx, rec' l idx = (rec l idx).map fun r => (seenDef B r.1, r.2))
    (hok : ∀ l idx r, rec l idx = some r → DefOk B r.1) (as : List (Str × Attr (Held α))) :
    (∀ kv ∈ as, kv.2.RefOk B) → ∀ idx, makeDefAttrs rec' (as.map fun kv => (kv.1, kv.2.seen B)) idx =
      ((makeDefAttrs rec as idx).map fun r => (r.1.seen B, seenItems B r.2.1, r.2.2)) ∧
      ∀ r, makeDefAttrs rec as idx = some r → r.1.Ok B ∧ StaticsOk B r.2.1 := by
  induction as with
  | nil =>
    intro _ idx
    refine ⟨rfl, fun r h => ?_⟩
    cases h
    exact ⟨trivial, fun kv h => (by cases h)⟩
  | cons x as ih =>
    intro ok idx
    obtain ⟨n, a⟩ := x
    have ih := ih (fun kv h => ok kv (.tail _ h))
    cases a with
    | ref l =>
      simp only [List.map_cons, attr_seen_ref, makeDefAttrs, hr]
      cases e : rec l idx with
      | none => exact ⟨rfl, fun r h => by cases h⟩
      | some r =>
        have k := ih r.2
        simp only [Option.map_some, k.1]
        cases e' : makeDefAttrs rec as r.2 with
        | none => exact ⟨rfl, fun r h => by cases h⟩
        | some r' =>
          refine ⟨by simp [subs_cons_seen], ?_⟩
          intro r0 h0
          cases h0
          exact ⟨subs_cons_ok (hok _ _ _ e) (k.2 _ e').1, (k.2 _ e').2⟩
    | val v =>
      have hv : RefOk B v := ok _ (.head _)
      have k := ih idx
      simp only [List.map_cons, attr_seen_val, makeDefAttrs, k.1, hv.isNode]
      cases e : makeDefAttrs rec as idx with
      | none => exact ⟨rfl, fun r h => by cases h⟩
      | some r =>
        simp only [Option.map_some]
        constructor
        · split <;> rfl
        · intro r0 h0
          split at h0
          · next hc =>
            cases h0
            refine ⟨(k.2 _ e).1, ?_⟩
            intro kv hkv
            rcases List.mem_cons.1 hkv with rfl | h
            · refine ⟨hv, ?_⟩
              simp only [Bool.and_eq_true, Bool.not_eq_true'] at hc
              exact hc.1
            · exact (k.2 _ e).2 kv h
          · cases h0
            exact k.2 _ e

theorem makeDefRec_seen {B : Boxes α} {h : Heap (Held α)} (ok : HeapOk B h) : ∀ (fuel : Nat),
    (∀ l idx, makeDefRec (h.map (ModObj.seen B)) fuel l idx = (makeDefRec h fuel l idx).map fun r => (seenDef B r.1, r.2)) ∧
      ∀ l idx r, makeDefRec h fuel l idx = some r → DefOk B r.1 := by
  intro fuel
  induction fuel with
  | zero => exact ⟨fun l idx => rfl, fun l idx r h => by cases h⟩
  | succ fuel ih =>
    have key : ∀ l idx, makeDefRec (h.map (ModObj.seen B)) (fuel + 1) l idx =
        ((makeDefRec h (fuel + 1) l idx).map fun r => (seenDef B r.1, r.2)) ∧
        ∀ r, makeDefRec h (fuel + 1) l idx = some r → DefOk B r.1 := by
      intro l idx
      simp only [makeDefRec, heap_seen_getElem]
      cases e : h[l]? with
      | none => exact ⟨rfl, fun r h => by cases h⟩
      | some o =>
        have k := makeDefAttrs_seen ih.1 ih.2 (sortItems o.attrs)
          (fun kv hkv => (ok.obj e).2 kv (mem_sortItems_iff.1 hkv)) (idx ++ [o.uid])
        simp only [Option.map_some, ModObj.seen, sortItems_map]
        by_cases hu : o.uid ∈ idx
        · simp only [hu, if_true]
          refine ⟨rfl, fun r hr => ?_⟩
          cases hr; trivial
        · simp only [hu, if_false, k.1]
          cases e' : makeDefAttrs (makeDefRec h fuel) (sortItems o.attrs) (idx ++ [o.uid]) with
          | none => exact ⟨rfl, fun r h => by cases h⟩
          | some r' =>
            refine ⟨by simp only [Option.map_some, seenDef, ModuleDef.seen, seenItems], fun r hr => ?_⟩
            cases hr
            exact k.2 _ e'
    exact ⟨fun l idx => (key l idx).1, fun l idx => (key l idx).2⟩

theorem getModuleDef_seen {B : Boxes α} {h : Heap (Held α)} (ok : HeapOk B h) (fuel : Nat) (l : Loc) :
    getModuleDef fuel (h.map (ModObj.seen B)) l = (getModuleDef fuel h l).map (ModuleDef.seen B) ∧
      ∀ d, getModuleDef fuel h l = some d → d.Ok B := by
  simp only [getModuleDef, (makeDefRec_seen ok fuel).1]
  cases e : makeDefRec h fuel l [] with
  | none => exact ⟨rfl, fun s h => by cases h⟩
  | some r =>
    obtain ⟨d, idx⟩ := r
    cases d with
    | inl i => exact ⟨rfl, fun s h => by cases h⟩
    | inr d =>
      refine ⟨rfl, fun s hs => ?_⟩
      cases hs
      exact (makeDefRec_seen ok fuel).2 _ _ _ e

/-! ### partition and pop_state -/

theorem splitInsert_seen (B : Boxes α) (preds : List (Pred α)) : ∀ (ds : List (Dict Str (PyVal (Held α)))) (path : Str) (v : PyVal (Held α)),
    splitInsert preds (ds.map (seenItems B)) path (v.seen B) = (splitInsert (preds.map (seenPred B)) ds path v).map (seenItems B) := by
  induction preds with
  | nil =>
    intro ds path v
    cases ds with
    | nil => rfl
    | cons d ds => simp only [List.map_cons, List.map_nil, splitInsert, seenItems, dset_map_val]
  | cons p ps ih =>
    intro ds path v
    cases ds with
    | nil => rfl
    | cons d ds =>
      simp only [List.map_cons, splitInsert, seenPred, ih]
      by_cases hp : p path (v.seen B) = true
      · simp only [hp, if_true, List.map_cons, seenItems, dset_map_val]
      · simp only [hp, Bool.false_eq_true, if_false, List.map_cons]

theorem dset_ok {B : Boxes α} {d : Dict Str (PyVal (Held α))} {k : Str} {v : PyVal (Held α)} (hd : ItemsOk B d) (hv : RefOk B v) :
    ItemsOk B (dset d k v) := by
  intro kv h
  rcases mem_dset_cases h with rfl | h
  · exact hv
  · exact hd kv h

theorem splitInsert_ok {B : Boxes α} {path : Str} {v : PyVal (Held α)} (hv : RefOk B v) (preds : List (Pred (Held α))) :
    ∀ (ds : List (Dict Str (PyVal (Held α)))), (∀ d ∈ ds, ItemsOk B d) → ∀ d ∈ splitInsert preds ds path v, ItemsOk B d := by
  induction preds with
  | nil =>
    intro ds h d hd
    cases ds with
    | nil => cases hd
    | cons d0 ds =>
      rcases List.mem_cons.1 hd with rfl | hd
      · exact dset_ok (h _ (.head _)) hv
      · exact h _ (.tail _ hd)
  | cons p ps ih =>
    intro ds h d hd
    cases ds with
    | nil => cases hd
    | cons d0 ds =>
      simp only [splitInsert] at hd
      split at hd
      · rcases List.mem_cons.1 hd with rfl | hd
        · exact dset_ok (h _ (.head _)) hv
        · exact h _ (.tail _ hd)
      · rcases List.mem_cons.1 hd with rfl | hd
        · exact h _ (.head _)
        · exact ih ds (fun d h' => h d (.tail _ h')) d hd

theorem splitFold_seen {B : Boxes α} {preds : List (Pred α)} (items : List (Str × PyVal (Held α))) :
    ItemsOk B items → ∀ (ds : List (Dict Str (PyVal (Held α)))), (∀ d ∈ ds, ItemsOk B d) →
    (seenItems B items).foldl (fun ds kv => splitInsert preds ds kv.1 kv.2) (ds.map (seenItems B)) =
      (items.foldl (fun ds kv => splitInsert (preds.map (seenPred B)) ds kv.1 kv.2) ds).map (seenItems B) ∧
    ∀ d ∈ items.foldl (fun ds kv => splitInsert (preds.map (seenPred B)) ds kv.1 kv.2) ds, ItemsOk B d := by
  induction items with
  | nil => intro _ ds h; exact ⟨rfl, h⟩
  | cons x items ih =>
    intro ok ds h
    have := ih (fun kv h => ok kv (.tail _ h)) (splitInsert (preds.map (seenPred B)) ds x.1 x.2)
      (splitInsert_ok (ok x (.head _)) _ ds h)
    simp only [seenItems, List.map_cons, List.foldl_cons] at this ⊢
    refine ⟨?_, this.2⟩
    rw [← this.1]
    congr 1
    exact splitInsert_seen B preds ds x.1 x.2

theorem replicate_seen (B : Boxes α) (n : Nat) :
    (List.replicate n ([] : Dict Str (PyVal (Held α)))).map (seenItems B) = List.replicate n [] := by
  simp [seenItems]

theorem replicate_ok (B : Boxes α) (n : Nat) : ∀ d ∈ List.replicate n ([] : Dict Str (PyVal (Held α))), ItemsOk B d := by
  intro d hd kv hkv
  rw [List.eq_of_mem_replicate hd] at hkv
  cases hkv

theorem partitionState_seen {B : Boxes α} {s : State (PyVal (Held α))} (ok : ItemsOk B s.items) (fs : List (Filter α)) :
    (s.seen B).partition fs = (partitionBoxState B s fs).map (fun ss => ss.map (State.seen B)) ∧
      ∀ ss, partitionBoxState B s fs = .ok ss → ∀ t ∈ ss, ItemsOk B t.items := by
  simp only [State.partition, splitState, partitionBoxState, splitBoxState]
  cases he : ellipsisMisplaced fs with
  | true => exact ⟨rfl, fun ss h => by cases h⟩
  | false =>
    cases toPredicates fs with
    | error e => exact ⟨rfl, fun ss h => by cases h⟩
    | ok preds =>
      simp only [Bool.false_eq_true, if_false]
      have k := splitFold_seen (preds := preds) s.items ok _ (replicate_ok B (preds.length + 1))
      rw [replicate_seen] at k
      have hs : (s.seen B).items = seenItems B s.items := rfl
      simp only [hs, k.1]
      generalize List.foldl _ _ s.items = ds at k
      have hlast : ((ds.map (seenItems B)).getLastD []).length = (ds.getLastD []).length := by
        simp only [List.getLastD_eq_getLast?, List.getLast?_map]
        cases ds.getLast? with
        | none => rfl
        | some d => simp [seenItems]
      simp only [hlast]
      split
      · exact ⟨rfl, fun ss h => by cases h⟩
      · refine ⟨?_, ?_⟩
        · simp only [Except.map, List.map_dropLast, List.map_map]
          congr 2
          apply List.map_congr_left
          intro d _
          simp only [Function.comp, state_new_seen, seenItems]
        · intro ss h t ht
          cases h
          obtain ⟨d, hd, rfl⟩ := List.mem_map.1 ht
          exact state_new_ok (k.2 d (List.dropLast_subset _ hd))

theorem popInsert_seen (B : Boxes α) (preds : List (Pred α)) : ∀ (ds : List (Dict Str (PyVal (Held α)))) (path : Str) (v : PyVal (Held α)),
    popInsert preds (ds.map (seenItems B)) path (v.seen B) = (popInsert (preds.map (seenPred B)) ds path v).map (fun ds => ds.map (seenItems B)) := by
  induction preds with
  | nil => intro ds path v; cases ds <;> rfl
  | cons p ps ih =>
    intro ds path v
    cases ds with
    | nil => rfl
    | cons d ds =>
      simp only [List.map_cons, popInsert, seenPred, ih]
      by_cases hp : p path (v.seen B) = true
      · simp only [hp, if_true, Option.map_some, List.map_cons, seenItems, dset_map_val]
      · simp only [hp, Bool.false_eq_true, if_false]
        cases popInsert (ps.map (seenPred B)) ds path v <;> rfl

theorem popInsert_ok {B : Boxes α} {path : Str} {v : PyVal (Held α)} (hv : RefOk B v) (preds : List (Pred (Held α))) :
    ∀ (ds ds' : List (Dict Str (PyVal (Held α)))), (∀ d ∈ ds, ItemsOk B d) → popInsert preds ds path v = some ds' → ∀ d ∈ ds', ItemsOk B d := by
  induction preds with
  | nil => intro ds ds' h e; cases ds <;> cases e
  | cons p ps ih =>
    intro ds ds' h e d hd
    cases ds with
    | nil => cases e
    | cons d0 ds =>
      simp only [popInsert] at e
      split at e
      · cases e
        rcases List.mem_cons.1 hd with rfl | hd
        · exact dset_ok (h _ (.head _)) hv
        · exact h _ (.tail _ hd)
      · cases e' : popInsert ps ds path v with
        | none => rw [e'] at e; cases e
        | some ds1 =>
          rw [e'] at e
          cases e
          rcases List.mem_cons.1 hd with rfl | hd
          · exact h _ (.head _)
          · exact ih ds ds1 (fun d h' => h d (.tail _ h')) e' d hd

/-! ### The steps in which Modules change -/

/-- One elementary change of the Modules and the container objects. -/
inductive BoxStep : Heap (Held α) → Boxes α → Heap (Held α) → Boxes α → Prop
  | alloc {H : Heap (Held α)} {B : Boxes α} (o : ModObj (Held α)) : o.attrs = [] → BoxStep H B (H ++ [o]) B
  | fill {H : Heap (Held α)} {B : Boxes α} (l : Loc) (o : ModObj (Held α)) : DNodup o.attrs →
      (∀ kv ∈ o.attrs, kv.2.RefOk B ∧ ∀ v, kv.2 = .val v → v.isNode = false) → BoxStep H B (H.set l o) B
  | grow {H : Heap (Held α)} {B : Boxes α} (c : Cls) (u : PyVal α) (m : Md α) : BoxStep H B H (B ++ [.cont c u m])
  | put {H : Heap (Held α)} {B : Boxes α} {l : Loc} {o : ModObj (Held α)} (n : Str) (a : Attr (Held α)) : H[l]? = some o → a.RefOk B →
      (∀ c b, a ≠ .val (.data c (.box b))) → BoxStep H B (H.set l { o with attrs := dset o.attrs n a }) B
  | putNew {H : Heap (Held α)} {B : Boxes α} {l : Loc} {o : ModObj (Held α)} (n : Str) (c : Cls) (u : PyVal α) (m : Md α) :
      H[l]? = some o →
      BoxStep H B (H.set l { o with attrs := dset o.attrs n (.val (newBox B (.cont c u m)).2) }) (B ++ [.cont c u m])
  | del {H : Heap (Held α)} {B : Boxes α} {l : Loc} {o : ModObj (Held α)} (n : Str) : H[l]? = some o →
      BoxStep H B (H.set l { o with attrs := ddel o.attrs n }) B

inductive BoxSteps : Heap (Held α) → Boxes α → Heap (Held α) → Boxes α → Prop
  | refl {H : Heap (Held α)} {B : Boxes α} : BoxSteps H B H B
  | tail {H : Heap (Held α)} {B : Boxes α} {H' : Heap (Held α)} {B' : Boxes α} {H'' : Heap (Held α)} {B'' : Boxes α} :
      BoxSteps H B H' B' → BoxStep H' B' H'' B'' → BoxSteps H B H'' B''

theorem BoxStep.one {H : Heap (Held α)} {B : Boxes α} {H' : Heap (Held α)} {B' : Boxes α} (h : BoxStep H B H' B') : BoxSteps H B H' B' :=
  .tail .refl h

theorem BoxSteps.trans {H : Heap (Held α)} {B : Boxes α} {H' : Heap (Held α)} {B' : Boxes α} {H'' : Heap (Held α)} {B'' : Boxes α}
    (h : BoxSteps H B H' B') (h' : BoxSteps H' B' H'' B'') : BoxSteps H B H'' B'' := by
  induction h' with
  | refl => exact h
  | tail _ s ih => exact .tail ih s

theorem newBox_refOk (B : Boxes α) (c : Cls) (u : PyVal α) (m : Md α) : RefOk (B ++ [.cont c u m]) (newBox B (.cont c u m)).2 ∧
    (newBox B (.cont c u m)).2.seen (B ++ [.cont c u m]) = .cont c u m := by
  have e : (B ++ [.cont c u m])[B.length]? = some (.cont c u m) := by simp
  have s : (Held.box B.length).seen (B ++ [.cont c u m]) = .cont c u m := getD_of_some e
  refine ⟨⟨.box B.length, ?_, c, u, m, e⟩, s⟩
  simp only [newBox, Held.obj, s]

theorem dset_attrs_ok {B : Boxes α} {d : Dict Str (Attr (Held α))} {k : Str} {a : Attr (Held α)}
    (hd : DNodup d ∧ ∀ kv ∈ d, kv.2.RefOk B) (ha : a.RefOk B) : DNodup (dset d k a) ∧ ∀ kv ∈ dset d k a, kv.2.RefOk B := by
  refine ⟨dnodup_dset hd.1 k a, ?_⟩
  intro kv h
  rcases mem_dset_cases h with rfl | h
  · exact ha
  · exact hd.2 kv h

theorem BoxStep.prefix {H : Heap (Held α)} {B : Boxes α} {H' : Heap (Held α)} {B' : Boxes α} (h : BoxStep H B H' B') : B <+: B' := by
  cases h <;> simp

theorem BoxStep.ok {H : Heap (Held α)} {B : Boxes α} {H' : Heap (Held α)} {B' : Boxes α} (h : BoxStep H B H' B') (ok : HeapOk B H) :
    HeapOk B' H' := by
  have ok' := (ok.mono h.prefix).1
  cases h with
  | alloc o ho => exact ok.append (by rw [ho]; exact ⟨List.nodup_nil, fun kv h => (by cases h)⟩)
  | fill l o hd ho => exact ok.set ⟨hd, fun kv h => (ho kv h).1⟩
  | grow c u m => exact ok'
  | put n a ho ha hb => exact ok.set (dset_attrs_ok (ok.obj ho) ha)
  | putNew n c u m ho => exact ok'.set (dset_attrs_ok (ok'.obj ho) (newBox_refOk B c u m).1)
  | del n ho => exact ok.set ⟨dnodup_ddel (ok.obj ho).1 n, fun kv h => (ok.obj ho).2 kv ((ddel_sublist _ _).subset h)⟩

theorem BoxSteps.prefix {H : Heap (Held α)} {B : Boxes α} {H' : Heap (Held α)} {B' : Boxes α} (h : BoxSteps H B H' B') : B <+: B' := by
  induction h with
  | refl => exact List.prefix_refl _
  | tail _ s ih => exact ih.trans s.prefix

theorem BoxSteps.ok {H : Heap (Held α)} {B : Boxes α} {H' : Heap (Held α)} {B' : Boxes α} (h : BoxSteps H B H' B') (ok : HeapOk B H) :
    HeapOk B' H' := by
  induction h with
  | refl => exact ok
  | tail _ s ih => exact s.ok ih

/-- The Module's attribute holds this container. -/
def HoldsIn (H : Heap (Held α)) (l : Loc) (n : Str) (b : Nat) : Prop := ∃ c, attrAt H l n = some (.val (.data c (.box b)))

/-- It is an instance of a node class. -/
def NodeBox (B : Boxes α) (b : Nat) : Prop := ∃ v : PyVal α, B[b]? = some v ∧ v.isNode = true

theorem attrAt_set_dset (H : Heap (Held α)) {l : Loc} {o : ModObj (Held α)} (ho : H[l]? = some o) (n : Str) (a : Attr (Held α))
    (l' : Loc) (n' : Str) :
    attrAt (H.set l { o with attrs := dset o.attrs n a }) l' n' = if l' = l ∧ n' = n then some a else attrAt H l' n' := by
  have hl := (List.getElem?_eq_some_iff.1 ho).1
  simp only [attrAt]
  by_cases h : l' = l
  · subst h
    rw [List.getElem?_set_self hl, ho]
    simp only [dget_dset, true_and]
    by_cases hn : n' = n
    · subst hn; simp
    · have : ¬ n = n' := fun h => hn h.symm
      simp [hn, this]
  · rw [List.getElem?_set_ne (fun e => h e.symm)]
    simp [h]

theorem attrAt_set_ddel (H : Heap (Held α)) {l : Loc} {o : ModObj (Held α)} (ho : H[l]? = some o) (hd : DNodup o.attrs) (n : Str)
    (l' : Loc) (n' : Str) :
    attrAt (H.set l { o with attrs := ddel o.attrs n }) l' n' = if l' = l ∧ n' = n then none else attrAt H l' n' := by
  have hl := (List.getElem?_eq_some_iff.1 ho).1
  simp only [attrAt]
  by_cases h : l' = l
  · subst h
    rw [List.getElem?_set_self hl, ho]
    simp only [dget_ddel hd, true_and]
    by_cases hn : n' = n
    · subst hn; simp
    · have : ¬ n = n' := fun h => hn h.symm
      simp [hn, this]
  · rw [List.getElem?_set_ne (fun e => h e.symm)]
    simp [h]

/-- A node container that an attribute holds after a step: the attribute held it before, or the step made it. -/
theorem BoxStep.holds {H : Heap (Held α)} {B : Boxes α} {H' : Heap (Held α)} {B' : Boxes α} (h : BoxStep H B H' B') (ok : HeapOk B H)
    {l : Loc} {n : Str} {b : Nat} (hb : HoldsIn H' l n b) (hn : NodeBox B' b) : HoldsIn H l n b ∨ B.length ≤ b := by
  obtain ⟨c, hb⟩ := hb
  cases h with
  | alloc o ho =>
    left
    refine ⟨c, ?_⟩
    simp only [attrAt] at hb ⊢
    by_cases hl : l < H.length
    · rwa [List.getElem?_append_left hl] at hb
    · rw [List.getElem?_append_right (Nat.le_of_not_lt hl)] at hb
      cases hk : l - H.length with
      | zero => rw [hk] at hb; simp [ho, dget] at hb
      | succ k => rw [hk] at hb; simp at hb
  | fill l' o hd ho =>
    left
    refine ⟨c, ?_⟩
    simp only [attrAt] at hb ⊢
    by_cases hl : l = l'
    · subst hl
      exfalso
      by_cases hlt : l < H.length
      · rw [List.getElem?_set_self hlt] at hb
        have h1 := ho _ (dget_mem hb)
        have h2 := h1.2 _ rfl
        obtain ⟨v, e, hv⟩ := hn
        have h3 := RefOk.isNode (v := .data c (.box b)) h1.1
        rw [h2] at h3
        have h4 : (PyVal.data c (.box b) : PyVal (Held α)).seen B = v := getD_of_some e
        rw [h4, hv] at h3
        cases h3
      · rw [List.getElem?_eq_none (by rw [List.length_set]; exact Nat.le_of_not_lt hlt)] at hb
        cases hb
    · rwa [List.getElem?_set_ne (fun e => hl e.symm)] at hb
  | grow c u m => exact .inl ⟨_, hb⟩
  | put n' a ho ha hnb =>
    left
    rw [attrAt_set_dset H ho] at hb
    split at hb
    · cases hb; exact absurd rfl (hnb c b)
    · exact ⟨c, hb⟩
  | putNew n' c' u m ho =>
    rw [attrAt_set_dset H ho] at hb
    split at hb
    · right
      simp only [newBox, Option.some.injEq, Attr.val.injEq, PyVal.data.injEq, Held.box.injEq] at hb
      omega
    · exact .inl ⟨c, hb⟩
  | del n' ho =>
    left
    rw [attrAt_set_ddel H ho (ok.obj ho).1] at hb
    split at hb
    · cases hb
    · exact ⟨c, hb⟩

theorem nodeBox_of_prefix {B B' : Boxes α} (h : B <+: B') {b : Nat} (hb : b < B.length) (hn : NodeBox B' b) : NodeBox B b := by
  obtain ⟨v, e, hv⟩ := hn
  have e2 : B[b]? = some B[b] := List.getElem?_eq_getElem hb
  have := prefix_getElem? h e2
  rw [e] at this
  cases this
  exact ⟨_, e2, hv⟩

theorem BoxSteps.holds {H : Heap (Held α)} {B : Boxes α} {H' : Heap (Held α)} {B' : Boxes α} (h : BoxSteps H B H' B') (ok : HeapOk B H)
    {l : Loc} {n : Str} {b : Nat} (hb : HoldsIn H' l n b) (hn : NodeBox B' b) : HoldsIn H l n b ∨ B.length ≤ b := by
  induction h with
  | refl => exact .inl hb
  | @tail H1 B1 H2 B2 s0 s ih =>
    rcases s.holds (s0.ok ok) hb hn with h | h
    · by_cases hlt : b < B1.length
      · exact ih h (nodeBox_of_prefix s.prefix hlt hn)
      · have := s0.prefix.length_le
        right; omega
    · have := s0.prefix.length_le
      right; omega

theorem HeapOk.box_lt {B : Boxes α} {H : Heap (Held α)} (ok : HeapOk B H) {l : Loc} {n : Str} {b : Nat} (h : HoldsIn H l n b) : b < B.length := by
  obtain ⟨c, h⟩ := h
  simp only [attrAt] at h
  split at h
  · next o ho =>
    obtain ⟨x, hx, hx'⟩ := (ok.obj ho).2 _ (dget_mem h)
    simp only [Held.obj, PyVal.data.injEq] at hx
    obtain ⟨_, rfl⟩ := hx
    obtain ⟨_, _, _, e⟩ := hx'
    exact (List.getElem?_eq_some_iff.1 e).1
  · cases h

/-- No node container is held by two attributes. -/
def SepIn (H : Heap (Held α)) (B : Boxes α) : Prop :=
  ∀ l n l' n' b, HoldsIn H l n b → HoldsIn H l' n' b → NodeBox B b → l = l' ∧ n = n'

theorem BoxStep.sep {H : Heap (Held α)} {B : Boxes α} {H' : Heap (Held α)} {B' : Boxes α} (h : BoxStep H B H' B') (ok : HeapOk B H)
    (sep : SepIn H B) : SepIn H' B' := by
  intro l n l' n' b h1 h2 hn
  by_cases hlt : b < B.length
  · rcases h.holds ok h1 hn with g1 | g1
    · rcases h.holds ok h2 hn with g2 | g2
      · exact sep l n l' n' b g1 g2 (nodeBox_of_prefix h.prefix hlt hn)
      · omega
    · omega
  · have old : ∀ {l n}, HoldsIn H l n b → False := fun g => hlt (ok.box_lt g)
    cases h with
    | putNew m c u md ho =>
      obtain ⟨c1, h1⟩ := h1
      obtain ⟨c2, h2⟩ := h2
      rw [attrAt_set_dset H ho] at h1 h2
      split at h1
      · next e1 =>
        split at h2
        · next e2 => exact ⟨e1.1.trans e2.1.symm, e1.2.trans e2.2.symm⟩
        · exact (old ⟨c2, h2⟩).elim
      · exact (old ⟨c1, h1⟩).elim
    | grow c u m => exact (old h1).elim
    | alloc o ho =>
      have := (BoxStep.alloc (B := B) (H := H) o ho).ok ok |>.box_lt h1
      exact absurd this hlt
    | fill l0 o hd ho =>
      have := (BoxStep.fill (B := B) (H := H) l0 o hd ho).ok ok |>.box_lt h1
      exact absurd this hlt
    | put m a ho ha hnb =>
      have := (BoxStep.put (B := B) (H := H) m a ho ha hnb).ok ok |>.box_lt h1
      exact absurd this hlt
    | del m ho =>
      have := (BoxStep.del (B := B) (H := H) m ho).ok ok |>.box_lt h1
      exact absurd this hlt

theorem BoxSteps.sep {H : Heap (Held α)} {B : Boxes α} {H' : Heap (Held α)} {B' : Boxes α} (h : BoxSteps H B H' B') (ok : HeapOk B H)
    (sep : SepIn H B) : SepIn H' B' := by
  induction h with
  | refl => exact sep
  | tail s0 s ih => exact s.sep (s0.ok ok) ih

/-! ### The operations -/

theorem ddel_map_seen {V W : Type} (f : V → W) (d : Dict Str V) (k : Str) :
    ddel (d.map fun kv => (kv.1, f kv.2)) k = (ddel d k).map fun kv => (kv.1, f kv.2) := by
  induction d with
  | nil => rfl
  | cons x d ih =>
    simp only [List.map_cons, ddel, ih]
    split <;> rfl

theorem setObj_seen (B : Boxes α) (h : Heap (Held α)) (l : Loc) (o : ModObj (Held α)) :
    (h.set l o).map (ModObj.seen B) = (h.map (ModObj.seen B)).set l (o.seen B) := by
  simp [List.map_set]

theorem delAttr_seen (B : Boxes α) (h : Heap (Held α)) (l : Loc) (n : Str) :
    delAttr (h.map (ModObj.seen B)) l n = (delAttr h l n).map (fun h => h.map (ModObj.seen B)) ∧
      ∀ h', delAttr h l n = .ok h' → BoxSteps h B h' B := by
  simp only [delAttr, heap_seen_getElem]
  cases e : h[l]? with
  | none => exact ⟨rfl, fun h' he => by cases he⟩
  | some o =>
    have hd : dhas (o.seen B).attrs n = dhas o.attrs n := by
      simp only [dhas, ModObj.seen, attrs_seen_dget]
      cases dget o.attrs n <;> rfl
    simp only [Option.map_some, hd]
    cases hh : dhas o.attrs n with
    | false => exact ⟨rfl, fun h' he => by cases he⟩
    | true =>
      refine ⟨?_, fun h' he => ?_⟩
      · simp only [if_true, Except.map, setObj_seen, ModObj.seen, ddel_map_seen]
      · simp only [if_true, Except.ok.injEq] at he
        subst he
        exact (BoxStep.del n e).one

/-- What `_pop_recursive` gives, with what one sees. -/
def seenPop (B : Boxes α) (r : PopResult (Held α)) : PopResult α :=
  (r.1.map (ModObj.seen B), r.2.map fun x => (x.1, x.2.map (seenItems B)))

def PopGood (h : Heap (Held α)) (B : Boxes α) (r : PopResult (Held α)) : Prop :=
  BoxSteps h B r.1 B ∧ ∀ x, r.2 = .ok x → ∀ d ∈ x.2, ItemsOk B d

theorem PopGood.after {h h' : Heap (Held α)} {B : Boxes α} {r : PopResult (Held α)} (s : BoxSteps h B h' B) (g : PopGood h' B r) :
    PopGood h B r := ⟨s.trans g.1, g.2⟩

theorem popAttrs_seen {B : Boxes α}
    {rec : Loc → Heap (Held α) → List Nat → List Str → List (Dict Str (PyVal (Held α))) → PopResult (Held α)}
    {rec' : Loc → Heap α → List Nat → List Str → List (Dict Str (PyVal α)) → PopResult α}
    (hr : ∀ l h idx p ds, HeapOk B h → (∀ d ∈ ds, ItemsOk B d) →
      rec' l (h.map (ModObj.seen B)) idx p (ds.map (seenItems B)) = seenPop B (rec l h idx p ds) ∧ PopGood h B (rec l h idx p ds))
    (preds : List (Pred α)) (l : Loc) (as : List (Str × Attr (Held α))) :
    (∀ kv ∈ as, kv.2.RefOk B) → ∀ h idx p ds, HeapOk B h → (∀ d ∈ ds, ItemsOk B d) →
    popAttrs rec' preds l (as.map fun kv => (kv.1, kv.2.seen B)) (h.map (ModObj.seen B)) idx p (ds.map (seenItems B)) =
      seenPop B (popAttrs rec (preds.map (seenPred B)) l as h idx p ds) ∧
    PopGood h B (popAttrs rec (preds.map (seenPred B)) l as h idx p ds) := by
  induction as with
  | nil =>
    intro _ h idx p ds ok hds
    refine ⟨rfl, .refl, fun x hx => ?_⟩
    cases hx
    exact hds
  | cons x as ih =>
    intro aok h idx p ds ok hds
    obtain ⟨n, a⟩ := x
    have ih := ih (fun kv h => aok kv (.tail _ h))
    cases a with
    | ref l' =>
      have k := hr l' h idx (p ++ [n]) ds ok hds
      simp only [List.map_cons, attr_seen_ref, popAttrs, k.1]
      generalize rec l' h idx (p ++ [n]) ds = r at k
      obtain ⟨h1, r⟩ := r
      cases r with
      | error e => exact ⟨rfl, k.2.1, fun x hx => by cases hx⟩
      | ok r =>
        obtain ⟨idx1, ds1⟩ := r
        have k2 := ih h1 idx1 p ds1 (k.2.1.ok ok) (k.2.2 _ rfl)
        exact ⟨k2.1, k2.2.after k.2.1⟩
    | val v =>
      have hv : RefOk B v := aok _ (.head _)
      simp only [List.map_cons, attr_seen_val, popAttrs, hv.isNode, popInsert_seen]
      cases v.isNode with
      | false => exact ih h idx p ds ok hds
      | true =>
        simp only [if_true]
        cases e : popInsert (preds.map (seenPred B)) ds (joinSlash (p ++ [n])) v with
        | none => exact ih h idx p ds ok hds
        | some ds1 =>
          have k := delAttr_seen B h l n
          simp only [Option.map_some, k.1]
          cases e' : delAttr h l n with
          | error er =>
            exact ⟨rfl, .refl, fun x hx => by cases hx⟩
          | ok h1 =>
            have s := k.2 _ e'
            have k2 := ih h1 idx p ds1 (s.ok ok) (popInsert_ok hv _ _ _ hds e)
            exact ⟨k2.1, k2.2.after s⟩

theorem popRec_seen {B : Boxes α} (preds : List (Pred α)) : ∀ (fuel : Nat) l h idx p ds, HeapOk B h → (∀ d ∈ ds, ItemsOk B d) →
    popRec preds fuel l (h.map (ModObj.seen B)) idx p (ds.map (seenItems B)) =
      seenPop B (popRec (preds.map (seenPred B)) fuel l h idx p ds) ∧
    PopGood h B (popRec (preds.map (seenPred B)) fuel l h idx p ds) := by
  intro fuel
  induction fuel with
  | zero => intro l h idx p ds _ _; exact ⟨rfl, .refl, fun x hx => by cases hx⟩
  | succ fuel ih =>
    intro l h idx p ds ok hds
    simp only [popRec, heap_seen_getElem]
    cases e : h[l]? with
    | none => exact ⟨rfl, .refl, fun x hx => by cases hx⟩
    | some o =>
      by_cases hu : o.uid ∈ idx
      · simp only [Option.map_some, ModObj.seen, hu, if_true]
        refine ⟨rfl, .refl, fun x hx => ?_⟩
        cases hx
        exact hds
      · have k := popAttrs_seen ih preds l o.attrs (ok.obj e).2 h idx p ds ok hds
        simp only [Option.map_some, ModObj.seen, hu, if_false]
        have k1 := k.1
        rw [k1]
        generalize popAttrs (popRec (preds.map (seenPred B)) fuel) (preds.map (seenPred B)) l o.attrs h idx p ds = r at k
        obtain ⟨h1, r⟩ := r
        cases r with
        | error er => exact ⟨rfl, k.2.1, fun x hx => by cases hx⟩
        | ok r =>
          refine ⟨rfl, k.2.1, fun x hx => ?_⟩
          cases hx
          exact k.2.2 r rfl

/-! ### Building -/

theorem statics_attrs_seen (B : Boxes α) (statics : List (Str × PyVal (Held α))) (subs : List (Str × Loc)) :
    dupdate (dupdate [] (((statics.map fun kv => (kv.1, kv.2.seen B))).map fun kv => (kv.1, Attr.val kv.2)))
      (dofList (subs.map fun kv => (kv.1, Attr.ref kv.2))) =
    (dupdate (dupdate [] (statics.map fun kv => (kv.1, Attr.val kv.2))) (dofList (subs.map fun kv => (kv.1, Attr.ref kv.2)))).map
      fun kv => (kv.1, Attr.seen B kv.2) := by
  have upd : ∀ (e : List (Str × Attr (Held α))) (d : Dict Str (Attr (Held α))),
      dupdate (d.map fun kv => (kv.1, Attr.seen B kv.2)) (e.map fun kv => (kv.1, Attr.seen B kv.2)) =
        (dupdate d e).map fun kv => (kv.1, Attr.seen B kv.2) := by
    intro e
    induction e with
    | nil => intro d; rfl
    | cons x e ih =>
      intro d
      simp only [dupdate, List.map_cons, List.foldl_cons] at ih ⊢
      rw [dset_map_val]
      exact ih _
  have h1 : ((statics.map fun kv => (kv.1, kv.2.seen B)).map fun kv => (kv.1, Attr.val kv.2)) =
      (statics.map fun kv => (kv.1, Attr.val kv.2)).map fun kv => (kv.1, Attr.seen B kv.2) := by
    simp [List.map_map, Function.comp_def, attr_seen_val]
  have h2 : (subs.map fun kv => (kv.1, (Attr.ref kv.2 : Attr α))) =
      (subs.map fun kv => (kv.1, (Attr.ref kv.2 : Attr (Held α)))).map fun kv => (kv.1, Attr.seen B kv.2) := by
    simp [List.map_map, Function.comp_def, attr_seen_ref]
  rw [h1, h2, dofList_map_val, ← upd, ← upd]
  rfl

theorem finish_seen (B : Boxes α) (w : World (Held α)) (l : Loc) (c : Cls) (statics : List (Str × PyVal (Held α)))
    (subs : List (Str × Loc)) (i : Bool) :
    (w.seen B).finish l c (statics.map fun kv => (kv.1, kv.2.seen B)) subs i = (w.finish l c statics subs i).seen B := by
  simp only [World.finish, World.seen, statics_attrs_seen, setObj_seen, ModObj.seen]
  rfl

theorem finish_steps {B : Boxes α} (w : World (Held α)) (l : Loc) (c : Cls) {statics : List (Str × PyVal (Held α))}
    (subs : List (Str × Loc)) (i : Bool) (hs : StaticsOk B statics) : BoxSteps w.heap B (w.finish l c statics subs i).heap B := by
  refine (BoxStep.fill l _ ?_ ?_).one
  · exact dnodup_dupdate (dnodup_dupdate (d := []) List.nodup_nil _) _
  · intro kv hkv
    rcases mem_dupdate_cases hkv with h | h
    · rcases mem_dupdate_cases h with h | h
      · cases h
      · obtain ⟨x, hx, rfl⟩ := List.mem_map.1 h
        refine ⟨(hs x hx).1, fun v hv => ?_⟩
        cases hv
        exact (hs x hx).2
    · obtain ⟨x, hx, rfl⟩ := List.mem_map.1 (mem_dofList h)
      exact ⟨trivial, fun v hv => by cases hv⟩

theorem allocDummy_seen (B : Boxes α) (w : World (Held α)) (c : Cls) : (w.seen B).allocDummy c = (w.allocDummy c).seen B := by
  simp [World.allocDummy, World.seen, ModObj.seen]

theorem heap_seen_length (B : Boxes α) (w : World (Held α)) : (w.seen B).heap.length = w.heap.length := by
  simp [World.seen]

/-- What `_build_module_recursive` gives, with what one sees. -/
def seenBuilt (B : Boxes α) (r : List (Str × Loc) × World (Held α) × Dict Nat Loc) : List (Str × Loc) × World α × Dict Nat Loc :=
  (r.1, r.2.1.seen B, r.2.2)

theorem buildSubs_seen {B : Boxes α} : ∀ (s : Subs (Held α)) (w : World (Held α)) (im : Dict Nat Loc), s.Ok B →
    buildSubs (s.seen B) (w.seen B) im = (buildSubs s w im).map (seenBuilt B) ∧
      ∀ r, buildSubs s w im = .ok r → BoxSteps w.heap B r.2.1.heap B := by
  intro s
  induction s with
  | nil =>
    intro w im _
    refine ⟨rfl, fun r h => ?_⟩
    cases h
    exact .refl
  | ref n i r ih =>
    intro w im ok
    simp only [Subs.seen, buildSubs]
    cases dget im i with
    | none => exact ⟨rfl, fun r h => by cases h⟩
    | some l =>
      have k := ih w im ok
      simp only [k.1]
      cases e : buildSubs r w im with
      | error er => exact ⟨rfl, fun r h => by cases h⟩
      | ok r' =>
        refine ⟨rfl, fun r0 h => ?_⟩
        cases h
        exact k.2 r' e
  | sub n c i s st f r ih1 ih2 =>
    intro w im ok
    simp only [Subs.seen, buildSubs]
    cases dhas im i with
    | true => exact ⟨rfl, fun r h => by cases h⟩
    | false =>
      have k := ih1 (w.allocDummy c) (dset im i w.heap.length) ok.1
      simp only [Bool.false_eq_true, if_false, heap_seen_length, allocDummy_seen, k.1]
      cases e : buildSubs s (w.allocDummy c) (dset im i w.heap.length) with
      | error er => exact ⟨rfl, fun r h => by cases h⟩
      | ok r' =>
        obtain ⟨ch, w1, im1⟩ := r'
        have k2 := ih2 (w1.finish w.heap.length c st ch f) im1 ok.2.2
        simp only [Except.map, seenBuilt, finish_seen, k2.1]
        cases e' : buildSubs r (w1.finish w.heap.length c st ch f) im1 with
        | error er => exact ⟨rfl, fun r h => by cases h⟩
        | ok r'' =>
          refine ⟨rfl, fun r0 h => ?_⟩
          cases h
          exact ((BoxStep.alloc _ rfl).one.trans (k.2 _ e)).trans ((finish_steps w1 _ c ch f ok.2.1).trans (k2.2 r'' e'))

theorem buildModule_seen {B : Boxes α} {d : ModuleDef (Held α)} (ok : d.Ok B) (w : World (Held α)) :
    buildModule (d.seen B) (w.seen B) = (buildModule d w).map (fun r => (r.1, r.2.seen B)) ∧
      ∀ r, buildModule d w = .ok r → BoxSteps w.heap B r.2.heap B := by
  have k := buildSubs_seen (B := B) d.subs (w.allocDummy d.cls) (dset [] d.index w.heap.length) ok.1
  simp only [buildModule, ModuleDef.seen, heap_seen_length, allocDummy_seen, k.1]
  cases e : buildSubs d.subs (w.allocDummy d.cls) (dset [] d.index w.heap.length) with
  | error er => exact ⟨rfl, fun r h => by cases h⟩
  | ok r' =>
    obtain ⟨ch, w1, im1⟩ := r'
    refine ⟨by simp only [Except.map, seenBuilt, finish_seen], fun r0 h => ?_⟩
    cases h
    exact ((BoxStep.alloc _ rfl).one.trans (k.2 _ e)).trans (finish_steps w1 _ d.cls ch d.isInit ok.2)

/-! ### Assigning -/

section
variable [DecidableEq α]

omit [DecidableEq α] in
theorem classInit_cont {c : Cls} {v : PyVal α} {md : Md α} {x : PyVal α} (h : classInit c v md = .ok x) : ∃ c u m, x = .cont c u m := by
  have ci : ∀ (c : Cls) (v : PyVal α) (md : Md α), ∃ d u m, containerInit c v md = .cont d u m := by
    intro c v md
    cases v <;> exact ⟨_, _, _, rfl⟩
  simp only [classInit] at h
  split at h
  · cases h
  · split at h
    · split at h
      · cases h; exact ci _ _ _
      · cases h
    · split at h <;> (cases h; exact ci _ _ _)

theorem construct_cont {c : Cls} {v : PyVal α} {md : Md α} {x : PyVal α} (h : construct c v md = .ok x) : ∃ c u m, x = .cont c u m := by
  cases v with
  | cont c0 v0 m0 =>
    simp only [construct] at h
    split at h
    · cases h
    · next e => split at h <;> cases h; exact classInit_cont e
  | _ => exact classInit_cont h

theorem copy_cont {v x : PyVal α} (h : copy v = .ok x) : ∃ c u m, x = .cont c u m := by
  cases v with
  | cont c u m => exact construct_cont h
  | _ => cases h

theorem replace_cont {v x : PyVal α} {kw : Md α} (h : replace v kw = .ok x) : ∃ c u m, x = .cont c u m := by
  cases v with
  | cont c u m =>
    simp only [replace] at h
    split at h
    · cases h
    · split at h
      · cases h
      · split at h
        · exact construct_cont h
        · cases h
  | _ => cases h

/-- What `_setattr` stores is a reference to something that is not a container, or a new container. -/
def StoredOk (B : Boxes α) (r : Boxes α × Attr (Held α)) : Prop :=
  (r.1 = B ∧ r.2.RefOk B ∧ ∀ c b, r.2 ≠ .val (.data c (.box b))) ∨
  ∃ c u m, r = (B ++ [.cont c u m], .val (newBox B (.cont c u m)).2)

omit [DecidableEq α] in
theorem madeBox_seen {B : Boxes α} {e : Except Err (PyVal α)} (h : ∀ x, e = .ok x → ∃ c u m, x = .cont c u m) :
    e.map Attr.val = (madeBox B e).map (fun r => r.2.seen r.1) ∧ ∀ r, madeBox B e = .ok r → StoredOk B r := by
  cases e with
  | error er => exact ⟨rfl, fun r h => by cases h⟩
  | ok x =>
    obtain ⟨c, u, m, rfl⟩ := h x rfl
    refine ⟨?_, fun r hr => ?_⟩
    · simp only [Except.map, madeBox, attr_seen_val]
      rw [show (newBox B (.cont c u m)).1 = B ++ [.cont c u m] from rfl, (newBox_refOk B c u m).2]
    · cases hr
      exact .inr ⟨c, u, m, rfl⟩

/-- The last two cases of `storedBox`, and of `storedAttr`. -/
def copyBoxAttr (B : Boxes α) : Attr (Held α) → Except Err (Boxes α × Attr (Held α))
  | .val (.data _ (.box b)) => madeBox B (copy ((Held.box b).seen B))
  | new => .ok (B, new)

def copyAttr : Attr α → Except Err (Attr α)
  | .val (.cont c v m) => (copy (.cont c v m)).map .val
  | new => .ok new

theorem copyBoxAttr_seen {B : Boxes α} {new : Attr (Held α)} (hn : new.RefOk B) :
    copyAttr (new.seen B) = (copyBoxAttr B new).map (fun r => r.2.seen r.1) ∧ ∀ r, copyBoxAttr B new = .ok r → StoredOk B r := by
  cases new with
  | ref l =>
    refine ⟨rfl, fun r h => ?_⟩
    cases h
    exact .inl ⟨rfl, trivial, fun c b h => by cases h⟩
  | val v =>
    obtain ⟨x, rfl, hx⟩ := hn
    cases x with
    | box b =>
      obtain ⟨c, u, m, eb⟩ := hx
      have s : (Held.box b).seen B = .cont c u m := getD_of_some eb
      have := madeBox_seen (B := B) (e := copy (.cont c u m)) (fun x h => copy_cont h)
      simp only [attr_seen_val, Held.obj, PyVal.seen, s, copyAttr, copyBoxAttr]
      exact this
    | val u =>
      refine ⟨?_, fun r h => ?_⟩
      · simp only [attr_seen_val, Held.obj, PyVal.seen, Held.seen]
        cases u <;> first | rfl | cases hx
      · cases h
        exact .inl ⟨rfl, ⟨.val u, rfl, hx⟩, fun c b h => by cases h⟩

theorem storedBox_seen {B : Boxes α} {old : Option (Attr (Held α))} {new : Attr (Held α)} (ho : ∀ a, old = some a → a.RefOk B)
    (hn : new.RefOk B) :
    storedAttr (old.map (Attr.seen B)) (new.seen B) = (storedBox B old new).map (fun r => r.2.seen r.1) ∧
      ∀ r, storedBox B old new = .ok r → StoredOk B r := by
  have keep : ∀ (_ : storedBox B old new = copyBoxAttr B new) (_ : storedAttr (old.map (Attr.seen B)) (new.seen B) = copyAttr (new.seen B)),
      storedAttr (old.map (Attr.seen B)) (new.seen B) = (storedBox B old new).map (fun r => r.2.seen r.1) ∧
      ∀ r, storedBox B old new = .ok r → StoredOk B r := by
    intro e e'
    rw [e, e']
    exact copyBoxAttr_seen hn
  cases old with
  | none =>
    refine keep ?_ ?_
    · rcases new with l | v
      · rfl
      · cases v <;> first | rfl | (next c x => cases x <;> rfl)
    · generalize new.seen B = n
      rcases n with l | v
      · rfl
      · cases v <;> rfl
  | some a =>
    cases a with
    | ref l =>
      refine keep ?_ ?_
      · rcases new with l | v
        · rfl
        · cases v <;> first | rfl | (next c x => cases x <;> rfl)
      · generalize new.seen B = n
        rcases n with l | v
        · rfl
        · cases v <;> rfl
    | val v =>
      obtain ⟨x, rfl, hx⟩ := ho _ rfl
      cases x with
      | val u =>
        refine keep ?_ ?_
        · rcases new with l | v
          · rfl
          · cases v <;> first | rfl | (next c x => cases x <;> rfl)
        · simp only [Option.map_some, attr_seen_val, Held.obj, PyVal.seen, Held.seen]
          generalize new.seen B = n
          cases u <;> first | (rcases n with l | v; rfl; cases v <;> rfl) | cases hx
      | box b =>
        obtain ⟨c, u, m, eb⟩ := hx
        have s : (Held.box b).seen B = .cont c u m := getD_of_some eb
        cases new with
        | ref l =>
          simp only [Option.map_some, attr_seen_val, attr_seen_ref, Held.obj, PyVal.seen, s]
          exact ⟨rfl, fun r h => by cases h⟩
        | val nv =>
          have := madeBox_seen (B := B) (e := replace (.cont c u m) [(py! "value", nv.seen B)]) (fun x h => replace_cont h)
          simp only [Option.map_some, attr_seen_val, Held.obj, PyVal.seen, s, storedAttr, storedBox] at this ⊢
          exact this

omit [DecidableEq α] in
theorem traceValid_seen (B : Boxes α) (w : World (Held α)) (t : Trace) : (w.seen B).traceValid t = w.traceValid t := rfl

/-- A result of a call, with what one sees; and the Modules changed by steps. -/
def SetGood (w : BoxWorld α) (r : Except Err (BoxWorld α)) : Prop :=
  ∀ w', r = .ok w' → BoxSteps w.world.heap w.boxes w'.world.heap w'.boxes

theorem setBoxAttr_seen {w : BoxWorld α} (ok : w.Ok) (l : Loc) (n : Str) {new : Attr (Held α)} (hn : new.RefOk w.boxes) :
    setAttr w.seen l n (new.seen w.boxes) = (setBoxAttr w l n new).map BoxWorld.seen ∧ SetGood w (setBoxAttr w l n new) := by
  simp only [setAttr, setBoxAttr, BoxWorld.seen, World.seen, heap_seen_getElem, SetGood]
  cases e : w.world.heap[l]? with
  | none => exact ⟨rfl, fun w' h => by cases h⟩
  | some o =>
    have ht : World.traceValid (⟨w.world.heap.map (ModObj.seen w.boxes), w.world.nextId, w.world.jaxTrace, w.world.nnxStack⟩ : World α)
        (o.seen w.boxes).trace = w.world.traceValid o.trace := rfl
    simp only [Option.map_some, ht]
    cases w.world.traceValid o.trace with
    | false => exact ⟨rfl, fun w' h => by cases h⟩
    | true =>
      by_cases hname : n = py! "_module__state"
      · simp only [hname, if_true, Bool.true_eq_false, if_false]
        exact ⟨rfl, fun w' h => by cases h⟩
      · have k := storedBox_seen (B := w.boxes) (old := dget o.attrs n) (new := new)
          (fun a ha => (ok.obj e).2 _ (dget_mem ha)) hn
        have hd : dget (o.seen w.boxes).attrs n = (dget o.attrs n).map (Attr.seen w.boxes) := attrs_seen_dget _ _ _
        simp only [hname, Bool.true_eq_false, if_false, hd, k.1]
        cases es : storedBox w.boxes (dget o.attrs n) new with
        | error er => exact ⟨rfl, fun w' h => by cases h⟩
        | ok r =>
          have st : BoxStep w.world.heap w.boxes (w.world.heap.set l { o with attrs := dset o.attrs n r.2 }) r.1 := by
            rcases k.2 r es with ⟨h1, h2, h3⟩ | ⟨c, u, m, h⟩
            · rw [h1]; exact .put n r.2 e h2 h3
            · rw [h]; exact .putNew n c u m e
          obtain ⟨B', a⟩ := r
          refine ⟨?_, fun w' h => ?_⟩
          · have hpre := st.prefix
            have hm : w.world.heap.map (ModObj.seen B') = w.world.heap.map (ModObj.seen w.boxes) := (ok.mono hpre).2
            have ho : (o.attrs.map fun kv => (kv.1, kv.2.seen B')) = o.attrs.map fun kv => (kv.1, kv.2.seen w.boxes) := by
              apply List.map_congr_left
              intro kv hkv
              rw [(((ok.obj e).2 kv hkv).mono hpre).2]
            simp only [Except.map, World.setAttrs, BoxWorld.seen, World.seen, setObj_seen, hm]
            simp only [ModObj.seen, ← dset_map_val, ho]
          · cases h
            exact st.one

theorem setBoxPath_seen {w : BoxWorld α} (ok : w.Ok) {v : PyVal (Held α)} (hv : RefOk w.boxes v) : ∀ (ps : List Str) (a : Attr (Held α)),
    setValueAtPath w.seen (a.seen w.boxes) ps (v.seen w.boxes) = (setBoxPath w a ps v).map BoxWorld.seen ∧
      SetGood w (setBoxPath w a ps v) := by
  intro ps
  induction ps with
  | nil => intro a; cases a <;> exact ⟨rfl, fun w' h => by cases h⟩
  | cons p ps ih =>
    intro a
    cases a with
    | val u => exact ⟨by cases ps <;> rfl, fun w' h => by cases ps <;> cases h⟩
    | ref l =>
      cases ps with
      | nil => exact setBoxAttr_seen ok l p (new := .val v) hv
      | cons q ps =>
        have hvg : varsGet w.seen.heap l p = (varsGet w.world.heap l p).map (Attr.seen w.boxes) := by
          simp only [varsGet, BoxWorld.seen, World.seen, heap_seen_getElem]
          cases w.world.heap[l]? with
          | none => rfl
          | some o =>
            have hd : dget (o.seen w.boxes).attrs p = (dget o.attrs p).map (Attr.seen w.boxes) := attrs_seen_dget _ _ _
            simp only [Option.map_some, hd]
            cases dget o.attrs p <;> rfl
        simp only [attr_seen_ref, setValueAtPath, setBoxPath, hvg]
        cases varsGet w.world.heap l p with
        | error er => exact ⟨rfl, fun w' h => by cases h⟩
        | ok a => exact ih a

theorem assignBoxes_seen (root : Loc) : ∀ (items : List (Str × PyVal (Held α))) (w : BoxWorld α), w.Ok → ItemsOk w.boxes items →
    assignAll root (seenItems w.boxes items) w.seen = ((assignBoxes root items w).1.seen, (assignBoxes root items w).2) ∧
      BoxSteps w.world.heap w.boxes (assignBoxes root items w).1.world.heap (assignBoxes root items w).1.boxes := by
  intro items
  induction items with
  | nil => intro w _ _; exact ⟨rfl, .refl⟩
  | cons x items ih =>
    intro w ok hi
    obtain ⟨path, v⟩ := x
    have k := setBoxPath_seen ok (hi _ (.head _)) (splitSlash path) (.ref root)
    have k1 := k.1
    simp only [attr_seen_ref] at k1
    simp only [seenItems, List.map_cons, assignAll, assignBoxes, k1]
    cases e : setBoxPath w (.ref root) (splitSlash path) v with
    | error er => exact ⟨rfl, .refl⟩
    | ok w1 =>
      have st := k.2 w1 e
      have m := ItemsOk.mono st.prefix (items := items) (fun kv h => hi kv (.tail _ h))
      have k2 := ih w1 (st.ok ok) m.1
      refine ⟨?_, st.trans k2.2⟩
      simp only [Except.map]
      rw [← m.2]
      exact k2.1

omit [DecidableEq α] in
theorem updates_seen (B : Boxes α) (ss : List (State (PyVal (Held α)))) : ∀ (d : Dict Str (PyVal (Held α))),
    (ss.map (State.seen B)).foldl (fun d s => dupdate d s.items) (seenItems B d) =
      seenItems B (ss.foldl (fun d s => dupdate d s.items) d) := by
  have upd : ∀ (e d : List (Str × PyVal (Held α))), dupdate (seenItems B d) (seenItems B e) = seenItems B (dupdate d e) := by
    intro e
    induction e with
    | nil => intro d; rfl
    | cons x e ih =>
      intro d
      simp only [dupdate, seenItems, List.map_cons, List.foldl_cons] at ih ⊢
      rw [dset_map_val]
      exact ih _
  induction ss with
  | nil => intro d; rfl
  | cons s ss ih =>
    intro d
    simp only [List.map_cons, List.foldl_cons]
    rw [← ih, ← upd]
    rfl

omit [DecidableEq α] in
theorem updates_ok {B : Boxes α} (ss : List (State (PyVal (Held α)))) : (∀ s ∈ ss, ItemsOk B s.items) → ∀ (d : Dict Str (PyVal (Held α))),
    ItemsOk B d → ItemsOk B (ss.foldl (fun d s => dupdate d s.items) d) := by
  induction ss with
  | nil => intro _ d h; exact h
  | cons s ss ih =>
    intro hs d hd
    refine ih (fun t h => hs t (.tail _ h)) _ ?_
    intro kv h
    rcases mem_dupdate_cases h with h | h
    · exact hd kv h
    · exact hs s (.head _) kv h

theorem updateBoxModule_seen (root : Loc) {cur : State (PyVal (Held α))} {ss : List (State (PyVal (Held α)))} {w : BoxWorld α} (ok : w.Ok)
    (hc : ItemsOk w.boxes cur.items) (hs : ∀ s ∈ ss, ItemsOk w.boxes s.items) :
    updateModule root (cur.seen w.boxes) (ss.map (State.seen w.boxes)) w.seen =
        ((updateBoxModule root cur ss w).1.seen, (updateBoxModule root cur ss w).2) ∧
      BoxSteps w.world.heap w.boxes (updateBoxModule root cur ss w).1.world.heap (updateBoxModule root cur ss w).1.boxes := by
  have k := assignBoxes_seen root ((cur :: ss).foldl (fun d s => dupdate d s.items) []) w ok
    (updates_ok _ (fun s h => by rcases List.mem_cons.1 h with rfl | h; exacts [hc, hs s h]) _ (fun kv h => by cases h))
  rw [← updates_seen] at k
  exact k

end

end Nnx
