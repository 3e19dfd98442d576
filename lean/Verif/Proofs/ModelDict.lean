import Verif.Spec.ModelDict
import Verif.Proofs.Surgery
import Verif.Props.ModuleUpdate
import Verif.Props.ModulePop
import Verif.Props.ModuleCalls
import Verif.Props.ModuleDef
import Verif.Props.Grad
/-
What the operations on a Module do to its State, path by path.
-/
namespace Nnx
variable {α : Type}

/-- The variable an attribute holds, if it holds one. -/
def nodeAt : Option (Attr α) → Option (PyVal α)
  | some (.val v) => if v.isNode then some v else none
  | _ => none

theorem nodeAt_eq {a : Option (Attr α)} {v : PyVal α} : nodeAt a = some v ↔ a = some (.val v) ∧ v.isNode = true := by
  cases a with
  | none => simp [nodeAt]
  | some a =>
    cases a with
    | ref l => simp [nodeAt]
    | val x =>
      simp only [nodeAt]
      split
      · next h =>
        simp only [Option.some.injEq, Attr.val.injEq]
        exact ⟨fun e => ⟨e, e ▸ h⟩, fun e => e.1⟩
      · next h =>
        simp only [reduceCtorEq, Option.some.injEq, Attr.val.injEq, false_iff]
        rintro ⟨rfl, h2⟩; exact h h2

theorem nodeAt_newValue {a : Option (Attr α)} (ha : ∀ c x m, a = some (.val (.cont c x m)) → (PyVal.cont c x m).isNode = true) (v : PyVal α) :
    nodeAt (some (.val (newValue a v))) = rewritten (nodeAt a) v := by
  have hr : ∀ old : Option (PyVal α), (∀ c x m, old ≠ some (.cont c x m)) → rewritten old v = nodeAt (some (.val v)) := by
    intro old ho
    simp only [rewritten, nodeAt]
  cases a with
  | none => rw [hr _ (by simp [nodeAt])]; rfl
  | some a =>
    cases a with
    | ref l => rw [hr _ (by simp [nodeAt])]; rfl
    | val x =>
      by_cases hx : ∃ c y m, x = .cont c y m
      · obtain ⟨c, y, m, rfl⟩ := hx
        simp only [nodeAt, ha c y m rfl, if_true, newValue, rewritten]
        rfl
      · have hn : newValue (some (.val x)) v = v := by
          unfold newValue
          split
          · next h => cases h; exact absurd ⟨_, _, _, rfl⟩ hx
          · rfl
        rw [hn, hr]
        intro c y m h
        obtain ⟨h, _⟩ := nodeAt_eq.1 h
        cases h; exact hx ⟨_, _, _, rfl⟩

/-- A traversal depends on the references between the Modules only. -/
theorem Dfs.sameRefs {h h' : Heap α} {Q : Loc → Prop} (hQ : Closed h Q) (wf : WFHeap h)
    (hh : ∀ a o, Q a → h[a]? = some o → ∃ o', h'[a]? = some o' ∧ o'.uid = o.uid ∧
      (sortItems o'.attrs).filter (fun x => x.2.isModule) = (sortItems o.attrs).filter (fun x => x.2.isModule))
    {f t S vs S'} (d : Dfs h sortItems f t S vs S') :
    match t with
    | .visit l p => Q l → Dfs h' sortItems f (.visit l p) S vs S'
    | .attrs as p => (∀ m b, (m, Attr.ref b) ∈ as → Q b) → Dfs h' sortItems f (.attrs (as.filter fun x => x.2.isModule) p) S vs S' := by
  induction d with
  | seen e hm =>
    intro hl
    obtain ⟨o', e', hu, _⟩ := hh _ _ hl e
    exact .seen e' (hu ▸ hm)
  | @visit f l p S S' o vs e hm d ih =>
    intro hl
    obtain ⟨o', e', hu, hf⟩ := hh _ _ hl e
    refine .visit e' (hu ▸ hm) (Dfs.refs ?_)
    rw [hf, hu]
    exact ih fun m b hb => hQ l m b hl (attrAt_of_mem wf e ((sortItems_perm _).mem_iff.1 hb))
  | nil => exact fun _ => .nil
  | val d ih => exact fun hl => ih fun m b hb => hl m b (List.mem_cons_of_mem _ hb)
  | @ref f m l rest p S vs S1 ws S2 d1 d2 ih1 ih2 =>
    intro hl
    exact .ref (ih1 (hl m l List.mem_cons_self)) (ih2 fun m b hb => hl m b (List.mem_cons_of_mem _ hb))

/-- The references of an object, sorted. -/
theorem refs_sorted {o o' : ModObj α} (hd : DNodup o.attrs) (hd' : DNodup o'.attrs)
    (hr : ∀ n b, dget o'.attrs n = some (.ref b) ↔ dget o.attrs n = some (.ref b)) :
    (sortItems o'.attrs).filter (fun x => x.2.isModule) = (sortItems o.attrs).filter (fun x => x.2.isModule) := by
  refine StrictSorted.ext_mem (StrictSorted.filter (sortItems_strict hd') _) (StrictSorted.filter (sortItems_strict hd) _) fun x => ?_
  obtain ⟨n, x⟩ := x
  rw [List.mem_filter, List.mem_filter, (sortItems_perm _).mem_iff, (sortItems_perm _).mem_iff]
  cases x with
  | val v => simp [Attr.isModule]
  | ref b => rw [← dget_iff_mem hd', ← dget_iff_mem hd, hr]

/-- The same references between the reachable Modules. -/
structure RefsKept (h h' : Heap α) (r : Loc) : Prop where
  obj : ∀ a o, Reaches h r a → h[a]? = some o → ∃ o', h'[a]? = some o' ∧ o'.uid = o.uid
  refs : ∀ a n b, Reaches h r a → (attrAt h' a n = some (.ref b) ↔ attrAt h a n = some (.ref b))

/-- Which path lists which attribute in the State `s` of the Module `r`. -/
structure Listing (h : Heap α) (r : Loc) (s : State (PyVal α)) (C : Str → Loc → Str → Prop) : Prop where
  addr : ∀ {k l n}, C k l n → Addresses h r k l n
  value : ∀ {k l n}, C k l n → s.get k = nodeAt (attrAt h l n)
  uniq : ∀ {k k' l n}, C k l n → C k' l n → k = k'
  root : ∀ {n}, NoSlash n → C n r n
  only : ∀ {k}, (∀ l n, ¬ C k l n) → s.get k = none

theorem Listing.listed {h : Heap α} {r : Loc} {s : State (PyVal α)} {C} (hC : Listing h r s C) {k : Str} {l : Loc} {n : Str}
    (hk : (s.get k).isSome) (ha : Addresses h r k l n) : C k l n := by
  by_cases he : ∃ l n, C k l n
  · obtain ⟨l', n', hc⟩ := he
    obtain ⟨rfl, rfl⟩ := ha.functional (hC.addr hc)
    exact hc
  · rw [hC.only fun l n hc => he ⟨l, n, hc⟩] at hk; cases hk

/-- Two heaps with the same references list the same attributes under the same paths. -/
theorem state_cells {h h' : Heap α} (wf : WFHeap h) (wf' : WFHeap h') {r : Loc} (hr : r < h.length) (hr' : r < h'.length)
    (sr : RefsKept h h' r) {f f' : Nat} {s s' : State (PyVal α)} (hs : getState f h r = some s) (hs' : getState f' h' r = some s') :
    ∃ C, Listing h r s C ∧ (∀ k l n, C k l n → s'.get k = nodeAt (attrAt h' l n)) ∧ ∀ k, (∀ l n, ¬ C k l n) → s'.get k = none := by
  obtain ⟨vs, S, d, _, hg⟩ := getState_spec wf hr hs
  obtain ⟨vs', S', d', _, hg'⟩ := getState_spec wf' hr' hs'
  obtain ⟨hnd, hreach, hw, _⟩ := d.complete wf isOrder_sort hr
  have hQ : Closed h (Reaches h r) := fun l n b hl e => hl.step wf e
  have hat : ∀ {g : Heap α} {a o} (n : Str), g[a]? = some o → attrAt g a n = dget o.attrs n := by
    intro g a o n e; simp [attrAt, e]
  have d2 := d.sameRefs (h' := h') hQ wf (fun a o ha e => by
    obtain ⟨o', e', hu⟩ := sr.obj a o ha e
    refine ⟨o', e', hu, refs_sorted (wf.nodup _ _ e) (wf'.nodup _ _ e') fun n b => ?_⟩
    rw [← hat n e, ← hat n e']; exact sr.refs a n b ha) ⟨[], .here hr⟩
  obtain ⟨rfl, _⟩ := d2.functional d'
  have hone : ∀ {g : Heap α} {t : State (PyVal α)} (wfg : WFHeap g), (∀ k v, t.get k = some v ↔ ∃ x ∈ vs', ∃ n, attrAt g x.1 n = some (.val v) ∧ v.isNode = true ∧
      k = joinSlash (x.2 ++ [n])) → ∀ x ∈ vs', ∀ n, NoSlash n → t.get (joinSlash (x.2 ++ [n])) = nodeAt (attrAt g x.1 n) := by
    intro g t wfg ht x hx n hn
    refine Option.ext fun v => ?_
    rw [ht, nodeAt_eq]
    constructor
    · rintro ⟨y, hy, m, h1, h2, h3⟩
      obtain ⟨h4, rfl⟩ := joinSlash_path_inj ((hw x hx).noSlash wf) hn ((hw y hy).noSlash wf) (wfg.slash _ _ _ h1) h3
      rw [show x.1 = y.1 from (hw x hx).functional (h4 ▸ hw y hy)]
      exact ⟨h1, h2⟩
    · rintro ⟨h1, h2⟩; exact ⟨x, hx, n, h1, h2, rfl⟩
  have hnone : ∀ {g : Heap α} {t : State (PyVal α)} (wfg : WFHeap g), (∀ k v, t.get k = some v ↔ ∃ x ∈ vs', ∃ n, attrAt g x.1 n = some (.val v) ∧ v.isNode = true ∧
      k = joinSlash (x.2 ++ [n])) → ∀ k, (∀ l n, ¬ (NoSlash n ∧ ∃ p, (l, p) ∈ vs' ∧ k = joinSlash (p ++ [n]))) → t.get k = none := by
    intro g t wfg ht k hk
    cases e : t.get k with
    | none => rfl
    | some v =>
      obtain ⟨x, hx, n, h1, _, h3⟩ := (ht k v).1 e
      exact absurd ⟨wfg.slash _ _ _ h1, x.2, hx, h3⟩ (hk x.1 n)
  refine ⟨fun k l n => NoSlash n ∧ ∃ p, (l, p) ∈ vs' ∧ k = joinSlash (p ++ [n]), ⟨?_, ?_, ?_, ?_, fun h => hnone wf hg _ h⟩, ?_, hnone wf' hg'⟩
  · rintro k l n ⟨hn, p, hp, rfl⟩
    refine ⟨p, ?_, hw _ hp⟩
    rw [split_join (by simp)]
    intro s hs'
    rcases List.mem_append.1 hs' with h' | h'
    · exact (hw _ hp).noSlash wf s h'
    · simp at h'; subst h'; exact hn
  · rintro k l n ⟨hn, p, hp, rfl⟩; exact hone wf hg _ hp n hn
  · rintro k k' l n ⟨hn, p, hp, rfl⟩ ⟨_, p', hp', rfl⟩
    have := eq_of_map_nodup hnd hp hp' rfl
    cases this; rfl
  · intro n hn
    refine ⟨hn, [], ?_, by simp [joinSlash]⟩
    cases d with
    | seen _ hm => cases hm
    | visit => exact List.mem_cons_self
  · rintro k l n ⟨hn, p, hp, rfl⟩; exact hone wf' hg' _ hp n hn

variable [DecidableEq α]

omit [DecidableEq α] in
/-- An update of listed paths addresses no attribute that holds a Module, and no attribute twice. -/
theorem updates_listed {w : World α} (wf : WFWorld w) {r : Loc} (hr : r < w.heap.length) {f : Nat} {s : State (PyVal α)}
    (hs : getState f w.heap r = some s) {us : List (State (PyVal α))}
    (hus : ∀ t ∈ us, t.Canonical ∧ ∀ k v, t.get k = some v → WFVal v ∧ (s.get k).isSome) :
    (∀ t ∈ us, t.Canonical) ∧ GoodUpdates us ∧ LeafPaths w.heap r us ∧ NoConflict w.heap r us ∧
      ∀ k v, given us k = some v → WFVal v ∧ (s.get k).isSome := by
  obtain ⟨h1, h2, _⟩ := state_paths wf.heap hr hs
  have hget : ∀ t ∈ us, ∀ k v, (k, v) ∈ t.items → WFVal v ∧ (s.get k).isSome := fun t ht k v hm =>
    (hus t ht).2 k v (mem_dget (StrictSorted.nodup (hus t ht).1) hm)
  have hgiven : ∀ k v, given us k = some v → WFVal v ∧ (s.get k).isSome := by
    intro k v hk
    obtain ⟨t, ht, hm⟩ := given_mem hk
    exact hget t ht k v hm
  refine ⟨fun t ht => (hus t ht).1, ?_, ?_, ?_, hgiven⟩
  · intro t ht k v hm
    obtain ⟨hv, hk⟩ := hget t ht k v hm
    obtain ⟨u, hu⟩ := Option.isSome_iff_exists.1 hk
    obtain ⟨l, n, ⟨p, hp, _⟩, ha, _⟩ := h1 k u hu
    refine ⟨hv, ?_⟩
    rw [hp]
    simpa using wf.heap.reserved _ _ _ ha
  · intro k v hk l n ha b hb
    obtain ⟨u, hu⟩ := Option.isSome_iff_exists.1 (hgiven k v hk).2
    obtain ⟨l', n', ha', hv, _⟩ := h1 k u hu
    obtain ⟨rfl, rfl⟩ := ha.functional ha'
    rw [hb] at hv; cases hv
  · intro k v k' v' hk hk' l n ha ha'
    have := h2 k k' l n (hgiven k v hk).2 (hgiven k' v' hk').2 ha ha'
    subst this
    rw [hk] at hk'; cases hk'; rfl

/-- What the result of one operation is, for `C106`. -/
structure OpDone (op : ModelOp α) (s : State (PyVal α)) (w' : World α) (r' : Loc) : Prop where
  wf : WFWorld w'
  lt : r' < w'.heap.length
  state : ∃ s', getState (w'.heap.length + 1) w'.heap r' = some s' ∧ s'.get = op.onDict s.get

omit [DecidableEq α] in
/-- Operations that keep the references: it is enough to look at the attributes. -/
theorem OpDone.of_cells {op : ModelOp α} {w w' : World α} (wf : WFWorld w) (wf' : WFWorld w') {r : Loc} (hr : r < w.heap.length)
    (hr' : r < w'.heap.length) (sr : RefsKept w.heap w'.heap r) {f : Nat} {s : State (PyVal α)} (hs : getState f w.heap r = some s)
    (hcell : ∀ C, Listing w.heap r s C → (∀ k l n, C k l n → nodeAt (attrAt w'.heap l n) = op.onDict s.get k) ∧
      ∀ k, (∀ l n, ¬ C k l n) → op.onDict s.get k = none) : OpDone op s w' r := by
  obtain ⟨s', hs'⟩ := getState_exists wf'.heap hr' (Nat.lt_succ_self w'.heap.length)
  refine ⟨wf', hr', s', hs', funext fun k => ?_⟩
  obtain ⟨C, hC, h1, h2⟩ := state_cells wf.heap wf'.heap hr hr' sr hs hs'
  obtain ⟨h3, h4⟩ := hcell C hC
  by_cases hk : ∃ l n, C k l n
  · obtain ⟨l, n, hc⟩ := hk
    rw [h1 k l n hc, h3 k l n hc]
  · have hk : ∀ l n, ¬ C k l n := fun l n hc => hk ⟨l, n, hc⟩
    rw [h2 k hk, h4 k hk]

omit [DecidableEq α] in
/-- Operations that change one attribute, which is listed under `k0`. -/
theorem OpDone.one_cell {op : ModelOp α} {w w' : World α} (wf : WFWorld w) (wf' : WFWorld w') {r : Loc} (hr : r < w.heap.length)
    (hobj : ∀ (a : Loc) o, w.heap[a]? = some o → ∃ o', w'.heap[a]? = some o' ∧ o'.uid = o.uid) {f : Nat} {s : State (PyVal α)} (hs : getState f w.heap r = some s)
    {l0 : Loc} {n0 k0 : Str} {x : Option (Attr α)} (hC : ∀ C, Listing w.heap r s C → C k0 l0 n0)
    (hat : ∀ l n, attrAt w'.heap l n = if l = l0 ∧ n = n0 then x else attrAt w.heap l n)
    (hx : ∀ b, x ≠ some (.ref b)) (hold : ∀ b, attrAt w.heap l0 n0 ≠ some (.ref b))
    (hop : ∀ k, op.onDict s.get k = if k = k0 then nodeAt x else s.get k) : OpDone op s w' r := by
  have hr' : r < w'.heap.length := by
    obtain ⟨o', ho', _⟩ := hobj r _ (List.getElem?_eq_getElem hr)
    exact (List.getElem?_eq_some_iff.1 ho').1
  refine .of_cells wf wf' hr hr' ⟨fun a o _ e => hobj a o e, fun a n b _ => ?_⟩ hs fun C hCl => ⟨fun k l n hc => ?_, fun k hk => ?_⟩
  · rw [hat]
    split
    · next h => rw [h.1, h.2]; exact ⟨fun e => absurd e (hx b), fun e => absurd e (hold b)⟩
    · rfl
  · rw [hat, hop]
    by_cases h : l = l0 ∧ n = n0
    · rw [if_pos h]
      obtain ⟨rfl, rfl⟩ := h
      rw [if_pos (hCl.uniq hc (hC C hCl))]
    · rw [if_neg h, if_neg, hCl.value hc]
      rintro rfl
      exact h ((hCl.addr hc).functional (hCl.addr (hC C hCl)))
  · rw [hop, if_neg, hCl.only hk]
    rintro rfl
    exact hk _ _ (hC C hCl)

/-- An assignment of a value, attribute by attribute. -/
theorem setAttr_cell {w w' : World α} (wf : WFWorld w) {l : Loc} {n : Str} {v : PyVal α} (hn : GoodName n) (hv : WFVal v)
    (e : setAttr w l n (.val v) = .ok w') : Confined (fun _ => True) w w' ∧
      ∀ l' n', attrAt w'.heap l' n' = if l' = l ∧ n' = n then some (.val (newValue (attrAt w.heap l n) v)) else attrAt w.heap l' n' := by
  have hcf := confined_setAttr_val wf (A := fun _ => True) (fun _ _ _ _ _ => trivial) trivial hn hv e
  obtain ⟨o, a, ho, ht, hne, ha, rfl⟩ := setAttr_ok_iff.1 e
  have hav : a = .val (newValue (attrAt w.heap l n) v) := by
    by_cases hc : Compatible (attrAt w.heap l n) v
    · rw [storedAttr_ok (wfOld wf l n) hv hc] at ha; cases ha; rfl
    · rw [storedAttr_error (wfOld wf l n) hv hc] at ha; cases ha
  subst hav
  exact ⟨hcf.1, fun l' n' => attrAt_setAttrs ho n _ l' n'⟩

omit [DecidableEq α] in
theorem root_listed {w : World α} (wf : WFWorld w) {r : Loc} (hr : r < w.heap.length) {f : Nat} {s : State (PyVal α)}
    (hs : getState f w.heap r = some s) {n : Str} (hn : NoSlash n) : s.get n = nodeAt (attrAt w.heap r n) := by
  obtain ⟨C, hC, _⟩ := state_cells wf.heap wf.heap hr hr ⟨fun a o _ e => ⟨o, e, rfl⟩, fun _ _ _ _ => Iff.rfl⟩ hs hs
  exact hC.value (hC.root hn)

/-- C106, one operation. -/
theorem does_opDone {op : ModelOp α} {w w' : World α} (wf : WFWorld w) {r r' : Loc} (hr : r < w.heap.length) {f : Nat}
    {s : State (PyVal α)} (hs : getState f w.heap r = some s) (hop : op.Allowed s.get) (hd : op.Does w r w' r') : OpDone op s w' r' := by
  have hall : Closed w.heap (fun _ => True) := fun _ _ _ _ _ => trivial
  obtain ⟨hp1, hp2, hp3⟩ := state_paths wf.heap hr hs
  cases op with
  | update us =>
    obtain ⟨rfl, fuel, e⟩ := hd
    obtain ⟨hc, hg, hleaf, hnc, hgiven⟩ := updates_listed wf hr hs hop
    have hcf := confined_updateState wf hall trivial hr hg e
    obtain ⟨hso, _, _, hset⟩ := C14_addressed_updated wf hr hc hg hleaf hnc e
    have hr' : r' < w'.heap.length := by rw [hcf.2]; exact hr
    refine .of_cells wf hcf.1.wf hr hr' ⟨fun a o _ ho => ?_, fun a n b _ => ?_⟩ hs fun C hC => ⟨fun k l n hcell => ?_, fun k hk => ?_⟩
    · obtain ⟨o', h1, h2, _⟩ := hcf.1.stable a o ho; exact ⟨o', h1, h2⟩
    · by_cases hk : ∃ k v, given us k = some v ∧ Addresses w.heap r' k a n
      · obtain ⟨k, v, hk, ha⟩ := hk
        rw [hset k v a n hk ha]
        exact ⟨(fun e => by cases e), fun e => absurd e (hleaf k v hk a n ha b)⟩
      · rw [C14_frame wf hr hc hg hleaf e fun k v hk' ha => hk ⟨k, v, hk', ha⟩]
    · simp only [ModelOp.onDict]
      cases hk : given us k with
      | some v =>
        simp only
        rw [hset k v l n hk (hC.addr hcell), nodeAt_newValue, hC.value hcell]
        intro c x m hx
        obtain ⟨u, hu⟩ := Option.isSome_iff_exists.1 (hgiven k v hk).2
        rw [hC.value hcell, nodeAt_eq] at hu
        rw [hx] at hu
        cases hu.1; exact hu.2
      | none =>
        simp only
        rw [C14_frame wf hr hc hg hleaf e, hC.value hcell]
        intro k' v' hk' ha
        have := hC.uniq hcell (hC.listed (hgiven k' v' hk').2 ha)
        subst this
        rw [hk] at hk'; cases hk'
    · simp only [ModelOp.onDict]
      have hn := hC.only hk
      cases hg' : given us k with
      | some v => have := (hgiven k v hg').2; rw [hn] at this; cases this
      | none => exact hn
  | write path v =>
    obtain ⟨rfl, fuel, d, leaf, hf, hd, hleaf, hset⟩ := hd
    obtain ⟨d', s', hd', hs', _, hl⟩ := C22_paths_and_reads wf.heap hr hf
    rw [hd] at hd'; cases hd'
    have := getState_det wf.heap hr hs hs'
    subst this
    obtain ⟨_, haddr, u, hu, hau, _⟩ := hl path leaf hleaf
    obtain ⟨l, n⟩ := leaf
    simp only at haddr hau
    have hgood : GoodName n := ⟨wf.heap.slash _ _ _ hau, wf.heap.reserved _ _ _ hau⟩
    obtain ⟨hcf, hat⟩ := setAttr_cell wf hgood hop (show setAttr w l n (.val v) = .ok w' from hset)
    refine .one_cell wf hcf.wf hr (fun a o ho => ?_) hs (l0 := l) (n0 := n) (k0 := path)
      (fun C hC => hC.listed (by rw [hu]; rfl) haddr) hat (by intro b h; cases h) (by rw [hau]; intro b h; cases h) fun k => ?_
    · obtain ⟨o', h1, h2, _⟩ := hcf.stable a o ho; exact ⟨o', h1, h2⟩
    · obtain ⟨l', n', ha', hv', hnode⟩ := hp1 path u hu
      obtain ⟨rfl, rfl⟩ := haddr.functional ha'
      simp only [ModelOp.onDict]
      split
      · next h =>
        subst h
        rw [nodeAt_newValue, hu, nodeAt_eq.2 ⟨hau, hnode⟩]
        intro c x m hx
        rw [hau] at hx; cases hx; exact hnode
      · rfl
  | assign name v =>
    obtain ⟨rfl, hset, hnr, hcont⟩ := hd
    obtain ⟨hn, hv⟩ := hop
    obtain ⟨hcf, hat⟩ := setAttr_cell wf hn hv hset
    refine .one_cell wf hcf.wf hr (fun a o ho => ?_) hs (l0 := r') (n0 := name) (k0 := name) (fun C hC => hC.root hn.1)
      hat (by intro b h; cases h) hnr fun k => ?_
    · obtain ⟨o', h1, h2, _⟩ := hcf.stable a o ho; exact ⟨o', h1, h2⟩
    · simp only [ModelOp.onDict]
      split
      · next h => subst h; rw [nodeAt_newValue hcont, root_listed wf hr hs hn.1]
      · rfl
  | delete name =>
    obtain ⟨rfl, hnr, h', hdel, rfl⟩ := hd
    have hcf := confined_delAttr wf hall trivial hdel
    have hdel' := hdel
    unfold delAttr at hdel
    rw [List.getElem?_eq_getElem hr] at hdel
    simp only at hdel
    split at hdel
    case isFalse => cases hdel
    next hhas =>
    have hh' := (Except.ok.inj hdel).symm
    have ho := List.getElem?_eq_getElem hr
    generalize w.heap[r'] = o at *
    have hat : ∀ l n, attrAt h' l n = if l = r' ∧ n = name then none else attrAt w.heap l n := by
      intro l n
      rw [hh']
      by_cases h1 : l = r'
      · subst h1
        simp only [attrAt, List.getElem?_set_self hr, ho, true_and, dget_ddel (wf.heap.nodup _ _ ho)]
        simp only [eq_comm]
      · rw [if_neg fun h => h1 h.1]
        simp only [attrAt]
        rw [List.getElem?_set_ne (Ne.symm h1)]
    have hslash : NoSlash name := by
      have : (attrAt w.heap r' name).isSome := by simpa [attrAt, ho, dhas] using hhas
      obtain ⟨a, ha⟩ := Option.isSome_iff_exists.1 this
      exact wf.heap.slash _ _ _ ha
    refine .one_cell wf hcf.1.wf hr (fun a o ho => ?_) hs (l0 := r') (n0 := name) (k0 := name) (fun C hC => hC.root hslash)
      hat (by intro b h; cases h) hnr fun k => rfl
    obtain ⟨o', h1, h2, _⟩ := hcf.1.stable a o ho; exact ⟨o', h1, h2⟩
  | pop fs =>
    obtain ⟨rfl, fuel, ss, h', hf, e, rfl⟩ := hd
    have hcf := confined_popState wf hall trivial e
    obtain ⟨s0, s', h1, h2, h3⟩ := C17_nothing_left_partial wf.heap hr (C17_returns_only_if_acyclic wf.heap hr e) hf e hop
    have := getState_det wf.heap hr hs h1
    subst this
    have hr' : r' < h'.length := by rw [hcf.2]; exact hr
    obtain ⟨s1, hs1⟩ := getState_exists hcf.1.wf.heap hr' (Nat.lt_succ_self h'.length)
    have := getState_det hcf.1.wf.heap hr' h2 hs1
    subst this
    refine ⟨hcf.1.wf, hr', s', hs1, funext fun k => Option.ext fun v => ?_⟩
    rw [h3]
    simp only [ModelOp.onDict]
    cases hk : s.get k with
    | none => simp
    | some u =>
      simp only [Option.some.injEq]
      split
      · next h =>
        obtain ⟨g, hg, hm⟩ := h
        simp only [reduceCtorEq, iff_false]
        rintro ⟨rfl, h⟩; exact h g hg hm
      · next h =>
        simp only [Option.some.injEq]
        exact ⟨fun e => e.1, fun e => ⟨e, fun g hg hm => h ⟨g, hg, e ▸ hm⟩⟩⟩
  | rebuild fs states =>
    obtain ⟨fuel, ss, d, hp, hperm, hm⟩ := hd
    have key : WFWorld w' ∧ r' < w'.heap.length ∧ SameGraph w.heap r w'.heap r' := by
      unfold partitionModule at hp
      split at hp
      swap
      · cases hp
      next d' s1 hd hs1 =>
      have hpieces : Pieces s1 ss ∧ d' = d := by
        cases fs with
        | nil =>
          simp only [Except.ok.injEq, Prod.mk.injEq] at hp
          obtain ⟨rfl, rfl⟩ := hp
          exact ⟨pieces_self (getState_canonical hs1), rfl⟩
        | cons f fs =>
          simp only at hp
          split at hp
          · cases hp
          · next ss0 hpart =>
            simp only [Except.ok.injEq, Prod.mk.injEq] at hp
            obtain ⟨rfl, rfl⟩ := hp
            exact ⟨partition_pieces (getState_obtainable hs1) hpart, rfl⟩
      obtain ⟨hpieces, rfl⟩ := hpieces
      have hpieces' : Pieces s1 states := ⟨fun t ht => hpieces.1 t (hperm.mem_iff.1 ht), fun t ht => hpieces.2.1 t (hperm.mem_iff.1 ht),
        fun k v hk => by obtain ⟨t, ht, h⟩ := hpieces.2.2 k v hk; exact ⟨t, hperm.mem_iff.2 ht, h⟩⟩
      obtain ⟨w2, f, hm2, sp⟩ := mergeDef_spec wf.heap hr hd hs1 hpieces' (w := w) wf.heap.conts
      rw [hm] at hm2
      simp only [Prod.mk.injEq, Except.ok.injEq] at hm2
      obtain ⟨rfl, rfl⟩ := hm2
      refine ⟨⟨sp.wf wf.heap wf.heap wf.ids, ?_⟩, ?_, sp.iso.sameGraph wf.heap hr⟩
      · intro l o ho
        by_cases hl : l < w.heap.length
        · rw [sp.old _ hl] at ho; exact Nat.le_trans (wf.ids _ _ ho) sp.ids
        · exact (sp.fresh _ _ (Nat.le_of_not_lt hl) ho).2.1
      · obtain ⟨o', ho', _⟩ := sp.iso.obj _ _ ⟨[], .here hr⟩ (List.getElem?_eq_getElem hr)
        rw [sp.iso.root] at ho'
        exact (List.getElem?_eq_some_iff.1 ho').1
    obtain ⟨wf', hr', g⟩ := key
    obtain ⟨s0, d0, e1, e2⟩ := C24_partition_canonical wf.heap wf'.heap hr hr' g (Nat.lt_succ_self _) (Nat.lt_succ_self _)
    have hget : ∀ {g : World α} {a : Loc} {F : Nat}, partitionModule F g.heap a [] = .ok ([s0], d0) → getState F g.heap a = some s0 := by
      intro g a F e
      unfold partitionModule at e
      split at e
      · next h1 h2 => simp only [Except.ok.injEq, Prod.mk.injEq, List.cons.injEq, and_true] at e; rw [← e.1]; exact h2
      · cases e
    have := getState_det wf.heap hr hs (hget e1)
    subst this
    exact ⟨wf', hr', s, hget e2, rfl⟩
  | elsewhere =>
    obtain ⟨rfl, wf', hsame⟩ := hd
    have hat : ∀ l n, Reaches w.heap r' l → attrAt w'.heap l n = attrAt w.heap l n := by
      intro l n hl; simp only [attrAt, hsame l hl]
    have hr' : r' < w'.heap.length := by
      have := hsame r' ⟨[], .here hr⟩
      rw [List.getElem?_eq_getElem hr] at this
      exact (List.getElem?_eq_some_iff.1 this).1
    refine .of_cells wf wf' hr hr' ⟨fun a o ha e => ⟨o, (hsame a ha).trans e, rfl⟩, fun a n b ha => by rw [hat a n ha]⟩ hs
      fun C hC => ⟨fun k l n hc => ?_, fun k hk => hC.only hk⟩
    obtain ⟨p, _, hw⟩ := hC.addr hc
    rw [hat l n ⟨p, hw⟩]
    exact (hC.value hc).symm

end Nnx
