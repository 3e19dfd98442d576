import Verif.Model.Lifted
import Verif.Proofs.Helpers
import Verif.Props.NestedLoop
import Verif.Props.ScanLayers
/-
The Module classes Remat and Scan.
-/
namespace Nnx
variable {α : Type}

/-- A traversal in another heap, under a longer path, with one more id seen that does not occur. -/
theorem Dfs.under {h h' : Heap α} {ord} {P : Loc → Prop} (hP : Closed h P) (hh : ∀ a, P a → h'[a]? = h[a]?) (hord : IsOrder ord) (wf : WFHeap h) {u : Nat}
    (hu : ∀ a o, P a → h[a]? = some o → o.uid ≠ u) (n : Str) {f t S vs S'} (d : Dfs h ord f t S vs S') :
    match t with
    | .visit l p => P l → Dfs h' ord f (.visit l (n :: p)) (u :: S) (vs.map fun x => (x.1, n :: x.2)) (u :: S')
    | .attrs as p => (∀ m b, (m, Attr.ref b) ∈ as → P b) → Dfs h' ord f (.attrs as (n :: p)) (u :: S) (vs.map fun x => (x.1, n :: x.2)) (u :: S') := by
  induction d with
  | seen e hm => exact fun hl => .seen ((hh _ hl).trans e) (List.mem_cons_of_mem _ hm)
  | @visit f l p S S' o vs e hm d ih =>
    intro hl
    refine .visit ((hh _ hl).trans e) ?_ (ih ?_)
    · intro h
      rcases List.mem_cons.1 h with h | h
      · exact hu _ _ hl e h
      · exact hm h
    · intro m b hb
      exact hP l m b hl (attrAt_of_mem wf e ((hord _).mem_iff.1 hb))
  | nil => exact fun _ => .nil
  | val d ih => exact fun hl => .val (ih fun m b hb => hl m b (List.mem_cons_of_mem _ hb))
  | @ref f m l rest p S vs S1 ws S2 d1 d2 ih1 ih2 =>
    intro hl
    rw [List.map_append]
    exact .ref (ih1 (hl m l List.mem_cons_self)) (ih2 fun m b hb => hl m b (List.mem_cons_of_mem _ hb))

/-- Attributes that are not Modules do not matter for the traversal. -/
theorem Dfs.refs {h : Heap α} {ord f} : ∀ {as : List (Str × Attr α)} {p S vs S'}, Dfs h ord f (.attrs (as.filter fun x => x.2.isModule) p) S vs S' →
    Dfs h ord f (.attrs as p) S vs S' := by
  intro as
  induction as with
  | nil => exact fun d => d
  | cons x as ih =>
    obtain ⟨n, x⟩ := x
    intro p S vs S' d
    cases x with
    | val v => exact .val (ih d)
    | ref l =>
      rw [List.filter_cons_of_pos rfl] at d
      cases d with
      | ref d1 d2 => exact .ref d1 (ih d2)

theorem Dfs.det {h : Heap α} {ord f t S vs S'} (d : Dfs h ord f t S vs S') : ∀ {ws S2}, Dfs h ord f t S ws S2 → vs = ws ∧ S' = S2 := by
  induction d with
  | seen e hm =>
    intro ws S2 d'
    cases d' with
    | seen _ _ => exact ⟨rfl, rfl⟩
    | visit e' hn _ => rw [e] at e'; cases e'; exact absurd hm hn
  | visit e hm d ih =>
    intro ws S2 d'
    cases d' with
    | seen e' hn => rw [e] at e'; cases e'; exact absurd hn hm
    | visit e' hn d' =>
      rw [e] at e'; cases e'
      obtain ⟨rfl, rfl⟩ := ih d'
      exact ⟨rfl, rfl⟩
  | nil => intro ws S2 d'; cases d'; exact ⟨rfl, rfl⟩
  | val d ih =>
    intro ws S2 d'
    cases d' with
    | val d' => exact ih d'
  | ref d1 d2 ih1 ih2 =>
    intro ws S2 d'
    cases d' with
    | ref d1' d2' =>
      obtain ⟨rfl, rfl⟩ := ih1 d1'
      obtain ⟨rfl, rfl⟩ := ih2 d2'
      exact ⟨rfl, rfl⟩

variable [DecidableEq α]

/-- The Module that `wrapNew` makes. -/
theorem wrapNew_spec {c : Cls} {steps : List (Str × PyVal α)} {inner : Str} {make : World α → World α × Except Err Loc} {w w1 : World α} {l : Loc}
    (hn : DNodup steps) (hs : ∀ s ∈ steps, GoodName s.1 ∧ s.2.Plain ∧ s.2.isNode = false) (hi : GoodName inner) (hni : inner ∉ dkeys steps)
    (hmake : make { (newModule c w).1 with heap := w.heap ++ [⟨c, steps.map fun s => (s.1, Attr.val s.2), w.nextId + 1, false, w.curTrace⟩] } = (w1, .ok l))
    (wf1 : WFWorld w1) (hl : l < w1.heap.length) (ht : w1.curTrace = w.curTrace)
    (hr : w1.heap[w.heap.length]? = some ⟨c, steps.map fun s => (s.1, Attr.val s.2), w.nextId + 1, false, w.curTrace⟩)
    (hnr : ¬ Reaches w1.heap l w.heap.length) :
    ∃ w2, wrapNew c (steps.map fun s => (s.1, Attr.val s.2)) inner make w = (w2, .ok w.heap.length) ∧
      WFWorld w2 ∧ w2.heap.length = w1.heap.length ∧ w2.jaxTrace = w1.jaxTrace ∧ w2.nnxStack = w1.nnxStack ∧
      (∀ a : Loc, a ≠ w.heap.length → w2.heap[a]? = w1.heap[a]?) ∧
      w2.heap[w.heap.length]? = some ⟨c, (steps.map fun s => (s.1, Attr.val s.2)) ++ [(inner, .ref l)], w.nextId + 1, false, w.curTrace⟩ ∧
      (∀ a, Reaches w2.heap w.heap.length a ↔ a = w.heap.length ∨ Reaches w1.heap l a) ∧
      (∀ a, Reaches w2.heap l a ↔ Reaches w1.heap l a) ∧
      ∀ f f' s s1, getState f w2.heap w.heap.length = some s → getState f' w1.heap l = some s1 →
        ∀ k v, s.get k = some v ↔ ∃ k', k = inner ++ '/' :: k' ∧ s1.get k' = some v := by
  generalize hA : steps.map (fun s => (s.1, Attr.val s.2)) = attrs at *
  have hk : dkeys attrs = dkeys steps := by rw [← hA]; simp [dkeys]
  have hnot : inner ∉ dkeys attrs := by rw [hk]; exact hni
  have hst : ∀ x ∈ attrs, ∃ v, x.2 = .val v ∧ v.isNode = false ∧ GoodName x.1 ∧ GoodField v := by
    intro x hx
    rw [← hA] at hx
    obtain ⟨y, hy, rfl⟩ := List.mem_map.1 hx
    exact ⟨_, rfl, (hs y hy).2.2, (hs y hy).1, .inl (hs y hy).2.1⟩
  have h1 := new_setAttrAll c w (steps := attrs) (by rw [DNodup, hk]; exact hn) (fun x hx => by
    obtain ⟨v, e, _, hg, hv⟩ := hst x hx
    exact ⟨fun h => by have := hg.2; rw [h] at this; exact absurd this (by decide), by rw [e]; exact hv⟩)
  have hgi : inner ≠ py! "_module__state" := fun h => by have := hi.2; rw [h] at this; exact absurd this (by decide)
  have hno : attrAt w1.heap w.heap.length inner = none := by
    rw [attrAt, hr]; exact dget_eq_none.2 hnot
  have hset := setAttr_ok_iff.2 ⟨_, .ref l, hr, by simp [World.traceValid, ht], hgi, (by rw [hno]; rfl : storedAttr (attrAt w1.heap w.heap.length inner) (.ref l) = .ok (.ref l)), rfl⟩
  simp only [dset_of_not_mem hnot] at hset
  generalize hw2 : w1.setAttrs w.heap.length _ _ = w2 at hset
  have hlt : w.heap.length < w1.heap.length := (List.getElem?_eq_some_iff.1 hr).1
  obtain ⟨cf, hlen⟩ := confined_setAttr_ref (A := fun _ => True) wf1 (fun _ _ _ _ _ => trivial) trivial hi trivial hl hset
  have hother : ∀ a : Loc, a ≠ w.heap.length → w2.heap[a]? = w1.heap[a]? := by
    intro a ha
    rw [← hw2]
    simp only [World.setAttrs]
    rw [List.getElem?_set_ne (Ne.symm ha)]
  have hr2 : w2.heap[w.heap.length]? = some ⟨c, attrs ++ [(inner, .ref l)], w.nextId + 1, false, w.curTrace⟩ := by
    rw [← hw2]
    simp only [World.setAttrs]
    rw [List.getElem?_set_self hlt]
  have hP : Closed w1.heap (Reaches w1.heap l) := fun a n b ha e => ha.step wf1.heap e
  have hPn : ∀ a, Reaches w1.heap l a → a ≠ w.heap.length := fun a ha e => hnr (e ▸ ha)
  have hreach : ∀ a, Reaches w2.heap l a ↔ Reaches w1.heap l a := by
    intro a
    exact exists_congr fun p => walk_same hP (Nat.le_of_eq hlen.symm) (fun b hb _ => hother b (hPn b hb)) (.refl hl) hl wf1.heap.refs
  have hedge : ∀ n, attrAt w2.heap w.heap.length n = dget (attrs ++ [(inner, .ref l)]) n := fun n => by rw [attrAt, hr2]
  have hin : attrAt w2.heap w.heap.length inner = some (.ref l) := by
    rw [hedge, ← dset_of_not_mem hnot, dget_dset, if_pos rfl]
  have honly : ∀ n a, attrAt w2.heap w.heap.length n = some a → (n = inner ∧ a = .ref l) ∨ ∃ v, a = .val v ∧ v.isNode = false := by
    intro n a e
    rw [hedge] at e
    rcases List.mem_append.1 (dget_mem e) with h | h
    · obtain ⟨v, e, hv, _⟩ := hst _ h
      exact .inr ⟨v, e, hv⟩
    · rw [List.mem_singleton, Prod.mk.injEq] at h
      exact .inl h
  have hreach2 : ∀ a, Reaches w2.heap w.heap.length a ↔ a = w.heap.length ∨ Reaches w1.heap l a := by
    intro a
    constructor
    · rintro ⟨p, hp⟩
      cases hp with
      | here _ => exact .inl rfl
      | step e q =>
        rcases honly _ _ e with ⟨rfl, h⟩ | ⟨v, h, _⟩
        · cases h
          exact .inr ((hreach _).1 ⟨_, q⟩)
        · cases h
    · rintro (rfl | h)
      · exact .refl (hlen ▸ hlt)
      · exact .head hin ((hreach _).2 h)
  refine ⟨w2, ?_, cf.wf, hlen, by rw [← hw2]; rfl, by rw [← hw2]; rfl, hother, hr2, hreach2, hreach, ?_⟩
  · rw [wrapNew, h1]
    simp only [hmake]
    have : (newModule c w).2 = w.heap.length := rfl
    rw [this, hset]
  · intro f f' s s1 hs' hs1 k v
    obtain ⟨vs, S', d, _, hg⟩ := getState_spec wf1.heap hl hs1
    have d2 := d.under hP (fun a ha => hother a (hPn a ha)) isOrder_sort wf1.heap (u := w.nextId + 1)
      (fun a o ha e h => hPn a ha (wf1.heap.uids _ _ _ _ e hr h)) inner (.refl hl)
    have d3 : Dfs w2.heap sortItems (f' + 1) (.visit w.heap.length []) [] ((w.heap.length, []) :: vs.map fun x => (x.1, inner :: x.2)) ((w.nextId + 1) :: S') := by
      refine .visit hr2 (by simp) (.refs ?_)
      have hp : (sortItems (attrs ++ [(inner, Attr.ref l)])).filter (fun x => x.2.isModule) = [(inner, .ref l)] := by
        have := (sortItems_perm (attrs ++ [(inner, Attr.ref l)])).filter (fun x => x.2.isModule)
        have h0 : attrs.filter (fun x => x.2.isModule) = [] :=
          List.filter_eq_nil_iff.2 (fun x hx => by obtain ⟨v, e, _⟩ := hst x hx; rw [e]; simp [Attr.isModule])
        rw [List.filter_append, h0] at this
        exact List.perm_singleton.1 this
      rw [hp]
      have := Dfs.ref (ord := sortItems) (rest := []) (p := []) (n := inner) d2 .nil
      simpa using this
    obtain ⟨s', hs''⟩ := d3.getState
    have hlt2 : w.heap.length < w2.heap.length := hlen ▸ hlt
    have := getState_det cf.wf.heap hlt2 hs' hs''
    subst this
    obtain ⟨vs', S'', d', _, hg'⟩ := getState_spec cf.wf.heap hlt2 hs''
    obtain ⟨rfl, _⟩ := d3.det d'
    rw [hg']
    constructor
    · rintro ⟨x, hx, n, ha, hv, rfl⟩
      rcases List.mem_cons.1 hx with rfl | hx
      · rcases honly _ _ ha with ⟨_, h⟩ | ⟨v', h, hv'⟩
        · cases h
        · cases h; rw [hv] at hv'; cases hv'
      · obtain ⟨y, hy, rfl⟩ := List.mem_map.1 hx
        refine ⟨joinSlash (y.2 ++ [n]), ?_, (hg _ _).2 ⟨y, hy, n, ?_, hv, rfl⟩⟩
        · cases y.2 <;> rfl
        · have : Reaches w1.heap l y.1 := ⟨_, d.walk wf1.heap isOrder_sort (.here hl) y hy⟩
          simp only [attrAt, hother _ (hPn _ this)] at ha ⊢
          exact ha
    · rintro ⟨k', rfl, hk'⟩
      obtain ⟨y, hy, n, ha, hv, rfl⟩ := (hg _ _).1 hk'
      refine ⟨(y.1, inner :: y.2), List.mem_cons_of_mem _ (List.mem_map.2 ⟨y, hy, rfl⟩), n, ?_, hv, ?_⟩
      · have : Reaches w1.heap l y.1 := ⟨_, d.walk wf1.heap isOrder_sort (.here hl) y hy⟩
        simp only [attrAt, hother _ (hPn _ this)] at ha ⊢
        exact ha
      · cases y.2 <;> rfl

end Nnx
