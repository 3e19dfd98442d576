import Verif.Props.Grad
import Verif.Spec.Scan
/-
Changing and adding nodes keeps the ModuleDef and the paths of the nodes that were there.
-/
namespace Nnx
variable {α : Type}

/-! ### The part of a module that is not nodes -/

/-- The attributes that are not nodes. -/
def core (as : List (Str × Attr α)) : List (Str × Attr α) := as.filter fun kv => !kv.2.isNode

theorem core_ref (n : Str) (l : Loc) (as : List (Str × Attr α)) : core ((n, .ref l) :: as) = (n, .ref l) :: core as := rfl
theorem core_node {n : Str} {v : PyVal α} (hv : v.isNode = true) (as : List (Str × Attr α)) :
    core ((n, .val v) :: as) = core as := by
  simp only [core, List.filter_cons, Attr.isNode, hv, Bool.not_true, Bool.false_eq_true, if_false]
theorem core_static {n : Str} {v : PyVal α} (hv : v.isNode = false) (as : List (Str × Attr α)) :
    core ((n, .val v) :: as) = (n, .val v) :: core as := by
  simp only [core, List.filter_cons, Attr.isNode, hv, Bool.not_false, if_true]

theorem core_sort {as bs : Dict Str (Attr α)} (ha : DNodup as) (hb : DNodup bs)
    (h : ∀ n x, x.isNode = false → (dget as n = some x ↔ dget bs n = some x)) : core (sortItems as) = core (sortItems bs) := by
  refine StrictSorted.ext_mem ((sortItems_strict ha).filter _) ((sortItems_strict hb).filter _) ?_
  rintro ⟨n, x⟩
  simp only [core, List.mem_filter, (sortItems_perm _).mem_iff, ← dget_iff_mem ha, ← dget_iff_mem hb, Bool.not_eq_true']
  constructor
  · rintro ⟨h1, h2⟩; exact ⟨(h n x h2).1 h1, h2⟩
  · rintro ⟨h1, h2⟩; exact ⟨(h n x h2).2 h1, h2⟩

/-- Two heaps have the same modules reachable from `root`, except for their nodes. -/
def CoreEq (h h' : Heap α) (root : Loc) : Prop :=
  ∀ a, Reaches h root a → ∃ o o', h[a]? = some o ∧ h'[a]? = some o' ∧ o'.uid = o.uid ∧ o'.cls = o.cls ∧ o'.isInit = o.isInit ∧
    core (sortItems o'.attrs) = core (sortItems o.attrs)

theorem makeDefAttrs_core (rec : Loc → List Nat → Option ((Nat ⊕ ModuleDef α) × List Nat)) (as : List (Str × Attr α)) :
    ∀ idx, makeDefAttrs rec as idx = makeDefAttrs rec (core as) idx := by
  induction as with
  | nil => intro idx; rfl
  | cons x as ih =>
    intro idx
    obtain ⟨n, a⟩ := x
    cases a with
    | ref l => simp only [core_ref, makeDefAttrs, ih]
    | val v =>
      cases hv : v.isNode with
      | false => simp only [core_static hv, makeDefAttrs, ih]
      | true =>
        rw [core_node hv, ← ih]
        simp only [makeDefAttrs, hv, Bool.not_true, Bool.false_and, Bool.false_eq_true, if_false]
        cases makeDefAttrs rec as idx with
        | none => rfl
        | some r => rfl

theorem makeDefAttrs_congr {rec rec' : Loc → List Nat → Option ((Nat ⊕ ModuleDef α) × List Nat)} (as : List (Str × Attr α))
    (hr : ∀ n l, (n, .ref l) ∈ as → ∀ idx, rec' l idx = rec l idx) :
    ∀ idx, makeDefAttrs rec' as idx = makeDefAttrs rec as idx := by
  induction as with
  | nil => intro idx; rfl
  | cons x as ih =>
    intro idx
    have ih' := ih fun n l h => hr n l (List.mem_cons_of_mem _ h)
    obtain ⟨n, a⟩ := x
    cases a with
    | ref l => simp only [makeDefAttrs, ih', hr n l List.mem_cons_self]
    | val v => simp only [makeDefAttrs, ih']

theorem makeDefRec_core {h h' : Heap α} (wf : WFHeap h) {root : Loc} (hc : CoreEq h h' root) : ∀ (fuel : Nat) l idx,
    Reaches h root l → makeDefRec h' fuel l idx = makeDefRec h fuel l idx := by
  intro fuel
  induction fuel with
  | zero => intro l idx _; rfl
  | succ fuel ih =>
    intro l idx hl
    obtain ⟨o, o', e, e', h1, h2, h3, h4⟩ := hc l hl
    simp only [makeDefRec, e, e', h1, h2, h3]
    rw [makeDefAttrs_core _ (sortItems o'.attrs), h4, makeDefAttrs_congr (rec := makeDefRec h fuel), ← makeDefAttrs_core]
    intro n b hb idx
    refine ih b idx ?_
    obtain ⟨q, hq⟩ := hl
    have hm := (sortItems_perm _).mem_iff.1 (List.mem_filter.1 hb).1
    have ha := attrAt_of_mem wf e hm
    exact ⟨_, hq.snoc ha (wf.refs _ _ _ ha)⟩

/-- The traversal task whose attributes may have other nodes. -/
def Task.coreEq : Task α → Task α → Prop
  | .visit l p, .visit l' p' => l' = l ∧ p' = p
  | .attrs as p, .attrs as' p' => core as' = core as ∧ p' = p
  | _, _ => False

theorem Dfs.attrs_core {h : Heap α} {ord} {f : Nat} {p : List Str} (as : List (Str × Attr α)) : ∀ {S vs S'},
    Dfs h ord f (.attrs (core as) p) S vs S' → Dfs h ord f (.attrs as p) S vs S' := by
  induction as with
  | nil => intro S vs S' d; exact d
  | cons x as ih =>
    intro S vs S' d
    obtain ⟨n, a⟩ := x
    cases a with
    | ref l =>
      rw [core_ref] at d
      cases d with
      | ref d1 d2 => exact .ref d1 (ih d2)
    | val v =>
      cases hv : v.isNode with
      | true => rw [core_node hv] at d; exact .val (ih d)
      | false =>
        rw [core_static hv] at d
        cases d with
        | val d => exact .val (ih d)

theorem Dfs.core {h h' : Heap α} (wf : WFHeap h) {root : Loc} (hc : CoreEq h h' root) {f t S vs S'}
    (d : Dfs h sortItems f t S vs S') : t.Ok h root →
    match t with
    | .visit l p => Dfs h' sortItems f (.visit l p) S vs S'
    | .attrs as p => Dfs h' sortItems f (.attrs (Nnx.core as) p) S vs S' := by
  induction d with
  | seen e hu =>
    intro hok
    obtain ⟨o, o', e1, e2, h1, _⟩ := hc _ ⟨_, hok⟩
    rw [e] at e1; cases e1
    exact .seen e2 (by rw [h1]; exact hu)
  | visit e hu d ih =>
    intro hok
    obtain ⟨o, o', e1, e2, h1, _, _, h4⟩ := hc _ ⟨_, hok⟩
    rw [e] at e1; cases e1
    refine .visit e2 (by rw [h1]; exact hu) (Dfs.attrs_core _ ?_)
    rw [h4, h1]
    exact ih ⟨_, hok, fun n a hm => attrAt_of_mem wf e ((sortItems_perm _).mem_iff.1 hm)⟩
  | nil => intro _; exact .nil
  | @val f n v rest p S vs S' d ih =>
    rintro ⟨l, hl, ha⟩
    have := ih ⟨l, hl, fun n a hm => ha n a (List.mem_cons_of_mem _ hm)⟩
    cases hv : v.isNode with
    | true => simp only [core_node hv]; exact this
    | false => simp only [core_static hv]; exact .val this
  | ref d1 d2 ih1 ih2 =>
    rintro ⟨l, hl, ha⟩
    have href := ha _ _ List.mem_cons_self
    simp only [core_ref]
    exact .ref (ih1 (hl.snoc href (wf.refs _ _ _ href))) (ih2 ⟨l, hl, fun n a hm => ha n a (List.mem_cons_of_mem _ hm)⟩)

/-! ### Worlds in which nodes were changed or added -/

theorem SameKind.refl (u : PyVal α) : SameKind u u := ⟨fun _ x _ h => ⟨x, h⟩, fun _ y _ h => ⟨y, h⟩⟩
theorem SameKind.symm {u v : PyVal α} (h : SameKind u v) : SameKind v u := ⟨h.2, h.1⟩
theorem SameKind.trans {u v x : PyVal α} (h : SameKind u v) (h' : SameKind v x) : SameKind u x := by
  constructor
  · rintro c y m rfl
    obtain ⟨z, rfl⟩ := h.1 c y m rfl
    exact h'.1 c z m rfl
  · rintro c y m rfl
    obtain ⟨z, rfl⟩ := h'.2 c y m rfl
    exact h.2 c z m rfl

/-- `w'` comes from `w` by changing and adding nodes in the modules reachable from `l`, and creating modules. -/
structure Evolves (w w' : World α) (l : Loc) : Prop where
  keeps : Keeps w w'
  wf : WFWorld w'
  nodes : NodesOnly w w' l
  others : ∀ a : Loc, a < w.heap.length → ¬ Reaches w.heap l a → w'.heap[a]? = w.heap[a]?

theorem NodesOnly.writes {w w' : World α} {l : Loc} (h : NodesOnly w w' l) : NodeWrites w w' l := by
  intro a n hr
  rcases h a n hr with h | ⟨v, h1, h2, h3⟩
  · exact .inl h
  · refine .inr ⟨v, h1, h2, ?_, ?_⟩
    · intro b hb
      obtain ⟨u, hu, _⟩ := h3 _ hb
      cases hu
    · intro c x m hx
      obtain ⟨u, hu, _, hk⟩ := h3 _ hx
      cases hu
      exact hk.1 c x m rfl

theorem Evolves.refl {w : World α} (wf : WFWorld w) (l : Loc) : Evolves w w l :=
  ⟨.refl w, wf, fun _ _ _ => .inl rfl, fun _ _ _ => rfl⟩

theorem Evolves.walk {w w' : World α} (wf : WFWorld w) {l : Loc} (e : Evolves w w' l) (hl : l < w.heap.length) (p : List Str) (b : Loc) :
    Walk w'.heap l p b ↔ Walk w.heap l p b := e.nodes.writes.walk e.keeps.len wf.heap ⟨[], .here hl⟩

theorem Evolves.reaches {w w' : World α} (wf : WFWorld w) {l : Loc} (e : Evolves w w' l) (hl : l < w.heap.length) (b : Loc) :
    Reaches w'.heap l b ↔ Reaches w.heap l b := exists_congr fun p => e.walk wf hl p b

theorem Evolves.trans {w w1 w2 : World α} (wf : WFWorld w) {l : Loc} (hl : l < w.heap.length) (e1 : Evolves w w1 l)
    (e2 : Evolves w1 w2 l) : Evolves w w2 l := by
  refine ⟨e1.keeps.trans e2.keeps, e2.wf, ?_, ?_⟩
  · intro a n hr
    rcases e2.nodes a n ((e1.reaches wf hl a).2 hr) with h | ⟨v, h1, h2, h3⟩
    · rw [h]; exact e1.nodes a n hr
    · refine .inr ⟨v, h1, h2, ?_⟩
      intro x hx
      rcases e1.nodes a n hr with h | ⟨v', h1', h2', h3'⟩
      · exact h3 x (h.trans hx)
      · obtain ⟨u, hu, hun, hk⟩ := h3 _ h1'
        cases hu
        obtain ⟨u', rfl, hun', hk'⟩ := h3' x hx
        exact ⟨u', rfl, hun', hk'.trans hk⟩
  · intro a ha hr
    rw [e2.others a (Nat.lt_of_lt_of_le ha e1.keeps.len) (fun h => hr ((e1.reaches wf hl a).1 h)), e1.others a ha hr]

theorem Evolves.valid {w w' : World α} (wf : WFWorld w) {l : Loc} (hl : l < w.heap.length) (e : Evolves w w' l)
    (hv : AllValid w l) : AllValid w' l := by
  intro a o hr ho
  have hr' := (e.reaches wf hl a).1 hr
  obtain ⟨q, hq⟩ := hr'
  have hlt := hq.lt
  have hi := e.keeps.info a hq.lt
  have ho' : w.heap[a]? = some w.heap[a] := List.getElem?_eq_getElem hq.lt
  simp only [objInfo, ho, ho', Option.map_some, Option.some.injEq, Prod.mk.injEq] at hi
  have := hv a _ ⟨q, hq⟩ ho'
  rw [traceValid_eq] at this ⊢
  rw [hi.2.2.2, this]
  simp only [World.curTrace, e.keeps.jax, e.keeps.stack]

theorem Evolves.core {w w' : World α} (wf : WFWorld w) {l : Loc} (e : Evolves w w' l) : CoreEq w.heap w'.heap l := by
  rintro a ⟨q, hq⟩
  have hlt := hq.lt
  have ho : w.heap[a]? = some w.heap[a] := List.getElem?_eq_getElem hlt
  have hi := e.keeps.info a hlt
  have hlt' : a < w'.heap.length := Nat.lt_of_lt_of_le hlt e.keeps.len
  have ho' : w'.heap[a]? = some w'.heap[a] := List.getElem?_eq_getElem hlt'
  simp only [objInfo, ho, ho', Option.map_some, Option.some.injEq, Prod.mk.injEq] at hi
  refine ⟨_, _, ho, ho', hi.2.1, hi.1, hi.2.2.1, ?_⟩
  refine core_sort (e.wf.heap.nodup _ _ ho') (wf.heap.nodup _ _ ho) ?_
  intro n x hx
  have hat : ∀ h : Heap α, ∀ o, h[a]? = some o → attrAt h a n = dget o.attrs n := by
    intro h o ho; simp only [attrAt, ho]
  rw [← hat _ _ ho, ← hat _ _ ho']
  rcases e.nodes a n ⟨q, hq⟩ with h | ⟨v, h1, h2, h3⟩
  · rw [h]
  · rw [h1]
    constructor
    · intro h
      cases h
      rw [Attr.isNode, h2] at hx; cases hx
    · intro h
      obtain ⟨u, rfl, h4, _⟩ := h3 x h
      rw [Attr.isNode, h4] at hx; cases hx

/-- The ModuleDef is the same. -/
theorem Evolves.moduleDef {w w' : World α} (wf : WFWorld w) {l : Loc} (hl : l < w.heap.length) (e : Evolves w w' l) {f f' : Nat}
    {d : ModuleDef α} (hd : getModuleDef f w.heap l = some d) (hf' : w'.heap.length < f') : getModuleDef f' w'.heap l = some d := by
  have hl' := Nat.lt_of_lt_of_le hl e.keeps.len
  obtain ⟨d', hd'⟩ := getModuleDef_exists e.wf.heap hl' hf'
  have : getModuleDef f w'.heap l = some d := by
    rw [← hd]
    simp only [getModuleDef, makeDefRec_core wf.heap (e.core wf) f l [] ⟨[], .here hl⟩]
  rw [hd', getModuleDef_det e.wf.heap hl' hd' this]

/-- The nodes that were there have the same paths, and values of the same kinds. -/
theorem Evolves.state {w w' : World α} (wf : WFWorld w) {l : Loc} (hl : l < w.heap.length) (e : Evolves w w' l) {f f' : Nat}
    {s s' : State (PyVal α)} (hs : getState f w.heap l = some s) (hs' : getState f' w'.heap l = some s') {k : Str} {u : PyVal α}
    (hk : s.get k = some u) : ∃ v, s'.get k = some v ∧ SameKind u v := by
  have hl' := Nat.lt_of_lt_of_le hl e.keeps.len
  obtain ⟨vs, S, d, _, hg⟩ := getState_spec wf.heap hl hs
  obtain ⟨vs', S', d', _, hg'⟩ := getState_spec e.wf.heap hl' hs'
  have d2 := d.core wf.heap (e.core wf) (.here hl)
  obtain ⟨rfl, rfl⟩ := d2.functional d'
  obtain ⟨x, hx, n, h1, h2, rfl⟩ := (hg k u).1 hk
  have hr : Reaches w.heap l x.1 := ⟨_, d.walk wf.heap isOrder_sort (.here hl) x hx⟩
  rcases e.nodes x.1 n hr with h | ⟨v, h3, h4, h5⟩
  · exact ⟨u, (hg' _ _).2 ⟨x, hx, n, h.trans h1, h2, rfl⟩, .refl u⟩
  · obtain ⟨u', hu', _, hsk⟩ := h5 _ h1
    cases hu'
    exact ⟨v, (hg' _ _).2 ⟨x, hx, n, h3, h4, rfl⟩, hsk⟩

theorem objInfo_of_same {w w' : World α} (so : SameObjects w w') (a : Loc) (ha : a < w.heap.length) : objInfo w' a = objInfo w a := by
  have ho : w.heap[a]? = some w.heap[a] := List.getElem?_eq_getElem ha
  have ha' : a < w'.heap.length := by rw [so.len]; exact ha
  have ho' : w'.heap[a]? = some w'.heap[a] := List.getElem?_eq_getElem ha'
  obtain ⟨e1, e2, e3, e4⟩ := so.obj a _ _ ho ho'
  simp only [objInfo, ho, ho', Option.map_some, e1, e2, e3, e4]

theorem Keeps.of_same {w w' : World α} (so : SameObjects w w') : Keeps w w' :=
  ⟨so.jax, so.stack, Nat.le_of_eq so.len.symm, fun a ha => objInfo_of_same so a ha⟩

variable [DecidableEq α]

/-- A call with an effect on nodes only. -/
theorem Evolves.call {β : Type} {w : World α} (wf : WFWorld w) {l : Loc} (hl : l < w.heap.length)
    {F : Loc → World α → World α × Except Err β} (hF : Parametric F)
    {w' : World α} {r : Except Err β} (hc : F l w = (w', r)) (hn : NodesOnly w w' l) : Evolves w w' l := by
  have hw' : (F l w).1 = w' := by rw [hc]
  have hk := hF.keeps l w wf hl
  have hcf := hF.confined (Reaches w.heap l) l w wf (by
    rintro x n y ⟨q, hq⟩ e
    exact ⟨_, hq.snoc e (wf.heap.refs _ _ _ e)⟩) ⟨[], Walk.here hl⟩ hl
  rw [hw'] at hk hcf
  exact ⟨hk, hcf.wf, hn, fun a ha hr => hcf.same a ha hr⟩

end Nnx
