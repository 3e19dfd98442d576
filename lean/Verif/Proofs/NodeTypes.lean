import Verif.Model.NodeTypes
import Verif.Proofs.Forget
import Verif.Proofs.Context
/-
A Module seen through a registry of node types is a relabelled Module seen through the registry of the library.
-/
namespace Nnx
variable {α : Type}

/-! ### Relabelling -/

/-- A value that is not a container, as an object of a class that is a node iff the registry says so. -/
def wrap (types : List Cls) (v : PyVal α) : PyVal (PyVal α) := .data (if isNodeIn types v then cArray else cDict) v

/-- `Node` iff the registry knows the class. -/
def tagName (types : List Cls) (c : Cls) : Str := if types.any (fun d => c.isSub d) then py! "Node" else py! "-"

/-- A class with one more ancestor. -/
def tagCls (types : List Cls) (c : Cls) : Cls := { c with ancestors := tagName types c :: c.ancestors }

def wrapMd (types : List Cls) (m : Md α) : Md (PyVal α) := m.map fun kv => (kv.1, wrap types kv.2)

def relabel (types : List Cls) : PyVal α → PyVal (PyVal α)
  | .cont c x m => .cont (tagCls types c) (wrap types x) (wrapMd types m)
  | v => wrap types v

def relAttr (types : List Cls) : Attr α → Attr (PyVal α)
  | .ref l => .ref l
  | .val v => .val (relabel types v)

def relAttrs (types : List Cls) (as : List (Str × Attr α)) : List (Str × Attr (PyVal α)) :=
  as.map fun kv => (kv.1, relAttr types kv.2)

def relItems (types : List Cls) (is : List (Str × PyVal α)) : List (Str × PyVal (PyVal α)) :=
  is.map fun kv => (kv.1, relabel types kv.2)

def relObj (types : List Cls) (o : ModObj α) : ModObj (PyVal α) :=
  ⟨o.cls, relAttrs types o.attrs, o.uid, o.isInit, o.trace⟩

def relHeap (types : List Cls) (h : Heap α) : Heap (PyVal α) := h.map (relObj types)

def relWorld (types : List Cls) (w : World α) : World (PyVal α) :=
  ⟨relHeap types w.heap, w.nextId, w.jaxTrace, w.nnxStack⟩

def relState (types : List Cls) (s : State (PyVal α)) : State (PyVal (PyVal α)) := ⟨relItems types s.mapping⟩

def relSubs (types : List Cls) : Subs α → Subs (PyVal α)
  | .nil => .nil
  | .ref n i r => .ref n i (relSubs types r)
  | .sub n c i s st ini r => .sub n c i (relSubs types s) (relItems types st) ini (relSubs types r)

def relDef (types : List Cls) (d : ModuleDef α) : ModuleDef (PyVal α) :=
  ⟨d.cls, d.index, relSubs types d.subs, relItems types d.statics, d.isInit⟩

variable {types : List Cls}

theorem wrap_inj {u v : PyVal α} (h : wrap types u = wrap types v) : u = v := by
  simp only [wrap, PyVal.data.injEq] at h; exact h.2

theorem tagCls_inj {c d : Cls} (h : tagCls types c = tagCls types d) : c = d := by
  simp only [tagCls, Cls.mk.injEq, List.cons.injEq] at h
  obtain ⟨h1, ⟨_, h2⟩, h3⟩ := h
  cases c; cases d; simp_all

theorem map_val_inj {V W : Type} {f : V → W} (hf : ∀ a b, f a = f b → a = b) :
    ∀ {m n : List (Str × V)}, (m.map fun kv => (kv.1, f kv.2)) = (n.map fun kv => (kv.1, f kv.2)) → m = n := by
  intro m
  induction m with
  | nil => intro n h; cases n with
    | nil => rfl
    | cons => simp at h
  | cons x m ih =>
    intro n h
    cases n with
    | nil => simp at h
    | cons y n =>
      simp only [List.map_cons, List.cons.injEq, Prod.mk.injEq] at h
      obtain ⟨⟨h1, h2⟩, h3⟩ := h
      rw [ih h3, show x = y from Prod.ext h1 (hf _ _ h2)]

theorem wrapMd_inj {m n : Md α} (h : wrapMd types m = wrapMd types n) : m = n :=
  map_val_inj (fun _ _ => wrap_inj) h

theorem relabel_eq {v : PyVal α} (h : ∀ c x m, v ≠ .cont c x m) : relabel types v = wrap types v := by
  cases v <;> first | rfl | exact absurd rfl (h _ _ _)

theorem relabel_cont_iff {v : PyVal α} {c' : Cls} {x' : PyVal (PyVal α)} {m' : Md (PyVal α)}
    (h : relabel types v = .cont c' x' m') : ∃ c x m, v = .cont c x m ∧ c' = tagCls types c ∧ x' = wrap types x ∧
      m' = wrapMd types m := by
  cases v <;> simp only [relabel, wrap] at h <;> cases h
  exact ⟨_, _, _, rfl, rfl, rfl, rfl⟩

theorem relabel_inj {u v : PyVal α} (h : relabel types u = relabel types v) : u = v := by
  by_cases hu : ∃ c x m, u = .cont c x m
  · obtain ⟨c, x, m, rfl⟩ := hu
    obtain ⟨d, y, n, rfl, h1, h2, h3⟩ := relabel_cont_iff h.symm
    rw [tagCls_inj h1, wrap_inj h2, wrapMd_inj h3]
  · by_cases hv : ∃ c x m, v = .cont c x m
    · obtain ⟨c, x, m, rfl⟩ := hv
      obtain ⟨d, y, n, rfl, _⟩ := relabel_cont_iff h
      exact absurd ⟨_, _, _, rfl⟩ hu
    · rw [relabel_eq (fun c x m e => hu ⟨_, _, _, e⟩), relabel_eq (fun c x m e => hv ⟨_, _, _, e⟩)] at h
      exact wrap_inj h

theorem relAttr_inj {a b : Attr α} (h : relAttr types a = relAttr types b) : a = b := by
  cases a <;> cases b <;> simp only [relAttr, Attr.ref.injEq, Attr.val.injEq, reduceCtorEq] at h
  · rw [h]
  · rw [relabel_inj h]

theorem relObj_inj {a b : ModObj α} (h : relObj types a = relObj types b) : a = b := by
  simp only [relObj, ModObj.mk.injEq] at h
  obtain ⟨h1, h2, h3, h4, h5⟩ := h
  have := map_val_inj (fun _ _ => relAttr_inj) h2
  cases a; cases b; simp_all

/-- The registry contains the types of the library, as it only grows. -/
def Extends (types : List Cls) : Prop := ∀ c ∈ libraryTypes, c ∈ types

theorem wrap_isNode (v : PyVal α) : (wrap types v).isNode = isNodeIn types v := by
  unfold wrap
  cases isNodeIn types v <;> rfl

theorem tagCls_isSub (c d : Cls) (h1 : d.name ≠ py! "Node") (h2 : d.name ≠ py! "-") :
    (tagCls types c).isSub d = c.isSub d := by
  have : d.name ≠ tagName types c := by unfold tagName; split <;> assumption
  rw [Bool.eq_iff_iff]
  simp only [tagCls, Cls.isSub, List.mem_cons, Bool.or_eq_true, decide_eq_true_eq]
  constructor
  · rintro (h | h | h)
    · exact .inl (of_decide_eq_true h)
    · exact absurd h this
    · exact .inr h
  · rintro (h | h)
    · exact .inl (decide_eq_true h)
    · exact .inr (.inr h)

theorem relabel_isNode (hx : Extends types) (v : PyVal α) : (relabel types v).isNode = isNodeIn types v := by
  by_cases hv : ∃ c x m, v = .cont c x m
  · obtain ⟨c, x, m, rfl⟩ := hv
    have e1 : isNodeIn types (.cont c x m) = types.any (fun d => c.isSub d) := rfl
    have e2 : (relabel types (.cont c x m)).isNode = libraryTypes.any (fun d => (tagCls types c).isSub d) := rfl
    rw [e1, e2]
    cases ht : types.any (fun d => c.isSub d) with
    | true =>
      apply List.any_eq_true.2
      exact ⟨cNode, by decide, by
        have : tagName types c = cNode.name := by rw [tagName, ht]; rfl
        simp [Cls.isSub, tagCls, this]⟩
    | false =>
      apply List.any_eq_false.2
      intro d hd
      have hcd : c.isSub d = false := by simpa using (List.any_eq_false.1 ht) d (hx d hd)
      simp only [Cls.isSub, Bool.or_eq_false_iff, decide_eq_false_iff_not] at hcd
      have ht' : tagName types c = py! "-" := by rw [tagName, ht]; rfl
      simp only [tagCls, Cls.isSub, ht', List.mem_cons, Bool.or_eq_true, decide_eq_true_eq, not_or]
      refine ⟨hcd.1, ?_, hcd.2⟩
      simp only [libraryTypes, List.mem_cons, List.not_mem_nil, or_false] at hd
      rcases hd with rfl | rfl | rfl | rfl | rfl | rfl | rfl <;> decide
  · rw [relabel_eq (fun c x m e => hv ⟨_, _, _, e⟩), wrap_isNode]

/-! ### Heaps -/

theorem relHeap_length (h : Heap α) : (relHeap types h).length = h.length := by simp [relHeap]

theorem relHeap_get (h : Heap α) (l : Loc) : (relHeap types h)[l]? = (h[l]?).map (relObj types) := by simp [relHeap]

theorem relAttrs_get (as : List (Str × Attr α)) (n : Str) : dget (relAttrs types as) n = (dget as n).map (relAttr types) :=
  dget_map_val (fun _ => relAttr types) as n

theorem attrAt_rel (h : Heap α) (l : Loc) (n : Str) : attrAt (relHeap types h) l n = (attrAt h l n).map (relAttr types) := by
  simp only [attrAt, relHeap_get]
  cases h[l]? with
  | none => rfl
  | some o => exact relAttrs_get o.attrs n

theorem relAttrs_nodup {as : List (Str × Attr α)} : DNodup (relAttrs types as) ↔ DNodup as := by
  simp [relAttrs, DNodup, dkeys, List.map_map, Function.comp_def]

theorem wrapMd_get (m : Md α) (k : Str) : dget (wrapMd types m) k = (dget m k).map (wrap types) :=
  dget_map_val (fun _ => wrap types) m k

theorem wrapMd_keys (m : Md α) : dkeys (wrapMd types m) = dkeys m := by
  simp [wrapMd, dkeys, List.map_map, Function.comp_def]

theorem wrap_plain (v : PyVal α) : (wrap types v).Plain := by simp [wrap, PyVal.Plain]

theorem relabel_wf {c : Cls} {x : PyVal α} {m : Md α} (h : WFContainer (.cont c x m)) :
    WFContainer (relabel types (.cont c x m)) := by
  cases h with
  | mk hp hn hv hs hf =>
    refine .mk (wrap_plain _) (by rw [DNodup, wrapMd_keys]; exact hn) (by rw [wrapMd_keys]; exact hv) ?_ ?_
    · intro h
      rw [tagCls_isSub _ _ (by decide) (by decide)] at h
      rw [hs h]; rfl
    · intro h1 h2
      rw [tagCls_isSub _ _ (by decide) (by decide)] at h1 h2
      obtain ⟨y, rest, e⟩ := hf h1 h2
      exact ⟨_, _, by rw [e]; rfl⟩

theorem relabel_wfval {v : PyVal α} (h : WFVal v) : WFVal (relabel types v) := by
  rcases h with h | h
  · left
    rw [relabel_eq (by rintro c x m rfl; simp [PyVal.Plain] at h)]
    exact wrap_plain v
  · right
    cases h with
    | mk hp hn hv hs hf => exact relabel_wf (.mk hp hn hv hs hf)

theorem rel_wf {h : Heap α} (wf : WFHeap h) : WFHeap (relHeap types h) := by
  refine ⟨?_, ?_, ?_, ?_, ?_, ?_⟩
  · intro l o ho
    rw [relHeap_get] at ho
    cases e : h[l]? with
    | none => rw [e] at ho; cases ho
    | some o' => rw [e] at ho; cases ho; exact relAttrs_nodup.2 (wf.nodup l o' e)
  · intro l n l' e
    rw [attrAt_rel] at e
    rw [relHeap_length]
    cases ha : attrAt h l n with
    | none => rw [ha] at e; cases e
    | some a =>
      rw [ha] at e
      cases a with
      | ref b => cases e; exact wf.refs _ _ _ ha
      | val v => cases e
  · intro l l' o o' ho ho' e
    rw [relHeap_get] at ho ho'
    cases e1 : h[l]? with
    | none => rw [e1] at ho; cases ho
    | some o1 =>
      cases e2 : h[l']? with
      | none => rw [e2] at ho'; cases ho'
      | some o2 =>
        rw [e1] at ho; rw [e2] at ho'; cases ho; cases ho'
        exact wf.uids _ _ _ _ e1 e2 e
  · intro l n c v m e
    rw [attrAt_rel] at e
    cases ha : attrAt h l n with
    | none => rw [ha] at e; cases e
    | some a =>
      rw [ha] at e
      cases a with
      | ref b => cases e
      | val u =>
        simp only [Option.map_some, relAttr, Option.some.injEq, Attr.val.injEq] at e
        obtain ⟨c0, x0, m0, rfl, rfl, rfl, rfl⟩ := relabel_cont_iff e
        exact relabel_wf (wf.conts _ _ _ _ _ ha)
  · intro l n a e
    rw [attrAt_rel] at e
    cases ha : attrAt h l n with
    | none => rw [ha] at e; cases e
    | some a => exact wf.slash _ _ _ ha
  · intro l n a e
    rw [attrAt_rel] at e
    cases ha : attrAt h l n with
    | none => rw [ha] at e; cases e
    | some a => exact wf.reserved _ _ _ ha

theorem walk_rel {h : Heap α} {a b : Loc} {p : List Str} : Walk (relHeap types h) a p b ↔ Walk h a p b := by
  induction p generalizing a with
  | nil =>
    constructor <;> intro w <;> cases w
    · next hl => exact .here (by rwa [relHeap_length] at hl)
    · next hl => exact .here (by rwa [relHeap_length])
  | cons n p ih =>
    constructor <;> intro w <;> cases w
    · next c e w =>
      rw [attrAt_rel] at e
      cases ha : attrAt h a n with
      | none => rw [ha] at e; cases e
      | some x =>
        rw [ha] at e
        cases x with
        | ref d => cases e; exact .step ha (ih.1 w)
        | val v => cases e
    · next c e w => exact .step (by rw [attrAt_rel, e]; rfl) (ih.2 w)

theorem reaches_rel {h : Heap α} {a b : Loc} : Reaches (relHeap types h) a b ↔ Reaches h a b :=
  ⟨fun ⟨p, w⟩ => ⟨p, walk_rel.1 w⟩, fun ⟨p, w⟩ => ⟨p, walk_rel.2 w⟩⟩

/-! ### get_state and get_module_def -/

theorem iterStateAttrs_rel (hx : Extends types)
    {rec' : Loc → List Nat → List Str → Option (List (Str × PyVal (PyVal α)) × List Nat)}
    {rec : Loc → List Nat → List Str → Option (List (Str × PyVal α) × List Nat)}
    (hr : ∀ l idx p, rec' l idx p = (rec l idx p).map fun r => (relItems types r.1, r.2)) (as : List (Str × Attr α)) :
    ∀ idx p, iterStateAttrs rec' (relAttrs types as) idx p =
      (iterStateAttrsIn types rec as idx p).map fun r => (relItems types r.1, r.2) := by
  induction as with
  | nil => intro idx p; rfl
  | cons x as ih =>
    intro idx p
    obtain ⟨n, a⟩ := x
    cases a with
    | ref l =>
      simp only [relAttrs, List.map_cons, relAttr, iterStateAttrs, iterStateAttrsIn, hr]
      cases rec l idx (p ++ [n]) with
      | none => rfl
      | some r =>
        simp only [Option.map_some]
        erw [ih]
        cases iterStateAttrsIn types rec as r.2 p with
        | none => rfl
        | some r' => simp [relItems]
    | val v =>
      simp only [relAttrs, List.map_cons, relAttr, iterStateAttrs, iterStateAttrsIn, relabel_isNode hx]
      erw [ih]
      cases iterStateAttrsIn types rec as idx p with
      | none => rfl
      | some r =>
        simp only [Option.map_some]
        split <;> rfl

theorem sortItems_rel (as : List (Str × Attr α)) : sortItems (relAttrs types as) = relAttrs types (sortItems as) :=
  sortItems_map _ as

theorem iterStateRec_rel (hx : Extends types) (h : Heap α) : ∀ (fuel : Nat) l idx p,
    iterStateRec (relHeap types h) fuel l idx p = (iterStateRecIn types h fuel l idx p).map fun r => (relItems types r.1, r.2) := by
  intro fuel
  induction fuel with
  | zero => intro l idx p; rfl
  | succ fuel ih =>
    intro l idx p
    simp only [iterStateRec, iterStateRecIn, relHeap_get]
    cases h[l]? with
    | none => rfl
    | some o =>
      simp only [Option.map_some, relObj, sortItems_rel, iterStateAttrs_rel hx ih]
      split <;> rfl

theorem new_rel (items : List (Str × PyVal α)) : State.new (relItems types items) = relState types (State.new items) := by
  unfold State.new relState relItems
  rw [sortItems_map, dofList_map_val]

theorem getState_rel (hx : Extends types) (fuel : Nat) (h : Heap α) (l : Loc) :
    getState fuel (relHeap types h) l = (getStateIn types fuel h l).map (relState types) := by
  simp only [getState, getStateIn, iterStateRec_rel hx]
  cases iterStateRecIn types h fuel l [] [] with
  | none => rfl
  | some r => simp only [Option.map_some, new_rel]

theorem relState_get (s : State (PyVal α)) (k : Str) : (relState types s).get k = (s.get k).map (relabel types) :=
  dget_map_val (fun _ => relabel types) s.mapping k

def relSum (types : List Cls) : Nat ⊕ ModuleDef α → Nat ⊕ ModuleDef (PyVal α)
  | .inl i => .inl i
  | .inr d => .inr (relDef types d)

theorem cons_rel (n : Str) (d : Nat ⊕ ModuleDef α) (s : Subs α) :
    Subs.cons n (relSum types d) (relSubs types s) = relSubs types (Subs.cons n d s) := by
  cases d <;> rfl

theorem makeDefAttrs_rel (hx : Extends types)
    {rec' : Loc → List Nat → Option ((Nat ⊕ ModuleDef (PyVal α)) × List Nat)}
    {rec : Loc → List Nat → Option ((Nat ⊕ ModuleDef α) × List Nat)}
    (hr : ∀ l idx, rec' l idx = (rec l idx).map fun r => (relSum types r.1, r.2)) (as : List (Str × Attr α)) : ∀ idx,
    makeDefAttrs rec' (relAttrs types as) idx =
      (makeDefAttrsIn types rec as idx).map fun r => (relSubs types r.1, relItems types r.2.1, r.2.2) := by
  induction as with
  | nil => intro idx; rfl
  | cons x as ih =>
    intro idx
    obtain ⟨n, a⟩ := x
    cases a with
    | ref l =>
      simp only [relAttrs, List.map_cons, relAttr, makeDefAttrs, makeDefAttrsIn, hr]
      cases rec l idx with
      | none => rfl
      | some r =>
        simp only [Option.map_some]
        erw [ih]
        cases makeDefAttrsIn types rec as r.2 with
        | none => rfl
        | some r' => simp [cons_rel]
    | val v =>
      simp only [relAttrs, List.map_cons, relAttr, makeDefAttrs, makeDefAttrsIn, relabel_isNode hx]
      erw [ih]
      cases makeDefAttrsIn types rec as idx with
      | none => rfl
      | some r =>
        simp only [Option.map_some]
        split <;> rfl

theorem makeDefRec_rel (hx : Extends types) (h : Heap α) : ∀ (fuel : Nat) l idx,
    makeDefRec (relHeap types h) fuel l idx = (makeDefRecIn types h fuel l idx).map fun r => (relSum types r.1, r.2) := by
  intro fuel
  induction fuel with
  | zero => intro l idx; rfl
  | succ fuel ih =>
    intro l idx
    simp only [makeDefRec, makeDefRecIn, relHeap_get]
    cases h[l]? with
    | none => rfl
    | some o =>
      simp only [Option.map_some, relObj, sortItems_rel, makeDefAttrs_rel hx ih]
      split
      · rfl
      · cases makeDefAttrsIn types (makeDefRecIn types h fuel) (sortItems o.attrs) (idx ++ [o.uid]) with
        | none => rfl
        | some r => rfl

theorem getModuleDef_rel (hx : Extends types) (fuel : Nat) (h : Heap α) (l : Loc) :
    getModuleDef fuel (relHeap types h) l = (getModuleDefIn types fuel h l).map (relDef types) := by
  simp only [getModuleDef, getModuleDefIn, makeDefRec_rel hx]
  cases makeDefRecIn types h fuel l [] with
  | none => rfl
  | some r =>
    obtain ⟨a, b⟩ := r
    cases a <;> rfl

/-! ### merge -/

theorem dupdate_map_val {V W : Type} (f : V → W) : ∀ (e : List (Str × V)) (d : Dict Str V),
    dupdate (d.map (fun kv => (kv.1, f kv.2))) (e.map (fun kv => (kv.1, f kv.2))) =
      (dupdate d e).map (fun kv => (kv.1, f kv.2)) := by
  intro e
  induction e with
  | nil => intro d; rfl
  | cons y e ih =>
    intro d
    simp only [dupdate, List.map_cons, List.foldl_cons]
    rw [dset_map_val]
    exact ih _

theorem alloc_rel (w : World α) (c : Cls) : (relWorld types w).allocDummy c = relWorld types (w.allocDummy c) := by
  simp [World.allocDummy, relWorld, relHeap, relObj, relAttrs]

theorem finish_rel (w : World α) (l : Loc) (c : Cls) (statics : List (Str × PyVal α)) (subs : List (Str × Loc)) (i : Bool) :
    (relWorld types w).finish l c (relItems types statics) subs i = relWorld types (w.finish l c statics subs i) := by
  have e1 : (relItems types statics).map (fun kv => (kv.1, Attr.val kv.2)) =
      (statics.map (fun kv => (kv.1, Attr.val kv.2))).map (fun kv => (kv.1, relAttr types kv.2)) := by
    simp [relItems, List.map_map, Function.comp_def, relAttr]
  have e2 : (subs.map (fun kv => (kv.1, (Attr.ref kv.2 : Attr (PyVal α))))) =
      (subs.map (fun kv => (kv.1, (Attr.ref kv.2 : Attr α)))).map (fun kv => (kv.1, relAttr types kv.2)) := by
    simp [List.map_map, Function.comp_def, relAttr]
  have e3 : dupdate ([] : Dict Str (Attr (PyVal α))) ((statics.map (fun kv => (kv.1, Attr.val kv.2))).map (fun kv => (kv.1, relAttr types kv.2))) =
      (dupdate [] (statics.map (fun kv => (kv.1, Attr.val kv.2)))).map (fun kv => (kv.1, relAttr types kv.2)) :=
    dupdate_map_val (relAttr types) _ []
  simp only [World.finish, relWorld, World.curTrace]
  rw [e1, e2, dofList_map_val, e3, dupdate_map_val]
  simp [relHeap, List.map_set, relObj, relAttrs]

theorem buildSubs_rel (s : Subs α) : ∀ (w : World α) im, buildSubs (relSubs types s) (relWorld types w) im =
    (buildSubs s w im).map fun r => (r.1, relWorld types r.2.1, r.2.2) := by
  induction s with
  | nil => intro w im; rfl
  | ref n i r ih =>
    intro w im
    simp only [relSubs, buildSubs, ih]
    cases dget im i with
    | none => rfl
    | some l =>
      simp only
      cases buildSubs r w im <;> rfl
  | sub n c i s st ini r ih1 ih2 =>
    intro w im
    simp only [relSubs, buildSubs]
    split
    · rfl
    · have hl : (relWorld types w).heap.length = w.heap.length := relHeap_length _
      rw [hl, alloc_rel, ih1]
      cases buildSubs s (w.allocDummy c) (dset im i w.heap.length) with
      | error e => rfl
      | ok x =>
        simp only [Except.map]
        rw [finish_rel, ih2]
        cases buildSubs r (x.2.1.finish w.heap.length c st x.1 ini) x.2.2 <;> rfl

theorem buildModule_rel (d : ModuleDef α) (w : World α) : buildModule (relDef types d) (relWorld types w) =
    (buildModule d w).map fun r => (r.1, relWorld types r.2) := by
  have hl : (relWorld types w).heap.length = w.heap.length := relHeap_length _
  simp only [buildModule, relDef]
  rw [hl, alloc_rel, buildSubs_rel]
  cases buildSubs d.subs (w.allocDummy d.cls) (dset [] d.index w.heap.length) with
  | error e => rfl
  | ok x =>
    simp only [Except.map]
    rw [finish_rel]

variable [DecidableEq α]

omit [DecidableEq α] in
theorem compatible_rel (old : Option (Attr α)) (v : PyVal α) :
    Compatible (old.map (relAttr types)) (relabel types v) ↔ Compatible old v := by
  have hmd : ∀ m n : Md α, MdSame (wrapMd types m) (wrapMd types n) ↔ MdSame m n := by
    intro m n
    refine forall_congr' fun k => ?_
    rw [wrapMd_get, wrapMd_get]
    constructor
    · intro h
      cases hm : dget m k <;> cases hn : dget n k <;> rw [hm, hn] at h <;> simp at h
      rw [wrap_inj h]
    · intro h; rw [h]
  constructor
  · rintro h c x m d y n rfl rfl
    obtain ⟨h1, h2⟩ := h _ _ _ _ _ _ rfl rfl
    exact ⟨tagCls_inj h1, (hmd _ _).1 h2⟩
  · intro h c x m d y n e1 e2
    obtain ⟨d0, y0, n0, rfl, rfl, rfl, rfl⟩ := relabel_cont_iff e2
    cases old with
    | none => cases e1
    | some a =>
      cases a with
      | ref l => cases e1
      | val u =>
        simp only [Option.map_some, relAttr, Option.some.injEq, Attr.val.injEq] at e1
        obtain ⟨c0, x0, m0, rfl, rfl, rfl, rfl⟩ := relabel_cont_iff e1
        obtain ⟨h1, h2⟩ := h _ _ _ _ _ _ rfl rfl
        exact ⟨by rw [h1], (hmd _ _).2 h2⟩

omit [DecidableEq α] in
theorem valueOf_rel (v : PyVal α) : (relabel types v).valueOf = wrap types v.valueOf := by
  cases v <;> rfl

omit [DecidableEq α] in
theorem newValue_rel (old : Option (Attr α)) (v : PyVal α) :
    newValue (old.map (relAttr types)) (relabel types v) = relabel types (newValue old v) := by
  by_cases ho : ∃ c x m, old = some (.val (.cont c x m))
  · obtain ⟨c, x, m, rfl⟩ := ho
    show PyVal.cont _ (relabel types v).valueOf _ = _
    rw [valueOf_rel]; rfl
  · have e1 : newValue old v = v := by
      unfold newValue
      split
      · next c x m => exact absurd ⟨c, x, m, rfl⟩ ho
      · rfl
    rw [e1]
    unfold newValue
    split
    · next c x m e =>
      exfalso
      cases old with
      | none => cases e
      | some a =>
        cases a with
        | ref l => cases e
        | val u =>
          simp only [Option.map_some, relAttr, Option.some.injEq, Attr.val.injEq] at e
          obtain ⟨c0, x0, m0, rfl, _⟩ := relabel_cont_iff e
          exact ho ⟨_, _, _, rfl⟩
    · rfl

/-- All containers held by Modules are well formed. -/
def ContsWF (h : Heap α) : Prop := ∀ l n c x m, attrAt h l n = some (.val (.cont c x m)) → WFContainer (.cont c x m)

theorem storedAttr_rel {old : Option (Attr α)} {v : PyVal α}
    (hold : ∀ c x m, old = some (.val (.cont c x m)) → WFContainer (.cont c x m)) (hv : WFVal v) :
    storedAttr (old.map (relAttr types)) (.val (relabel types v)) = (storedAttr old (.val v)).map (relAttr types) := by
  have hold' : ∀ c x m, old.map (relAttr types) = some (.val (.cont c x m)) → WFContainer (.cont c x m) := by
    intro c x m e
    cases old with
    | none => cases e
    | some a =>
      cases a with
      | ref l => cases e
      | val u =>
        simp only [Option.map_some, relAttr, Option.some.injEq, Attr.val.injEq] at e
        obtain ⟨c0, x0, m0, rfl, rfl, rfl, rfl⟩ := relabel_cont_iff e
        exact relabel_wf (hold _ _ _ rfl)
  by_cases hc : Compatible old v
  · rw [storedAttr_ok hold hv hc, storedAttr_ok hold' (relabel_wfval hv) ((compatible_rel old v).2 hc), newValue_rel old v]
    rfl
  · rw [storedAttr_error hold hv hc, storedAttr_error hold' (relabel_wfval hv) (fun h => hc ((compatible_rel old v).1 h))]
    rfl

theorem setAttr_rel {w : World α} (hc : ContsWF w.heap) (l : Loc) (n : Str) {v : PyVal α} (hv : WFVal v) :
    setAttr (relWorld types w) l n (.val (relabel types v)) = (setAttr w l n (.val v)).map (relWorld types) := by
  have hg : (relWorld types w).heap[l]? = (w.heap[l]?).map (relObj types) := relHeap_get _ _
  have ht : ∀ t, (relWorld types w).traceValid t = w.traceValid t := fun _ => rfl
  unfold setAttr
  rw [hg]
  cases ho : w.heap[l]? with
  | none => rfl
  | some o =>
    simp only [Option.map_some, ht]
    have : dget (relObj types o).attrs n = (dget o.attrs n).map (relAttr types) := relAttrs_get _ _
    rw [this, storedAttr_rel (fun c x m e => hc l n c x m (by simp [attrAt, ho, e])) hv]
    split
    · rename_i h; rw [if_pos (show w.traceValid o.trace = false from h)]; rfl
    · rename_i h
      rw [if_neg (show ¬ w.traceValid o.trace = false from h)]
      split
      · rfl
      · cases storedAttr (dget o.attrs n) (.val v) with
        | error e => rfl
        | ok a =>
          simp only [Except.map]
          congr 1
          simp only [World.setAttrs, relWorld, relHeap, List.map_set, relObj, relAttrs]
          rw [dset_map_val]

theorem setAttr_contsWF {w w' : World α} (hc : ContsWF w.heap) {l : Loc} {n : Str} {v : PyVal α} (hv : WFVal v)
    (e : setAttr w l n (.val v) = .ok w') : ContsWF w'.heap := by
  obtain ⟨o, a, ho, ht, hn, ha, rfl⟩ := setAttr_ok_iff.1 e
  have hold : ∀ c x m, attrAt w.heap l n = some (.val (.cont c x m)) → WFContainer (.cont c x m) := fun c x m h => hc l n c x m h
  have hcompat : Compatible (attrAt w.heap l n) v := by
    by_cases hcc : Compatible (attrAt w.heap l n) v
    · exact hcc
    · rw [storedAttr_error hold hv hcc] at ha; cases ha
  rw [storedAttr_ok hold hv hcompat] at ha
  cases ha
  intro l' n' c x m h
  rw [attrAt_setAttrs ho] at h
  split at h
  · simp only [Option.some.injEq, Attr.val.injEq] at h
    have := WFVal.newValue hold hv
    rw [h] at this
    exact this.cont
  · exact hc _ _ _ _ _ h

omit [DecidableEq α] in
theorem varsGet_rel (h : Heap α) (l : Loc) (n : Str) : varsGet (relHeap types h) l n = (varsGet h l n).map (relAttr types) := by
  unfold varsGet
  rw [relHeap_get]
  cases h[l]? with
  | none => rfl
  | some o =>
    simp only [Option.map_some]
    rw [show dget (relObj types o).attrs n = (dget o.attrs n).map (relAttr types) from relAttrs_get _ _]
    cases dget o.attrs n <;> rfl

theorem setValueAtPath_rel {w : World α} (hc : ContsWF w.heap) {v : PyVal α} (hv : WFVal v) : ∀ (p : List Str) (a : Attr α),
    setValueAtPath (relWorld types w) (relAttr types a) p (relabel types v) = (setValueAtPath w a p v).map (relWorld types) := by
  intro p
  induction p with
  | nil => intro a; cases a <;> rfl
  | cons n p ih =>
    intro a
    cases a with
    | val u => cases p <;> rfl
    | ref l =>
      cases p with
      | nil => exact setAttr_rel hc l n hv
      | cons m p =>
        simp only [relAttr, setValueAtPath]
        rw [show varsGet (relWorld types w).heap l n = _ from varsGet_rel w.heap l n]
        cases varsGet w.heap l n with
        | error e => rfl
        | ok b => exact ih b

theorem setValueAtPath_contsWF {w w' : World α} (hc : ContsWF w.heap) {v : PyVal α} (hv : WFVal v) : ∀ (p : List Str) (a : Attr α),
    setValueAtPath w a p v = .ok w' → ContsWF w'.heap := by
  intro p
  induction p with
  | nil => intro a e; cases a <;> cases e
  | cons n p ih =>
    intro a e
    cases a with
    | val u => cases p <;> cases e
    | ref l =>
      cases p with
      | nil => exact setAttr_contsWF hc hv e
      | cons m p =>
        simp only [setValueAtPath] at e
        split at e
        · cases e
        · exact ih _ e

theorem assignAll_rel (root : Loc) : ∀ (E : List (Str × PyVal α)) (w : World α), ContsWF w.heap → (∀ e ∈ E, WFVal e.2) →
    assignAll root (relItems types E) (relWorld types w) =
      (relWorld types (assignAll root E w).1, (assignAll root E w).2) := by
  intro E
  induction E with
  | nil => intro w _ _; rfl
  | cons e E ih =>
    intro w hc hv
    obtain ⟨k, v⟩ := e
    have hvv : WFVal v := hv (k, v) List.mem_cons_self
    have h1 := setValueAtPath_rel (types := types) hc hvv (splitSlash k) (.ref root)
    simp only [relItems, List.map_cons, assignAll]
    rw [show (Attr.ref root : Attr (PyVal α)) = relAttr types (.ref root) from rfl, h1]
    cases h2 : setValueAtPath w (.ref root) (splitSlash k) v with
    | error e => rfl
    | ok w1 => exact ih w1 (setValueAtPath_contsWF hc hvv _ _ h2) (fun e he => hv e (List.mem_cons_of_mem _ he))

omit [DecidableEq α] in
/-- The specification of a merge holds of a Module if it holds of the relabelled one. -/
theorem MergeSpec.of_rel {h : Heap α} {root : Loc} {w w' : World α} {f : Loc → Loc}
    (m : MergeSpec (relHeap types h) root (relWorld types w) (relWorld types w') f) : MergeSpec h root w w' f := by
  have hl : ∀ v : World α, (relWorld types v).heap.length = v.heap.length := fun v => relHeap_length _
  have hg : ∀ (v : World α) (j : Nat), (relWorld types v).heap[j]? = (v.heap[j]?).map (relObj types) := fun v j => relHeap_get _ _
  have hobj : ∀ (v : World α) (j : Nat) o, v.heap[j]? = some o → (relWorld types v).heap[j]? = some (relObj types o) := by
    intro v j o e; rw [hg, e]; rfl
  refine ⟨⟨by rw [← hl]; exact m.iso.root, ?_, ?_, ?_⟩, ?_, m.ids, m.jax, m.stack, ?_, ?_, ?_, ?_, ?_, ?_⟩
  · intro a b ha hb
    exact m.iso.inj a b (reaches_rel.2 ha) (reaches_rel.2 hb)
  · intro a o ha ho
    obtain ⟨o', ho', h1, h2⟩ := m.iso.obj a (relObj types o) (reaches_rel.2 ha) (by rw [relHeap_get, ho]; rfl)
    rw [hg] at ho'
    cases e : w'.heap[f a]? with
    | none => rw [e] at ho'; cases ho'
    | some o1 => rw [e] at ho'; cases ho'; exact ⟨o1, rfl, h1, h2⟩
  · intro a ha n
    have e : attrAt (relHeap types w'.heap) (f a) n = (attrAt (relHeap types h) a n).map (Attr.redirect f) :=
      m.iso.attr a (reaches_rel.2 ha) n
    rw [attrAt_rel, attrAt_rel] at e
    cases h1 : attrAt w'.heap (f a) n <;> cases h2 : attrAt h a n <;> rw [h1, h2] at e <;> simp at e
    · rfl
    · next x y =>
      have : (relAttr types y).redirect f = relAttr types (y.redirect f) := by cases y <;> rfl
      rw [this] at e
      rw [relAttr_inj e]; rfl
  · rw [← hl w, ← hl w']; exact m.len
  · intro j hj
    have e := m.old j (by rw [hl]; exact hj)
    rw [hg, hg] at e
    cases h1 : w'.heap[j]? <;> cases h2 : w.heap[j]? <;> rw [h1, h2] at e <;> simp at e
    rw [relObj_inj e]
  · intro l; rw [← hl w]; exact m.ge l
  · intro j h1 h2
    obtain ⟨l, hr, e⟩ := m.surj j (by rw [hl]; exact h1) (by rw [hl]; exact h2)
    exact ⟨l, reaches_rel.1 hr, e⟩
  · intro j o hj ho
    exact m.fresh j _ (by rw [hl]; exact hj) (hobj _ _ _ ho)
  · intro j j' o o' hj hj' ho ho' e
    exact m.uniq j j' _ _ (by rw [hl]; exact hj) (by rw [hl]; exact hj') (hobj _ _ _ ho) (hobj _ _ _ ho') e
  · intro j o hj ho
    exact relAttrs_nodup.1 (m.nodup j _ (by rw [hl]; exact hj) (hobj _ _ _ ho))

/-- No `ContainerMetadata` counts as a node. -/
def NoMetaNode (types : List Cls) : Prop := types.any (fun c => cContainerMetadata.isSub c) = false

omit [DecidableEq α] in
theorem getStateIn_get (hx : Extends types) {h : Heap α} (wf : WFHeap h) {root : Loc} (hroot : root < h.length) {f : Nat}
    {s : State (PyVal α)} (e : getStateIn types f h root = some s) :
    ∃ vs S', Dfs (relHeap types h) sortItems f (.visit root []) [] vs S' ∧
      (∀ k v, s.get k = some v ↔ ∃ x ∈ vs, ∃ n, attrAt h x.1 n = some (.val v) ∧ isNodeIn types v = true ∧
        k = joinSlash (x.2 ++ [n])) := by
  have e' : getState f (relHeap types h) root = some (relState types s) := by rw [getState_rel hx, e]; rfl
  obtain ⟨vs, S', d, hc, hg⟩ := getState_spec (rel_wf wf) (by rw [relHeap_length]; exact hroot) e'
  refine ⟨vs, S', d, fun k v => ?_⟩
  have := hg k (relabel types v)
  rw [relState_get] at this
  constructor
  · intro hk
    obtain ⟨x, hxm, n, h1, h2, h3⟩ := this.1 (by rw [hk]; rfl)
    refine ⟨x, hxm, n, ?_, by rw [← relabel_isNode hx]; exact h2, h3⟩
    rw [attrAt_rel] at h1
    cases h4 : attrAt h x.1 n with
    | none => rw [h4] at h1; cases h1
    | some a =>
      rw [h4] at h1
      cases a with
      | ref b => cases h1
      | val u =>
        simp only [Option.map_some, relAttr, Option.some.injEq, Attr.val.injEq] at h1
        rw [relabel_inj h1]
  · rintro ⟨x, hxm, n, h1, h2, h3⟩
    have := this.2 ⟨x, hxm, n, by rw [attrAt_rel, h1]; rfl, by rw [relabel_isNode hx]; exact h2, h3⟩
    cases h4 : s.get k with
    | none => rw [h4] at this; cases this
    | some u =>
      rw [h4] at this
      simp only [Option.map_some, Option.some.injEq] at this
      rw [relabel_inj this]

theorem mergeIn_spec (hx : Extends types) (hm : NoMetaNode types) {h : Heap α} (wf : WFHeap h) {root : Loc}
    (hroot : root < h.length) {f1 f2 : Nat} {d : ModuleDef α} (hd : getModuleDefIn types f1 h root = some d)
    {s : State (PyVal α)} (hs : getStateIn types f2 h root = some s) {ss : List (State (PyVal α))} (hp : Pieces s ss)
    {w : World α} (hcwf : ContsWF w.heap) :
    ∃ w' f, mergeDef d ss w = (w', .ok w.heap.length) ∧ MergeSpec h root w w' f := by
  have hroot' : root < (relHeap types h).length := by rw [relHeap_length]; exact hroot
  have hd' : getModuleDef f1 (relHeap types h) root = some (relDef types d) := by rw [getModuleDef_rel hx, hd]; rfl
  have hs' : getState f2 (relHeap types h) root = some (relState types s) := by rw [getState_rel hx, hs]; rfl
  obtain ⟨W1, f, hb, bs⟩ := getModuleDef_build (rel_wf wf) hroot' hd' (relWorld types w)
  rw [buildModule_rel] at hb
  cases hb0 : buildModule d w with
  | error e => rw [hb0] at hb; cases hb
  | ok r =>
    obtain ⟨l, w1⟩ := r
    rw [hb0] at hb
    simp only [Except.map, Except.ok.injEq, Prod.mk.injEq] at hb
    obtain ⟨hl, rfl⟩ := hb
    have hlen : (relWorld types w).heap.length = w.heap.length := relHeap_length _
    rw [hlen] at hl
    -- the containers of the built Modules are those of the original
    have hc1 : ContsWF w1.heap := by
      intro a n c x m ha
      have ha' : attrAt (relWorld types w1).heap a n = some (relAttr types (.val (.cont c x m))) := by
        rw [show attrAt (relWorld types w1).heap a n = _ from attrAt_rel w1.heap a n, ha]; rfl
      by_cases hlt : a < w.heap.length
      · have := bs.old a (by rw [hlen]; exact hlt)
        have e : attrAt (relWorld types w).heap a n = some (relAttr types (.val (.cont c x m))) := by
          simp only [attrAt, ← this]; exact ha'
        rw [show attrAt (relWorld types w).heap a n = _ from attrAt_rel w.heap a n] at e
        cases h4 : attrAt w.heap a n with
        | none => rw [h4] at e; cases e
        | some y =>
          rw [h4] at e
          simp only [Option.map_some, Option.some.injEq] at e
          rw [relAttr_inj e] at h4
          exact hcwf _ _ _ _ _ h4
      · have hlt1 : a < (relWorld types w1).heap.length := by
          unfold attrAt at ha'
          split at ha'
          · next o ho => exact (List.getElem?_eq_some_iff.1 ho).1
          · cases ha'
        obtain ⟨l0, hr, rfl⟩ := bs.surj a (by rw [hlen]; exact Nat.le_of_not_lt hlt) hlt1
        obtain ⟨p, hw⟩ := hr
        obtain ⟨o0, ho⟩ : ∃ o0, (relHeap types h)[l0]? = some o0 := ⟨_, List.getElem?_eq_getElem hw.lt⟩
        obtain ⟨u, _, _, hu⟩ := bs.new l0 _ ⟨p, hw⟩ ho
        simp only [attrAt, hu] at ha'
        rw [rebuilt_get f ((rel_wf wf).nodup _ _ ho)] at ha'
        have hat : attrAt (relHeap types h) l0 n = dget o0.attrs n := by simp only [attrAt, ho]
        rw [← hat, attrAt_rel] at ha'
        cases h4 : attrAt h l0 n with
        | none => rw [h4] at ha'; cases ha'
        | some y =>
          rw [h4] at ha'
          cases y with
          | ref b => cases ha'
          | val v =>
            simp only [Option.map_some, relAttr] at ha'
            split at ha'
            · simp only [Option.some.injEq, Attr.val.injEq] at ha'
              rw [relabel_inj ha'] at h4
              exact wf.conts _ _ _ _ _ h4
            · cases ha'
    obtain ⟨hn, hE⟩ := hp.entries
    have hv : ∀ e ∈ (State.new [] :: ss).foldl (fun d t => dupdate d t.items) ([] : Dict Str (PyVal α)), WFVal e.2 := by
      intro e he
      have := (hE e.1 e.2).1 he
      obtain ⟨vs, S', _, hg⟩ := getStateIn_get hx wf hroot hs
      obtain ⟨y, _, n, h1, h2, _⟩ := (hg _ _).1 this
      cases hev : e.2 with
      | cont c x m => rw [hev] at h1; exact .inr (wf.conts _ _ _ _ _ h1)
      | cmeta x m =>
        rw [hev] at h2
        rw [show isNodeIn types (PyVal.cmeta x m) = _ from hm] at h2
        cases h2
      | _ => exact .inl trivial
    generalize hEE : (State.new [] :: ss).foldl (fun d t => dupdate d t.items) ([] : Dict Str (PyVal α)) = E at hn hE hv
    have hE' : ∀ k v, (k, v) ∈ relItems types E ↔ (relState types s).get k = some v := by
      intro k v
      rw [relState_get]
      constructor
      · intro hkv
        obtain ⟨⟨k0, v0⟩, h0, e⟩ := List.mem_map.1 hkv
        cases e
        rw [(hE _ _).1 h0]; rfl
      · intro hkv
        cases h4 : s.get k with
        | none => rw [h4] at hkv; cases hkv
        | some u =>
          rw [h4] at hkv
          cases hkv
          exact List.mem_map.2 ⟨(k, u), (hE _ _).2 h4, rfl⟩
    have hn' : DNodup (relItems types E) := by
      simpa [relItems, DNodup, dkeys, List.map_map, Function.comp_def] using hn
    obtain ⟨W', ha, hms⟩ := fill_spec (rel_wf wf) hroot' hs' hn' hE' bs (by
      intro l n c x m e
      rw [show attrAt (relWorld types w).heap l n = _ from attrAt_rel w.heap l n] at e
      cases h4 : attrAt w.heap l n with
      | none => rw [h4] at e; cases e
      | some a =>
        rw [h4] at e
        cases a with
        | ref b => cases e
        | val u =>
          simp only [Option.map_some, relAttr, Option.some.injEq, Attr.val.injEq] at e
          obtain ⟨c0, x0, m0, rfl, rfl, rfl, rfl⟩ := relabel_cont_iff e
          exact relabel_wf (hcwf _ _ _ _ _ h4))
    rw [hlen, assignAll_rel _ _ _ hc1 hv] at ha
    simp only [Prod.mk.injEq] at ha
    obtain ⟨rfl, ha⟩ := ha
    refine ⟨(assignAll w.heap.length E w1).1, f, ?_, hms.of_rel⟩
    simp only [mergeDef, hb0, updateModule, hl, hEE]
    rw [show assignAll w.heap.length E w1 = ((assignAll w.heap.length E w1).1, none) from Prod.ext rfl ha]

/-! ### Registering more types -/

omit [DecidableEq α] in
theorem iterStateIn_nodup (hx : Extends types) {h : Heap α} (wf : WFHeap h) {root : Loc} (hroot : root < h.length) {f : Nat}
    {items : List (Str × PyVal α)} {S : List Nat} (e : iterStateRecIn types h f root [] [] = some (items, S)) : DNodup items := by
  have e' := iterStateRec_rel hx h f root [] []
  rw [e] at e'
  obtain ⟨vs, d, hp⟩ := iterStateRec_dfs _ _ _ _ _ _ _ e'
  obtain ⟨hn, hr, hw, hS⟩ := d.complete (rel_wf wf) isOrder_sort (by rw [relHeap_length]; exact hroot)
  have hnd := dnodup_perm hp.symm (own_nodup (rel_wf wf) hn hw)
  simpa [relItems, DNodup, dkeys, List.map_map, Function.comp_def] using hnd

/-- The entries whose value is a node for `types`. -/
def keepNodes (types : List Cls) (is : List (Str × PyVal α)) : List (Str × PyVal α) := is.filter fun kv => isNodeIn types kv.2

omit [DecidableEq α] in
theorem iterStateAttrsIn_filter {types' : List Cls} (hsub : ∀ v : PyVal α, isNodeIn types v = true → isNodeIn types' v = true)
    {rec rec' : Loc → List Nat → List Str → Option (List (Str × PyVal α) × List Nat)}
    (hr : ∀ l idx p, rec l idx p = (rec' l idx p).map fun r => (keepNodes types r.1, r.2)) (as : List (Str × Attr α)) :
    ∀ idx p, iterStateAttrsIn types rec as idx p =
      (iterStateAttrsIn types' rec' as idx p).map fun r => (keepNodes types r.1, r.2) := by
  induction as with
  | nil => intro idx p; rfl
  | cons x as ih =>
    intro idx p
    obtain ⟨n, a⟩ := x
    cases a with
    | ref l =>
      simp only [iterStateAttrsIn, hr]
      cases rec' l idx (p ++ [n]) with
      | none => rfl
      | some r =>
        simp only [Option.map_some, ih]
        cases iterStateAttrsIn types' rec' as r.2 p with
        | none => rfl
        | some r' => simp [keepNodes]
    | val v =>
      simp only [iterStateAttrsIn, ih]
      cases iterStateAttrsIn types' rec' as idx p with
      | none => rfl
      | some r =>
        simp only [Option.map_some]
        cases h1 : isNodeIn types v with
        | true => simp [hsub v h1, keepNodes, h1]
        | false =>
          cases h2 : isNodeIn types' v with
          | true => simp [keepNodes, h1]
          | false => simp

omit [DecidableEq α] in
theorem iterStateRecIn_filter {types' : List Cls} (hsub : ∀ v : PyVal α, isNodeIn types v = true → isNodeIn types' v = true)
    (h : Heap α) : ∀ (fuel : Nat) l idx p, iterStateRecIn types h fuel l idx p =
      (iterStateRecIn types' h fuel l idx p).map fun r => (keepNodes types r.1, r.2) := by
  intro fuel
  induction fuel with
  | zero => intro l idx p; rfl
  | succ fuel ih =>
    intro l idx p
    simp only [iterStateRecIn]
    cases h[l]? with
    | none => rfl
    | some o =>
      simp only [iterStateAttrsIn_filter hsub ih]
      split <;> rfl

omit [DecidableEq α] in
/-- A larger registry adds entries and changes none. -/
theorem getStateIn_filter {types' : List Cls} (hx : Extends types')
    (hsub : ∀ v : PyVal α, isNodeIn types v = true → isNodeIn types' v = true) {h : Heap α} (wf : WFHeap h) {root : Loc}
    (hroot : root < h.length) {f : Nat} {s s' : State (PyVal α)} (e : getStateIn types f h root = some s)
    (e' : getStateIn types' f h root = some s') (k : Str) (v : PyVal α) :
    s.get k = some v ↔ s'.get k = some v ∧ isNodeIn types v = true := by
  unfold getStateIn at e e'
  rw [iterStateRecIn_filter hsub] at e
  cases hi : iterStateRecIn types' h f root [] [] with
  | none => rw [hi] at e'; cases e'
  | some r =>
    rw [hi] at e e'
    simp only [Option.map_some, Option.some.injEq] at e e'
    subst e; subst e'
    have hn := iterStateIn_nodup hx wf hroot hi
    have hn2 : DNodup (keepNodes types r.1) := by
      unfold DNodup dkeys keepNodes
      exact hn.sublist (List.Sublist.map _ List.filter_sublist)
    rw [State.new_get_nodup hn, State.new_get_nodup hn2, dget_iff_mem hn, dget_iff_mem hn2]
    simp [keepNodes]

omit [DecidableEq α] in
theorem makeDefAttrsIn_statics {rec : Loc → List Nat → Option ((Nat ⊕ ModuleDef α) × List Nat)} :
    ∀ (as : List (Str × Attr α)) (idx : List Nat) s st i, makeDefAttrsIn types rec as idx = some (s, st, i) →
      ∀ n v, (n, v) ∈ st ↔ (n, Attr.val v) ∈ as ∧ isNodeIn types v = false ∧ isReserved n = false := by
  intro as
  induction as with
  | nil => intro idx s st i e; cases e; simp
  | cons x as ih =>
    intro idx s st i e n v
    obtain ⟨m, a⟩ := x
    cases a with
    | ref l =>
      simp only [makeDefAttrsIn] at e
      split at e
      · cases e
      · split at e
        · cases e
        · next h2 => cases e; simpa using ih _ _ _ _ h2 n v
    | val u =>
      simp only [makeDefAttrsIn] at e
      split at e
      · cases e
      · next s1 st1 i1 h2 =>
        have := ih _ _ _ _ h2 n v
        split at e
        · next hc =>
          cases e
          simp only [Bool.and_eq_true, Bool.not_eq_true'] at hc
          simp only [List.mem_cons, Prod.mk.injEq, Attr.val.injEq, this]
          constructor
          · rintro (⟨rfl, rfl⟩ | h)
            · exact ⟨.inl ⟨rfl, rfl⟩, hc⟩
            · exact ⟨.inr h.1, h.2⟩
          · rintro ⟨⟨rfl, rfl⟩ | h, h2⟩
            · exact .inl ⟨rfl, rfl⟩
            · exact .inr ⟨h, h2⟩
        · next hc =>
          cases e
          simp only [Bool.and_eq_true, Bool.not_eq_true'] at hc
          rw [this]
          simp only [List.mem_cons, Prod.mk.injEq, Attr.val.injEq]
          constructor
          · rintro ⟨h1, h2⟩; exact ⟨.inr h1, h2⟩
          · rintro ⟨⟨rfl, rfl⟩ | h, h2⟩
            · exact absurd h2 hc
            · exact ⟨h, h2⟩

omit [DecidableEq α] in
theorem getModuleDefIn_statics {h : Heap α} (wf : WFHeap h) {root : Loc} {f : Nat} {d : ModuleDef α}
    (e : getModuleDefIn types f h root = some d) (n : Str) (v : PyVal α) :
    (n, v) ∈ d.statics ↔ attrAt h root n = some (.val v) ∧ isNodeIn types v = false := by
  unfold getModuleDefIn at e
  cases f with
  | zero => simp [makeDefRecIn] at e
  | succ f =>
    simp only [makeDefRecIn, List.not_mem_nil, if_false] at e
    cases ho : h[root]? with
    | none => rw [ho] at e; simp at e
    | some o =>
      rw [ho] at e
      simp only at e
      cases hm : makeDefAttrsIn types (makeDefRecIn types h f) (sortItems o.attrs) ([] ++ [o.uid]) with
      | none => rw [hm] at e; simp at e
      | some r =>
        obtain ⟨s, st, i⟩ := r
        rw [hm] at e
        simp only [Option.some.injEq] at e
        subst e
        rw [makeDefAttrsIn_statics _ _ _ _ _ hm, (sortItems_perm _).mem_iff, ← dget_iff_mem (wf.nodup _ _ ho)]
        have hat : attrAt h root n = dget o.attrs n := by simp [attrAt, ho]
        rw [← hat]
        constructor
        · rintro ⟨h1, h2, h3⟩; exact ⟨h1, h2⟩
        · rintro ⟨h1, h2⟩; exact ⟨h1, h2, wf.reserved _ _ _ h1⟩

end Nnx
