import Verif.Proofs.Identity
/-
C121: containers are objects. No operation of nnx changes a container object, and no two attributes hold the same node.
-/
namespace Nnx
variable {α : Type} [DecidableEq α]

/-! ### Each operation -/

omit [DecidableEq α] in
theorem returned_seen {w : BoxWorld α} {r : Except Err (BoxWorld α)} (h : SetGood w r) :
    BoxSteps w.world.heap w.boxes (returned (β := Held α) w r).1.world.heap (returned (β := Held α) w r).1.boxes ∧
    (returned (β := Held α) w r).2.Ok (returned (β := Held α) w r).1.boxes ∧
    returned w.seen (r.map BoxWorld.seen) = ((returned (β := Held α) w r).1.seen, (returned (β := Held α) w r).2.seen (returned (β := Held α) w r).1.boxes) := by
  cases r with
  | error e => exact ⟨.refl, trivial, rfl⟩
  | ok w' => exact ⟨h w' rfl, trivial, rfl⟩

omit [DecidableEq α] in
theorem newBox_world_seen {w : BoxWorld α} (ok : w.Ok) (x : PyVal α) : w.world.seen (newBox w.boxes x).1 = w.seen := by
  have : w.boxes <+: (newBox w.boxes x).1 := List.prefix_append _ _
  simp only [World.seen, BoxWorld.seen, (ok.mono this).2]

theorem sowBox_seen {w : BoxWorld α} (ok : w.Ok) (l : Loc) (vt : Cls) (n : Str) (value : PyVal α) :
    sow l vt n value w.seen = (sowBox l vt n value w).map BoxWorld.seen ∧ SetGood w (sowBox l vt n value w) := by
  have stop : ∀ e, (.error e : Except Err (World α)) = (.error e : Except Err (BoxWorld α)).map BoxWorld.seen ∧ SetGood w (.error e) :=
    fun e => ⟨rfl, fun w' h => by cases h⟩
  have hh : w.seen.heap[l]? = (w.world.heap[l]?).map (ModObj.seen w.boxes) := heap_seen_getElem _ _ _
  simp only [sow, sowBox, hh]
  cases e : w.world.heap[l]? with
  | none => exact stop _
  | some o =>
    simp only [Option.map_some]
    by_cases hn : n = py! "_module__state"
    · simp only [hn, if_true]; exact stop _
    · have hd : dget (o.seen w.boxes).attrs n = (dget o.attrs n).map (Attr.seen w.boxes) := attrs_seen_dget _ _ _
      simp only [hn, if_false, hd]
      cases ha : dget o.attrs n with
      | none =>
        have hm : (o.seen w.boxes).cls.members = o.cls.members := rfl
        simp only [Option.map_none, hm]
        split
        · exact stop _
        · cases hc : construct vt (.tup [value]) [] with
          | error er => exact stop _
          | ok x =>
            obtain ⟨c, u, m, rfl⟩ := construct_cont hc
            have st : BoxStep w.world.heap w.boxes w.world.heap (w.boxes ++ [.cont c u m]) := .grow c u m
            have ok1 : (⟨w.world, w.boxes ++ [.cont c u m]⟩ : BoxWorld α).Ok := st.ok ok
            have k := setBoxAttr_seen ok1 l n
              (new := .val (newBox w.boxes (.cont c u m)).2) (newBox_refOk w.boxes c u m).1
            have hw : (⟨w.world, w.boxes ++ [.cont c u m]⟩ : BoxWorld α).seen = w.seen := newBox_world_seen ok (.cont c u m)
            rw [hw, attr_seen_val, (newBox_refOk w.boxes c u m).2] at k
            exact ⟨k.1, fun w' h => st.one.trans (k.2 w' h)⟩
      | some a =>
        simp only [Option.map_some]
        cases a with
        | ref l' => exact stop _
        | val v =>
          have hv : RefOk w.boxes v := (ok.obj e).2 _ (dget_mem ha)
          obtain ⟨x, rfl, hx⟩ := hv
          cases x with
          | val u =>
            simp only [attr_seen_val, Held.obj, PyVal.seen, Held.seen]
            cases u <;> first | exact stop _ | cases hx
          | box b =>
            obtain ⟨c, u, m, eb⟩ := hx
            have s : (Held.box b).seen w.boxes = .cont c u m := getD_of_some eb
            simp only [attr_seen_val, Held.obj, PyVal.seen, s]
            split
            · exact stop _
            · split
              · exact stop _
              · cases u with
                | tup xs =>
                  exact setBoxAttr_seen ok l n (new := .val ((Held.val (.tup (xs ++ [value]))).obj w.boxes)) ⟨_, rfl, rfl⟩
                | _ => exact stop _

theorem run_refines {w w' : BoxWorld α} {r : OpResult (Held α)} (ok : w.Ok) {o : BoxOp α} (hv : o.Valid w.boxes) {fuel : Nat}
    (h : o.run fuel w = (w', r)) :
    BoxSteps w.world.heap w.boxes w'.world.heap w'.boxes ∧ r.Ok w'.boxes ∧ o.onValues fuel w.boxes w.seen = (w'.seen, r.seen w'.boxes) := by
  have hw : w' = (o.run fuel w).1 := by rw [h]
  have hr : r = (o.run fuel w).2 := by rw [h]
  subst hw hr
  clear h
  cases o with
  | make c x md =>
    simp only [BoxOp.run, BoxOp.onValues, makeBox]
    cases e : construct c (x.seen w.boxes) md with
    | error er => exact ⟨.refl, trivial, rfl⟩
    | ok v =>
      obtain ⟨c', u, m, rfl⟩ := construct_cont e
      refine ⟨(BoxStep.grow c' u m).one, (newBox_refOk w.boxes c' u m).1, ?_⟩
      have := newBox_world_seen ok (.cont c' u m)
      simp only [BoxWorld.seen] at this ⊢
      rw [this]
      simp only [OpResult.seen]
      rw [show (newBox w.boxes (.cont c' u m)).1 = w.boxes ++ [.cont c' u m] from rfl, (newBox_refOk w.boxes c' u m).2]
  | create c =>
    refine ⟨(BoxStep.alloc _ rfl).one, trivial, ?_⟩
    simp only [BoxOp.run, BoxOp.onValues, newModule, BoxWorld.seen, World.seen, List.map_append, List.length_map]
    rfl
  | assign l n new =>
    have k := setBoxAttr_seen ok l n (new := new) hv
    have := returned_seen k.2
    rw [← k.1] at this
    exact this
  | delete l n =>
    have k := delAttr_seen w.boxes w.world.heap l n
    have k1 : delAttr w.seen.heap l n = (delAttr w.world.heap l n).map (fun h => h.map (ModObj.seen w.boxes)) := k.1
    simp only [BoxOp.run, BoxOp.onValues, k1]
    cases e : delAttr w.world.heap l n with
    | error er => exact ⟨.refl, trivial, rfl⟩
    | ok h' => exact ⟨k.2 _ e, trivial, rfl⟩
  | getState l =>
    have k := getState_seen ok fuel l
    have k1 : Nnx.getState fuel w.seen.heap l = (Nnx.getState fuel w.world.heap l).map (State.seen w.boxes) := k.1
    simp only [BoxOp.run, BoxOp.onValues, k1]
    cases e : Nnx.getState fuel w.world.heap l with
    | none => exact ⟨.refl, trivial, rfl⟩
    | some s =>
      refine ⟨.refl, ?_, rfl⟩
      intro t ht
      cases List.mem_singleton.1 ht
      exact k.2 _ e
  | partition l fs =>
    have k := getState_seen ok fuel l
    have k1 : Nnx.getState fuel w.seen.heap l = (Nnx.getState fuel w.world.heap l).map (State.seen w.boxes) := k.1
    have d := getModuleDef_seen ok fuel l
    have d1 : getModuleDef fuel w.seen.heap l = (getModuleDef fuel w.world.heap l).map (ModuleDef.seen w.boxes) := d.1
    simp only [BoxOp.run, BoxOp.onValues, partitionModule, partitionBoxModule, k1, d1]
    cases ed : getModuleDef fuel w.world.heap l with
    | none => exact ⟨.refl, trivial, rfl⟩
    | some md =>
      cases es : Nnx.getState fuel w.world.heap l with
      | none => exact ⟨.refl, trivial, rfl⟩
      | some s =>
        simp only [Option.map_some]
        cases fs with
        | nil =>
          refine ⟨.refl, ⟨?_, d.2 _ ed⟩, rfl⟩
          intro t ht
          cases List.mem_singleton.1 ht
          exact k.2 _ es
        | cons f fs =>
          have p := partitionState_seen (k.2 _ es) (f :: fs)
          simp only [p.1]
          cases ep : partitionBoxState w.boxes s (f :: fs) with
          | error er => exact ⟨.refl, trivial, rfl⟩
          | ok ss => exact ⟨.refl, ⟨p.2 _ ep, d.2 _ ed⟩, rfl⟩
  | merge d ss =>
    have b := buildModule_seen hv.1 w.world
    have b1 : buildModule (d.seen w.boxes) w.seen = (buildModule d w.world).map (fun r => (r.1, r.2.seen w.boxes)) := b.1
    simp only [BoxOp.run, BoxOp.onValues, mergeDef, mergeBoxDef, b1]
    cases e : buildModule d w.world with
    | error er => exact ⟨.refl, trivial, rfl⟩
    | ok r =>
      obtain ⟨l, w1⟩ := r
      have s1 : BoxSteps w.world.heap w.boxes w1.heap w.boxes := b.2 _ e
      have u := updateBoxModule_seen l (cur := .new []) (ss := ss) (w := ⟨w1, w.boxes⟩) (s1.ok ok)
        (fun kv h => by cases h) hv.2
      have hnil : (State.new ([] : List (Str × PyVal (Held α)))).seen w.boxes = .new [] := rfl
      simp only [hnil] at u
      have u1 : updateModule l (.new []) (ss.map (State.seen w.boxes)) (w1.seen w.boxes) = _ := u.1
      simp only [Except.map, u1]
      have u2 := u.2
      generalize updateBoxModule l (.new []) ss ⟨w1, w.boxes⟩ = r at u2
      obtain ⟨w2, er⟩ := r
      cases er with
      | none => exact ⟨s1.trans u2, trivial, rfl⟩
      | some er => exact ⟨s1.trans u2, trivial, rfl⟩
  | update l ss =>
    have k := getState_seen ok fuel l
    have k1 : Nnx.getState fuel w.seen.heap l = (Nnx.getState fuel w.world.heap l).map (State.seen w.boxes) := k.1
    simp only [BoxOp.run, BoxOp.onValues, updateState, updateBoxState, k1]
    cases es : Nnx.getState fuel w.world.heap l with
    | none => exact ⟨.refl, trivial, rfl⟩
    | some s =>
      have u := updateBoxModule_seen l (cur := s) (ss := ss) ok (k.2 _ es) hv
      simp only [Option.map_some, u.1]
      have u2 := u.2
      generalize updateBoxModule l s ss w = r at u2
      obtain ⟨w2, er⟩ := r
      cases er with
      | none => exact ⟨u2, trivial, rfl⟩
      | some er => exact ⟨u2, trivial, rfl⟩
  | pop l fs =>
    simp only [BoxOp.run, BoxOp.onValues, popState, popBoxState]
    cases fs.isEmpty with
    | true => exact ⟨.refl, trivial, rfl⟩
    | false =>
      simp only [Bool.false_eq_true, if_false]
      cases toPredicates fs with
      | error er => exact ⟨.refl, trivial, rfl⟩
      | ok preds =>
        have k := popRec_seen (B := w.boxes) preds fuel l w.world.heap [] [] (List.replicate preds.length []) ok
          (replicate_ok w.boxes _)
        rw [replicate_seen] at k
        have k1 : popRec preds fuel l w.seen.heap [] [] (List.replicate preds.length []) = _ := k.1
        simp only [k1]
        have k2 := k.2
        generalize popRec (preds.map (seenPred w.boxes)) fuel l w.world.heap [] [] (List.replicate preds.length []) = r at k2
        obtain ⟨h', r⟩ := r
        cases r with
        | error er => exact ⟨k2.1, trivial, rfl⟩
        | ok r =>
          obtain ⟨idx, ds⟩ := r
          refine ⟨k2.1, ?_, ?_⟩
          · intro t ht
            obtain ⟨d, hd, rfl⟩ := List.mem_map.1 ht
            exact state_new_ok (k2.2 _ rfl d hd)
          · have : (ds.map (seenItems w.boxes)).map State.new = (ds.map State.new).map (State.seen w.boxes) := by
              simp only [List.map_map]
              apply List.map_congr_left
              intro d _
              simp only [Function.comp, state_new_seen, seenItems]
            simp only [seenPop, Except.map, this, OpResult.seen, BoxWorld.seen, World.seen]
  | sow l vt n value =>
    have k := sowBox_seen ok l vt n value
    have := returned_seen k.2
    rw [← k.1] at this
    exact this

/-! ### Writing to a container -/

omit [DecidableEq α] in
theorem writeBox_cases (b : Nat) (value : PyVal α) (md : Md α) (w : BoxWorld α) :
    writeBox b value md w = w ∨ ∃ c u m, w.boxes[b]? = some (.cont c u m) ∧ writeBox b value md w = ⟨w.world, w.boxes.set b (.cont c value md)⟩ := by
  simp only [writeBox]
  split
  · next c u m e => exact .inr ⟨c, u, m, e, rfl⟩
  · exact .inl rfl

omit [DecidableEq α] in
theorem RefOk.write {B : Boxes α} {b : Nat} {c : Cls} {u : PyVal α} {m : Md α} (e : B[b]? = some (.cont c u m)) (value : PyVal α) (md : Md α)
    {v : PyVal (Held α)} (h : RefOk B v) :
    RefOk (B.set b (.cont c value md)) v ∧ ((∀ d, v ≠ .data d (.box b)) → v.seen (B.set b (.cont c value md)) = v.seen B) := by
  obtain ⟨x, rfl, hx⟩ := h
  cases x with
  | val u => exact ⟨⟨.val u, rfl, hx⟩, fun _ => rfl⟩
  | box b' =>
    obtain ⟨c', u', m', e'⟩ := hx
    have s' : (Held.box b').seen B = .cont c' u' m' := getD_of_some e'
    by_cases hb : b = b'
    · subst hb
      rw [e] at e'
      cases e'
      have e2 : (B.set b (.cont c value md))[b]? = some (.cont c value md) := List.getElem?_set_self (List.getElem?_eq_some_iff.1 e).1
      have s2 : (Held.box b).seen (B.set b (.cont c value md)) = .cont c value md := getD_of_some e2
      refine ⟨⟨.box b, ?_, c, value, md, e2⟩, fun h => absurd rfl (h _)⟩
      simp only [Held.obj, s', s2, PyVal.cls]
    · have e2 : (B.set b (.cont c value md))[b']? = some (.cont c' u' m') := by rw [List.getElem?_set_ne hb, e']
      have s2 : (Held.box b').seen (B.set b (.cont c value md)) = .cont c' u' m' := getD_of_some e2
      refine ⟨⟨.box b', ?_, c', u', m', e2⟩, fun _ => ?_⟩
      · simp only [Held.obj, s', s2]
      · simp only [Held.obj, PyVal.seen, s', s2]

omit [DecidableEq α] in
theorem writeBox_ok {w : BoxWorld α} (ok : w.Ok) (b : Nat) (value : PyVal α) (md : Md α) : (writeBox b value md w).Ok := by
  rcases writeBox_cases b value md w with h | ⟨c, u, m, e, h⟩
  · rw [h]; exact ok
  · rw [h]
    intro o ho
    refine ⟨(ok o ho).1, fun kv hkv => ?_⟩
    have := (ok o ho).2 kv hkv
    cases hk : kv.2 with
    | ref l => exact trivial
    | val v =>
      rw [hk] at this
      exact (RefOk.write e value md this).1

omit [DecidableEq α] in
theorem writeBox_sep {w : BoxWorld α} (sep : SepIn w.world.heap w.boxes) (b : Nat) (value : PyVal α) (md : Md α) :
    SepIn (writeBox b value md w).world.heap (writeBox b value md w).boxes := by
  rcases writeBox_cases b value md w with h | ⟨c, u, m, e, h⟩
  · rw [h]; exact sep
  · rw [h]
    intro l n l' n' b' h1 h2 hn
    refine sep l n l' n' b' h1 h2 ?_
    obtain ⟨v, ev, hv⟩ := hn
    by_cases hb : b = b'
    · subst hb
      simp only [List.getElem?_set_self (List.getElem?_eq_some_iff.1 e).1, Option.some.injEq] at ev
      subst ev
      exact ⟨_, e, (isNode_of_cls rfl).trans hv⟩
    · simp only [List.getElem?_set_ne hb] at ev
      exact ⟨v, ev, hv⟩

theorem BoxReachable.inv {w : BoxWorld α} (h : BoxReachable w) : w.Ok ∧ SepIn w.world.heap w.boxes := by
  induction h with
  | start n t s =>
    refine ⟨fun o ho => (by cases ho), ?_⟩
    intro l n l' n' b h1
    obtain ⟨c, h1⟩ := h1
    cases h1
  | op _ hv hr ih =>
    have k := run_refines ih.1 hv hr
    exact ⟨k.1.ok ih.1, k.1.sep ih.1 ih.2⟩
  | write b value md _ ih => exact ⟨writeBox_ok ih.1 b value md, writeBox_sep ih.2 b value md⟩
  | traces t s _ ih => exact ih

/-! ### The theorems -/

/-- **C121** A program that works with container objects sees what it would see if every attribute and every entry of a State
held the contents of its container: every operation, in every world a program can reach, with any existing objects as arguments,
raises, returns and changes exactly what it does on values. -/
theorem C121_as_values {w w' : BoxWorld α} {r : OpResult (Held α)} (h : BoxReachable w) {o : BoxOp α} (hv : o.Valid w.boxes) {fuel : Nat}
    (hr : o.run fuel w = (w', r)) : o.onValues fuel w.boxes w.seen = (w'.seen, r.seen w'.boxes) ∧ r.Ok w'.boxes :=
  ⟨(run_refines h.inv.1 hv hr).2.2, (run_refines h.inv.1 hv hr).2.1⟩

/-- Operations one after the other, with no write to a container in between. -/
inductive BoxLater : BoxWorld α → BoxWorld α → Prop
  | refl {w : BoxWorld α} : BoxLater w w
  | op {w w' w'' : BoxWorld α} {fuel : Nat} {o : BoxOp α} {r : OpResult (Held α)} :
      BoxLater w w' → o.Valid w'.boxes → o.run fuel w' = (w'', r) → BoxLater w w''

/-- **C121** No operation changes a container object that exists. So what a program sees in a State, a definition or a
container that it holds is the same after any operations whatever, on these or on other Modules, whether they raise or not. -/
theorem C121_snapshot {w w' : BoxWorld α} (h : BoxReachable w) (hl : BoxLater w w') :
    (∀ (b : Nat) (v : PyVal α), w.boxes[b]? = some v → w'.boxes[b]? = some v) ∧
    (∀ s : State (PyVal (Held α)), ItemsOk w.boxes s.items → s.seen w'.boxes = s.seen w.boxes) ∧
    (∀ d : ModuleDef (Held α), d.Ok w.boxes → d.seen w'.boxes = d.seen w.boxes) ∧
    (∀ v : PyVal (Held α), RefOk w.boxes v → v.seen w'.boxes = v.seen w.boxes) := by
  have key : w.boxes <+: w'.boxes ∧ BoxReachable w' := by
    induction hl with
    | refl => exact ⟨List.prefix_refl _, h⟩
    | op _ hv hr ih => exact ⟨ih.1.trans (run_refines ih.2.inv.1 hv hr).1.prefix, .op ih.2 hv hr⟩
  refine ⟨fun b v e => prefix_getElem? key.1 e, fun s hs => ?_, fun d hd => (hd.mono key.1).2, fun v hv => (hv.mono key.1).2⟩
  simp only [State.seen]
  exact congrArg State.mk (hs.mono key.1).2

/-- **C121** Two attributes, of the same Module or of two, never hold the same container object of a node class (`Node`, `Variable`,
`Param`, ...), however the program came by the objects it assigned. -/
theorem C121_separate {w : BoxWorld α} (h : BoxReachable w) {l l' : Loc} {n n' : Str} {b : Nat} (h1 : Holds w l n b) (h2 : Holds w l' n' b)
    {v : PyVal α} (hb : w.boxes[b]? = some v) (hv : v.isNode = true) : l = l' ∧ n = n' := h.inv.2 l n l' n' b h1 h2 ⟨v, hb, hv⟩

/-- **C121** So writing to a container of a node class changes at most one attribute of one Module: the one that holds it. -/
theorem C121_in_place {w : BoxWorld α} (h : BoxReachable w) {b : Nat} {v : PyVal α} (hb : w.boxes[b]? = some v) (hv : v.isNode = true)
    (value : PyVal α) (md : Md α) {l l' : Loc} {n n' : Str}
    (h1 : attrAt (writeBox b value md w).seen.heap l n ≠ attrAt w.seen.heap l n)
    (h2 : attrAt (writeBox b value md w).seen.heap l' n' ≠ attrAt w.seen.heap l' n') :
    l = l' ∧ n = n' ∧ Holds w l n b := by
  have key : ∀ {l n}, attrAt (writeBox b value md w).seen.heap l n ≠ attrAt w.seen.heap l n → Holds w l n b := by
    intro l n hne
    rcases writeBox_cases b value md w with e | ⟨c, u, m, e, hw⟩
    · rw [e] at hne; exact absurd rfl hne
    · rw [hw] at hne
      simp only [BoxWorld.seen, World.seen, attrAt_seen] at hne
      cases ha : attrAt w.world.heap l n with
      | none => rw [ha] at hne; exact absurd rfl hne
      | some a =>
        rw [ha] at hne
        cases a with
        | ref l' => exact absurd rfl hne
        | val v' =>
          have hok : RefOk w.boxes v' := by
            simp only [attrAt] at ha
            split at ha
            · next o ho => exact (h.inv.1.obj ho).2 _ (dget_mem ha)
            · cases ha
          by_cases hd : ∃ d, v' = .data d (.box b)
          · obtain ⟨d, rfl⟩ := hd
            exact ⟨d, ha⟩
          · have := (RefOk.write e value md hok).2 (fun d hd' => hd ⟨d, hd'⟩)
            simp only [Option.map_some, attr_seen_val, this] at hne
            exact absurd rfl hne
  have e := C121_separate h (key h1) (key h2) hb hv
  exact ⟨e.1, e.2, key h1⟩

/-- **C121** What an operation stores in a Module is new: a container of a node class that an attribute holds after an operation is one
that the same attribute held before, or was made by the operation. -/
theorem C121_new_objects {w w' : BoxWorld α} {r : OpResult (Held α)} (h : BoxReachable w) {o : BoxOp α} (hv : o.Valid w.boxes) {fuel : Nat}
    (hr : o.run fuel w = (w', r)) {l : Loc} {n : Str} {b : Nat} (hh : Holds w' l n b) {v : PyVal α} (hb : w'.boxes[b]? = some v)
    (hn : v.isNode = true) : Holds w l n b ∨ w.boxes.length ≤ b :=
  (run_refines h.inv.1 hv hr).1.holds h.inv.1 hh ⟨v, hb, hn⟩

/-- **C121** So the Modules that `merge` makes (and `clone`, which is `partition` and `merge`) hold no container of a node class that
existed before: later writes to those containers do not reach them. -/
theorem C121_merge_fresh {w w' : BoxWorld α} {r : OpResult (Held α)} (h : BoxReachable w) {d : ModuleDef (Held α)}
    {ss : List (State (PyVal (Held α)))} (hv : (BoxOp.merge d ss).Valid w.boxes) {fuel : Nat} (hr : (BoxOp.merge d ss).run fuel w = (w', r))
    {l : Loc} (hl : w.world.heap.length ≤ l) {n : Str} {b : Nat} (hh : Holds w' l n b) {v : PyVal α} (hb : w'.boxes[b]? = some v)
    (hn : v.isNode = true) : w.boxes.length ≤ b := by
  rcases C121_new_objects h hv hr hh hb hn with ⟨c, g⟩ | g
  · simp only [attrAt, List.getElem?_eq_none hl] at g
    cases g
  · exact g

/-! ### get_state hands out the objects of the Module -/

omit [DecidableEq α] in
theorem iterStateAttrs_from {β : Type} {P : PyVal β → Prop} {rec : Loc → List Nat → List Str → Option (List (Str × PyVal β) × List Nat)}
    (hr : ∀ l idx p r, rec l idx p = some r → ∀ kv ∈ r.1, P kv.2) (as : List (Str × Attr β)) :
    (∀ n v, (n, Attr.val v) ∈ as → P v) → ∀ idx p r, iterStateAttrs rec as idx p = some r → ∀ kv ∈ r.1, P kv.2 := by
  induction as with
  | nil => intro _ idx p r h kv hkv; cases h; cases hkv
  | cons x as ih =>
    intro hP idx p r h kv hkv
    obtain ⟨n, a⟩ := x
    have ih := ih (fun n v hm => hP n v (.tail _ hm))
    cases a with
    | ref l =>
      simp only [iterStateAttrs] at h
      cases e : rec l idx (p ++ [n]) with
      | none => rw [e] at h; cases h
      | some r1 =>
        rw [e] at h
        simp only at h
        cases e' : iterStateAttrs rec as r1.2 p with
        | none => rw [e'] at h; cases h
        | some r2 =>
          rw [e'] at h
          cases h
          rcases List.mem_append.1 hkv with h | h
          · exact hr _ _ _ _ e kv h
          · exact ih _ _ _ e' kv h
    | val v =>
      simp only [iterStateAttrs] at h
      cases e : iterStateAttrs rec as idx p with
      | none => rw [e] at h; cases h
      | some r1 =>
        rw [e] at h
        simp only at h
        split at h
        · cases h
          rcases List.mem_cons.1 hkv with rfl | h
          · exact hP n v (.head _)
          · exact ih _ _ _ e kv h
        · cases h
          exact ih _ _ _ e kv hkv

omit [DecidableEq α] in
theorem getState_from {B : Boxes α} {h : Heap (Held α)} (ok : HeapOk B h) {fuel : Nat} {l : Loc} {s : State (PyVal (Held α))}
    (hs : getState fuel h l = some s) {kv : Str × PyVal (Held α)} (hkv : kv ∈ s.items) : ∃ l' n, attrAt h l' n = some (.val kv.2) := by
  have key : ∀ fuel l idx p r, iterStateRec h fuel l idx p = some r → ∀ kv ∈ r.1, ∃ l' n, attrAt h l' n = some (.val kv.2) := by
    intro fuel
    induction fuel with
    | zero => intro l idx p r hr; cases hr
    | succ fuel ih =>
      intro l idx p r hr
      simp only [iterStateRec] at hr
      cases e : h[l]? with
      | none => rw [e] at hr; cases hr
      | some o =>
        rw [e] at hr
        simp only at hr
        split at hr
        · cases hr
          intro kv hkv
          cases hkv
        · refine iterStateAttrs_from (P := fun v => ∃ l' n, attrAt h l' n = some (.val v)) ih _ ?_ _ _ _ hr
          intro n v hm
          refine ⟨l, n, ?_⟩
          simp only [attrAt, e]
          exact mem_dget (ok.obj e).1 (mem_sortItems_iff.1 hm)
  simp only [getState] at hs
  cases e : iterStateRec h fuel l [] [] with
  | none => rw [e] at hs; cases hs
  | some r =>
    rw [e] at hs
    cases hs
    exact key _ _ _ _ _ e kv (mem_sortItems_iff.1 (mem_dofList hkv))

/-- **C121** `get_state` hands out the very objects that the Modules hold: an entry of the State that is a container is held by an
attribute of a Module, and if the program writes to it then that attribute changes. (Shown for `get_state`; `partition` only sorts these
entries into several States.) -/
theorem C121_state_aliases {w : BoxWorld α} (h : BoxReachable w) {fuel : Nat} {l : Loc} {s : State (PyVal (Held α))}
    (hs : (BoxOp.getState l).run fuel w = (w, .states [s])) {path : Str} {c : Cls} {b : Nat} (he : (path, .data c (.box b)) ∈ s.items)
    (value : PyVal α) (md : Md α) :
    ∃ l' n, Holds w l' n b ∧ attrAt (writeBox b value md w).seen.heap l' n = some (.val (.cont c value md)) := by
  have hs' : getState fuel w.world.heap l = some s := by
    simp only [BoxOp.run] at hs
    cases e : getState fuel w.world.heap l with
    | none => rw [e] at hs; cases hs
    | some t => rw [e] at hs; cases hs; rfl
  obtain ⟨l', n, ha⟩ := getState_from h.inv.1 hs' he
  refine ⟨l', n, ⟨c, ha⟩, ?_⟩
  have hr := (getState_seen h.inv.1 fuel l).2 _ hs' _ he
  obtain ⟨x, hx, hx'⟩ := hr
  simp only [Held.obj, PyVal.data.injEq] at hx
  obtain ⟨hc, rfl⟩ := hx
  obtain ⟨c', u, m, e⟩ := hx'
  have s1 : (Held.box b).seen w.boxes = .cont c' u m := getD_of_some e
  rw [s1] at hc
  simp only [PyVal.cls] at hc
  subst hc
  have hw : writeBox b value md w = ⟨w.world, w.boxes.set b (.cont c value md)⟩ := by simp only [writeBox, e]
  rw [hw]
  simp only [BoxWorld.seen, World.seen, attrAt_seen, ha, Option.map_some, attr_seen_val]
  have e2 : (w.boxes.set b (.cont c value md))[b]? = some (.cont c value md) := List.getElem?_set_self (List.getElem?_eq_some_iff.1 e).1
  have s2 : (PyVal.data c (.box b) : PyVal (Held α)).seen (w.boxes.set b (.cont c value md)) = .cont c value md := getD_of_some e2
  rw [s2]

/-! ### pop_state hands over its objects -/

/-- Whatever an attribute holds in `h` it held in `h0`. -/
def OnlyFewer (h0 h : Heap (Held α)) : Prop := ∀ l n a, attrAt h l n = some a → attrAt h0 l n = some a

/-- No attribute holds the container. -/
def Unheld (h : Heap (Held α)) (v : PyVal (Held α)) : Prop := ∀ c b, v = .data c (.box b) → ∀ l n, ¬ HoldsIn h l n b

/-- Only attributes have disappeared since `h0`, and the containers in the States are held by no attribute. -/
def Handed (h0 h : Heap (Held α)) (ds : List (Dict Str (PyVal (Held α)))) : Prop :=
  OnlyFewer h0 h ∧ ∀ d ∈ ds, ∀ kv ∈ d, Unheld h kv.2

omit [DecidableEq α] in
theorem Unheld.mono {h h' : Heap (Held α)} (hf : OnlyFewer h h') {v : PyVal (Held α)} (hv : Unheld h v) : Unheld h' v := by
  intro c b e l n ⟨c', g⟩
  exact hv c b e l n ⟨c', hf _ _ _ g⟩

omit [DecidableEq α] in
theorem delAttr_fewer {B : Boxes α} {h h' : Heap (Held α)} (ok : HeapOk B h) {l : Loc} {n : Str} (e : delAttr h l n = .ok h') :
    OnlyFewer h h' ∧ attrAt h' l n = none := by
  simp only [delAttr] at e
  cases ho : h[l]? with
  | none => rw [ho] at e; cases e
  | some o =>
    rw [ho] at e
    simp only at e
    split at e
    · cases e
      have k := attrAt_set_ddel h ho (ok.obj ho).1 n
      refine ⟨fun l' n' a ha => ?_, ?_⟩
      · rw [k] at ha
        split at ha
        · cases ha
        · exact ha
      · rw [k]; simp
    · cases e

omit [DecidableEq α] in
theorem popInsert_mem {preds : List (Pred (Held α))} {path : Str} {v : PyVal (Held α)} : ∀ {ds ds' : List (Dict Str (PyVal (Held α)))},
    popInsert preds ds path v = some ds' → ∀ d ∈ ds', ∀ kv ∈ d, kv.2 = v ∨ ∃ d0 ∈ ds, kv ∈ d0 := by
  induction preds with
  | nil => intro ds ds' e; cases ds <;> cases e
  | cons p ps ih =>
    intro ds ds' e d hd kv hkv
    cases ds with
    | nil => cases e
    | cons d0 ds =>
      simp only [popInsert] at e
      split at e
      · cases e
        rcases List.mem_cons.1 hd with rfl | hd
        · rcases mem_dset_cases hkv with rfl | h
          · exact .inl rfl
          · exact .inr ⟨d0, .head _, h⟩
        · exact .inr ⟨d, .tail _ hd, hkv⟩
      · cases e' : popInsert ps ds path v with
        | none => rw [e'] at e; cases e
        | some ds1 =>
          rw [e'] at e
          cases e
          rcases List.mem_cons.1 hd with rfl | hd
          · exact .inr ⟨d, .head _, hkv⟩
          · rcases ih e' d hd kv hkv with h | ⟨d1, h1, h2⟩
            · exact .inl h
            · exact .inr ⟨d1, .tail _ h1, h2⟩

omit [DecidableEq α] in
theorem popAttrs_handed {B : Boxes α} {h0 : Heap (Held α)} (sep : SepIn h0 B)
    {rec : Loc → Heap (Held α) → List Nat → List Str → List (Dict Str (PyVal (Held α))) → PopResult (Held α)}
    (hr : ∀ l h idx p ds (r : Heap (Held α) × (List Nat × List (Dict Str (PyVal (Held α))))), HeapOk B h → Handed h0 h ds → rec l h idx p ds = (r.1, .ok r.2) → HeapOk B r.1 ∧ Handed h0 r.1 r.2.2)
    (preds : List (Pred (Held α))) (l : Loc) (as : List (Str × Attr (Held α))) :
    (∀ n a, (n, a) ∈ as → a.RefOk B ∧ attrAt h0 l n = some a) → ∀ h idx p ds (r : Heap (Held α) × (List Nat × List (Dict Str (PyVal (Held α))))),
      HeapOk B h → Handed h0 h ds →
      popAttrs rec preds l as h idx p ds = (r.1, .ok r.2) → HeapOk B r.1 ∧ Handed h0 r.1 r.2.2 := by
  induction as with
  | nil =>
    intro _ h idx p ds r ok hh e
    obtain ⟨h1, r1⟩ := r
    simp only [popAttrs, Prod.mk.injEq, Except.ok.injEq] at e
    obtain ⟨rfl, rfl⟩ := e
    exact ⟨ok, hh⟩
  | cons x as ih =>
    intro has h idx p ds r ok hh e
    obtain ⟨n, a⟩ := x
    have ih := ih (fun n a hm => has n a (.tail _ hm))
    cases a with
    | ref l' =>
      simp only [popAttrs] at e
      cases e1 : rec l' h idx (p ++ [n]) ds with
      | mk h1 r1 =>
        rw [e1] at e
        cases r1 with
        | error er => cases e
        | ok r1 =>
          have k := hr l' h idx (p ++ [n]) ds (h1, r1) ok hh e1
          exact ih h1 r1.1 p r1.2 r k.1 k.2 e
    | val v =>
      simp only [popAttrs] at e
      split at e
      swap
      · exact ih h idx p ds r ok hh e
      next hnode =>
      split at e
      · exact ih h idx p ds r ok hh e
      next ds1 hp =>
      split at e
      · cases e
      next h1 hd =>
      have hv := has n _ (.head _)
      have ok1 : HeapOk B h1 := ((delAttr_seen B h l n).2 _ hd).ok ok
      obtain ⟨f1, f2⟩ := delAttr_fewer ok hd
      have f3 : OnlyFewer h0 h1 := fun l' n' a ha => hh.1 _ _ _ (f1 _ _ _ ha)
      refine ih h1 idx p ds1 r ok1 ⟨f3, ?_⟩ e
      intro d hd' kv hkv
      rcases popInsert_mem hp d hd' kv hkv with h2 | ⟨d0, hd0, h2⟩
      · rw [h2]
        intro c b hcb l' n' ⟨c', g⟩
        subst hcb
        have g0 := f3 _ _ _ g
        have hn : NodeBox B b := by
          have hv1 : RefOk B (.data c (.box b)) := hv.1
          have hnn := hv1.isNode
          obtain ⟨x, hx, hx'⟩ := hv1
          simp only [Held.obj, PyVal.data.injEq] at hx
          obtain ⟨_, rfl⟩ := hx
          obtain ⟨c2, u, m, eb⟩ := hx'
          refine ⟨_, eb, ?_⟩
          rw [show (PyVal.data c (.box b) : PyVal (Held α)).seen B = .cont c2 u m from getD_of_some eb] at hnn
          exact hnn.trans hnode
        obtain ⟨rfl, rfl⟩ := sep l n l' n' b ⟨c, hv.2⟩ ⟨c', g0⟩ hn
        rw [f2] at g
        cases g
      · exact (hh.2 d0 hd0 kv h2).mono f1

omit [DecidableEq α] in
theorem popRec_handed {B : Boxes α} {h0 : Heap (Held α)} (sep : SepIn h0 B) (preds : List (Pred (Held α))) :
    ∀ fuel l h idx p ds (r : Heap (Held α) × (List Nat × List (Dict Str (PyVal (Held α))))), HeapOk B h → Handed h0 h ds → popRec preds fuel l h idx p ds = (r.1, .ok r.2) →
      HeapOk B r.1 ∧ Handed h0 r.1 r.2.2 := by
  intro fuel
  induction fuel with
  | zero => intro l h idx p ds r _ _ e; cases e
  | succ fuel ih =>
    intro l h idx p ds r ok hh e
    simp only [popRec] at e
    cases ho : h[l]? with
    | none => rw [ho] at e; cases e
    | some o =>
      rw [ho] at e
      simp only at e
      split at e
      · obtain ⟨h1, r1⟩ := r
        simp only [Prod.mk.injEq, Except.ok.injEq] at e
        obtain ⟨rfl, rfl⟩ := e
        exact ⟨ok, hh⟩
      · cases e1 : popAttrs (popRec preds fuel) preds l o.attrs h idx p ds with
        | mk h1 r1 =>
          rw [e1] at e
          cases r1 with
          | error er => cases e
          | ok r1 =>
            have k := popAttrs_handed sep ih preds l o.attrs (fun n a hm => ⟨(ok.obj ho).2 _ hm, hh.1 _ _ _ (by
              simp only [attrAt, ho]; exact mem_dget (ok.obj ho).1 hm)⟩) h idx p ds (h1, r1) ok hh e1
            obtain ⟨h2, r2⟩ := r
            simp only [Prod.mk.injEq, Except.ok.injEq] at e
            obtain ⟨rfl, rfl⟩ := e
            exact k

/-- **C121** `pop_state` hands its objects over: after it returns, no attribute of any Module holds a container that is in the States it
returned, and so a write to such a container changes no Module. -/
theorem C121_popped {w w' : BoxWorld α} (h : BoxReachable w) {fuel : Nat} {l : Loc} {fs : List (Filter α)}
    {ss : List (State (PyVal (Held α)))} (hr : (BoxOp.pop l fs).run fuel w = (w', .states ss)) {s : State (PyVal (Held α))} (hs : s ∈ ss)
    {path : Str} {c : Cls} {b : Nat} (he : (path, .data c (.box b)) ∈ s.items) :
    (∀ l' n, ¬ Holds w' l' n b) ∧
    ∀ (value : PyVal α) (md : Md α) (l' : Loc) (n : Str),
      attrAt (writeBox b value md w').seen.heap l' n = attrAt w'.seen.heap l' n := by
  have key : ∀ l' n, ¬ Holds w' l' n b := by
    simp only [BoxOp.run, popBoxState] at hr
    split at hr
    swap
    · cases hr
    next w1 ss1 hp =>
    cases hr
    split at hp
    · cases hp
    split at hp
    · cases hp
    next preds hpreds =>
    cases e : popRec (preds.map (seenPred w.boxes)) fuel l w.world.heap [] [] (List.replicate preds.length []) with
    | mk h1 r1 =>
      rw [e] at hp
      cases r1 with
      | error er => cases hp
      | ok r1 =>
        cases hp
        have k := popRec_handed h.inv.2 _ fuel l w.world.heap [] [] (List.replicate preds.length []) (h1, r1) h.inv.1
          ⟨fun _ _ _ ha => ha, fun d hd kv hkv => by rw [List.eq_of_mem_replicate hd] at hkv; cases hkv⟩ e
        obtain ⟨d, hd, rfl⟩ := List.mem_map.1 hs
        exact k.2.2 d hd _ (mem_sortItems_iff.1 (mem_dofList he)) c b rfl
  refine ⟨key, fun value md l' n => ?_⟩
  have hw : BoxReachable w' := .op h (o := .pop l fs) trivial hr
  rcases writeBox_cases b value md w' with e | ⟨c', u, m, e, hwr⟩
  · rw [e]
  · rw [hwr]
    simp only [BoxWorld.seen, World.seen, attrAt_seen]
    cases ha : attrAt w'.world.heap l' n with
    | none => rfl
    | some a =>
      cases a with
      | ref l2 => rfl
      | val v' =>
        have hok : RefOk w'.boxes v' := by
          simp only [attrAt] at ha
          split at ha
          · next o ho => exact (hw.inv.1.obj ho).2 _ (dget_mem ha)
          · cases ha
        have := (RefOk.write e value md hok).2 (fun d hd => key l' n ⟨d, by rw [ha, hd]⟩)
        simp only [Option.map_some, attr_seen_val, this]

/-! ### Examples -/

/-- `m = Module(); p = Param(1); m.w = p; c = Static(7); m.cfg = c`. -/
def exBox0 : BoxWorld Nat := ⟨⟨[], 0, 0, []⟩, []⟩
def exBox1 : BoxWorld Nat := ((BoxOp.create cModule).run 9 exBox0).1
def exBox2 : BoxWorld Nat := ((BoxOp.make cParam (.val (.data cArray 1)) []).run 9 exBox1).1
def exBox3 : BoxWorld Nat := ((BoxOp.assign 0 (py! "w") (.val ((Held.box 0).obj exBox2.boxes))).run 9 exBox2).1
def exBox4 : BoxWorld Nat := ((BoxOp.make cStatic (.val (.data cNdarray 7)) []).run 9 exBox3).1
def exBox5 : BoxWorld Nat := ((BoxOp.assign 0 (py! "cfg") (.val ((Held.box 2).obj exBox4.boxes))).run 9 exBox4).1
/-- `m2 = m.clone()`: the definition and the State of `m`, merged. -/
def exBoxDef : ModuleDef (Held Nat) := ⟨cModule, 0, .nil, [(py! "cfg", (Held.box 3).obj exBox5.boxes)], false⟩
def exBoxState : State (PyVal (Held Nat)) := ⟨[(py! "w", (Held.box 1).obj exBox5.boxes)]⟩
def exBox6 : BoxWorld Nat := ((BoxOp.merge exBoxDef [exBoxState]).run 9 exBox5).1

theorem exBox5_reachable : BoxReachable exBox5 := by
  have r1 : BoxReachable exBox1 := .op (fuel := 9) (o := .create cModule) (.start 0 0 []) trivial rfl
  have r2 : BoxReachable exBox2 := .op (fuel := 9) (o := .make cParam (.val (.data cArray 1)) []) r1 ⟨.val _, rfl, rfl⟩ rfl
  have r3 : BoxReachable exBox3 := .op (fuel := 9) (o := .assign 0 (py! "w") (.val ((Held.box 0).obj exBox2.boxes))) r2
    ⟨.box 0, rfl, _, _, _, rfl⟩ rfl
  have r4 : BoxReachable exBox4 := .op (fuel := 9) (o := .make cStatic (.val (.data cNdarray 7)) []) r3 ⟨.val _, rfl, rfl⟩ rfl
  exact .op (fuel := 9) (o := .assign 0 (py! "cfg") (.val ((Held.box 2).obj exBox4.boxes))) r4 ⟨.box 2, rfl, _, _, _, rfl⟩ rfl

/-- The hypotheses of C121_as_values, C121_snapshot, C121_new_objects and C121_merge_fresh are met by the merge. -/
theorem exBox6_valid : (BoxOp.merge exBoxDef [exBoxState]).Valid exBox5.boxes := by
  refine ⟨⟨trivial, ?_⟩, ?_⟩
  · intro kv h
    cases List.mem_singleton.1 h
    exact ⟨⟨.box 3, rfl, _, _, _, rfl⟩, rfl⟩
  · intro s hs
    cases List.mem_singleton.1 hs
    intro kv h
    cases List.mem_singleton.1 h
    exact ⟨.box 1, rfl, _, _, _, rfl⟩

theorem exBox6_reachable : BoxReachable exBox6 := .op (fuel := 9) exBox5_reachable exBox6_valid rfl

example : BoxLater exBox5 exBox6 := .op (fuel := 9) .refl exBox6_valid rfl

/-- The definition and the State are what `partition` gives. -/
example : partitionBoxModule 9 exBox5 0 [] = .ok ([exBoxState], exBoxDef) := by decide +kernel

/-- The Module does not hold the Param that was assigned, but a copy; the clone holds a copy of the copy; so the hypotheses of
C121_separate and C121_in_place are met: `m.w` holds the object 1, an instance of a node class. -/
example : Holds exBox6 0 (py! "w") 1 ∧ Holds exBox6 1 (py! "w") 4 ∧ exBox6.boxes[1]? = some (.cont cParam (.data cArray 1) [(py! "sharding", .none)]) :=
  ⟨⟨_, rfl⟩, ⟨_, rfl⟩, rfl⟩

example : attrAt (writeBox 1 (.data cArray 5) [] exBox6).seen.heap 0 (py! "w") ≠ attrAt exBox6.seen.heap 0 (py! "w") := by decide +kernel

/-- A write through the State of `m` changes `m`, and does not change the clone. -/
example : (BoxOp.getState 0).run 9 exBox6 = (exBox6, .states [exBoxState]) := rfl
example : attrAt (writeBox 1 (.data cArray 5) [] exBox6).seen.heap 0 (py! "w") = some (.val (.cont cParam (.data cArray 5) [])) := by
  decide +kernel
example : attrAt (writeBox 1 (.data cArray 5) [] exBox6).seen.heap 1 (py! "w") = attrAt exBox6.seen.heap 1 (py! "w") := by decide +kernel

/-- Popping the Params of `m` gives the object 1. -/
example : ((BoxOp.pop 0 [.ofType cParam]).run 9 exBox6).2 = .states [exBoxState] := rfl

/-- **C121** For a `Static` container this fails: a Module and its clone hold the same `Static` object, and writing to it changes both.
So `isNode` cannot be dropped from C121_separate, C121_in_place and C121_merge_fresh. -/
theorem C121_static_shared : BoxReachable exBox6 ∧ Holds exBox6 0 (py! "cfg") 3 ∧ Holds exBox6 1 (py! "cfg") 3 ∧
    attrAt (writeBox 3 (.data cNdarray 8) [] exBox6).seen.heap 0 (py! "cfg") ≠ attrAt exBox6.seen.heap 0 (py! "cfg") ∧
    attrAt (writeBox 3 (.data cNdarray 8) [] exBox6).seen.heap 1 (py! "cfg") ≠ attrAt exBox6.seen.heap 1 (py! "cfg") :=
  ⟨exBox6_reachable, ⟨_, rfl⟩, ⟨_, rfl⟩, by decide +kernel, by decide +kernel⟩

end Nnx
