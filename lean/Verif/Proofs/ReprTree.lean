import Verif.Spec.ReprTree
import Verif.Props.ReprText
/-
Printing inside of something is printing alone, moved to the right.
-/
namespace Nnx
variable {α : Type}

theorem reindent_append (i : Str) : ∀ a b : Str, reindent i (a ++ b) = reindent i a ++ reindent i b
  | [], _ => rfl
  | c :: a, b => by
    simp only [List.cons_append, reindent, reindent_append i a b]
    split <;> simp

theorem reindent_oneLine (i : Str) : ∀ {s : Str}, OneLine s → reindent i s = s
  | [], _ => rfl
  | c :: s, h => by
    have h1 : c ≠ '\n' := fun e => h (by simp [e])
    rw [reindent, if_neg h1, reindent_oneLine i (fun hm => h (List.mem_cons_of_mem _ hm))]

theorem reindent_reindent (i : Str) {j : Str} (hj : OneLine j) : ∀ s : Str,
    reindent i (reindent j s) = reindent (i ++ j) s
  | [] => rfl
  | c :: s => by
    by_cases h : c = '\n'
    · rw [reindent, if_pos h, reindent, if_pos rfl, reindent_append, reindent_oneLine i hj, reindent_reindent i hj s,
        reindent, if_pos h]
      simp
    · rw [reindent, if_neg h, reindent, if_neg h, reindent_reindent i hj s, reindent, if_neg h]

theorem reindent_nil : ∀ s : Str, reindent [] s = s
  | [] => rfl
  | c :: s => by
    rw [reindent, reindent_nil s]
    split
    · next h => rw [h]; rfl
    · rfl

theorem oneLine_two : OneLine (py! "  ") := by unfold OneLine; decide

/-- The same attribute printed at an indentation and at none. -/
structure MovedAttr (i : Str) (a b : ReprAttr) : Prop where
  key : a.key = b.key
  start : a.start = b.start
  stop : a.stop = b.stop
  rep : a.representable = b.representable
  key1 : OneLine b.key
  start1 : OneLine b.start
  stop1 : OneLine b.stop
  text : a.text = if b.representable then reindent i b.text else b.text

theorem MovedAttr.line {i : Str} {a b : ReprAttr} (m : MovedAttr i a b) {o : ReprObject} (ho : OneLine o.sep) :
    a.line (i ++ py! "  ") o = i ++ reindent i (b.line (py! "  ") o) := by
  simp only [ReprAttr.line, reindent_append, reindent_oneLine i oneLine_two, reindent_oneLine i m.key1,
    reindent_oneLine i m.start1, reindent_oneLine i m.stop1, reindent_oneLine i ho, m.key, m.start, m.stop, m.rep]
  have ht := m.text
  by_cases hr : b.representable = true
  · simp only [hr, if_true] at ht ⊢
    rw [ht]
    simp
  · simp only [hr, if_false, Bool.false_eq_true] at ht ⊢
    rw [ht, reindent_reindent i oneLine_two]
    simp

theorem line_ne_nil (i : Str) (o : ReprObject) (a : ReprAttr) : a.line (i ++ py! "  ") o ≠ [] := by
  simp [ReprAttr.line]

theorem joinElems_cons (e f : Str) (es : List Str) : joinElems (e :: f :: es) = e ++ py! ",\n" ++ joinElems (f :: es) := by
  rw [joinElems]
  simp

theorem moved_join {i : Str} {o : ReprObject} (ho : OneLine o.sep) : ∀ {as bs : List ReprAttr}, List.Forall₂ (MovedAttr i) as bs → as ≠ [] →
    joinElems (as.map (ReprAttr.line (i ++ py! "  ") o)) = i ++ reindent i (joinElems (bs.map (ReprAttr.line (py! "  ") o)))
  | _, _, .nil, h => absurd rfl h
  | [a], [b], .cons m .nil, _ => by
    simpa [joinElems] using m.line ho
  | a :: a' :: as, b :: b' :: bs, .cons m (.cons m' hs), _ => by
    have ih := moved_join ho (.cons m' hs) (by simp)
    simp only [List.map_cons] at ih ⊢
    rw [joinElems_cons, joinElems_cons, ih, m.line ho]
    simp only [reindent_append]
    have : reindent i (py! ",\n") = py! ",\n" ++ i := by simp [reindent]
    rw [this]
    simp

/-- An Object whose own texts have no line breaks. -/
structure ReprObject.Flat (o : ReprObject) : Prop where
  type : OneLine o.type
  start : OneLine o.start
  stop : OneLine o.stop
  sep : OneLine o.sep
  empty : OneLine o.empty

theorem moved_getRepr {i : Str} {o : ReprObject} (ho : o.Flat) {as bs : List ReprAttr} (h : List.Forall₂ (MovedAttr i) as bs) :
    getRepr i o as = reindent i (getRepr [] o bs) := by
  cases h with
  | nil =>
    simp only [getRepr, List.map_nil, joinElems, if_true, reindent_append, reindent_oneLine i ho.type, reindent_oneLine i ho.start,
      reindent_oneLine i ho.stop, reindent_oneLine i ho.empty]
  | @cons a b as bs m hs =>
    have h1 := moved_join ho.sep (.cons m hs) (by simp)
    have h2 : joinElems ((b :: bs).map (ReprAttr.line ([] ++ py! "  ") o)) ≠ [] := joinElems_ne_nil (line_ne_nil _ _ _)
    have h3 : joinElems ((a :: as).map (ReprAttr.line (i ++ py! "  ") o)) ≠ [] := joinElems_ne_nil (line_ne_nil _ _ _)
    simp only [getRepr]
    rw [if_neg h2, if_neg h3, h1]
    simp only [reindent_append, reindent_oneLine i ho.type, reindent_oneLine i ho.start, reindent_oneLine i ho.stop, List.nil_append]
    have : reindent i (py! "\n") = py! "\n" ++ i := by simp [reindent]
    rw [this, show reindent i [] = [] from rfl]
    simp

/-! ### Values -/

mutual
theorem reprIn_simple (P : Printer α) (i j : Str) : ∀ v : PyVal α, v.simple = true → reprIn P i v = reprIn P j v
  | .none, _ => by simp only [reprIn]
  | .str _, _ => by simp only [reprIn]
  | .data _ _, _ => by simp only [reprIn]
  | .tup xs, h => by rw [PyVal.simple] at h; rw [reprIn, reprIn, reprItems_simple P i j xs h]
  | .cont _ _ _, h => by simp [PyVal.simple] at h
  | .cmeta v md, h => by
    rw [PyVal.simple, Bool.and_eq_true] at h
    rw [reprIn, reprIn, reprIn_simple P i j v h.1, reprPairs_simple P i j md h.2]
  | .tree _ _, h => by simp [PyVal.simple] at h
  | .dict items, h => by rw [PyVal.simple] at h; rw [reprIn, reprIn, reprPairs_simple P i j items h]
theorem reprItems_simple (P : Printer α) (i j : Str) : ∀ vs : List (PyVal α), PyVal.simpleL vs = true → reprItems P i vs = reprItems P j vs
  | [], _ => by simp only [reprItems]
  | v :: vs, h => by
    rw [PyVal.simpleL, Bool.and_eq_true] at h
    rw [reprItems, reprItems, reprIn_simple P i j v h.1, reprItems_simple P i j vs h.2]
theorem reprPairs_simple (P : Printer α) (i j : Str) : ∀ vs : List (Str × PyVal α), PyVal.simpleM vs = true → reprPairs P i vs = reprPairs P j vs
  | [], _ => by simp only [reprPairs]
  | (k, v) :: vs, h => by
    rw [PyVal.simpleM, Bool.and_eq_true] at h
    rw [reprPairs, reprPairs, reprIn_simple P i j v h.1, reprPairs_simple P i j vs h.2]
end

theorem oneLine_nil : OneLine [] := by simp [OneLine]

theorem moved_field (P : Printer α) (i : Str) {n : Str} {v : PyVal α} (hn : OneLine n) (hv : v.simple = true) :
    MovedAttr i { key := n, text := reprIn P (i ++ py! "  ") v, representable := false }
      { key := n, text := reprIn P ([] ++ py! "  ") v, representable := false } :=
  ⟨rfl, rfl, rfl, rfl, hn, oneLine_nil, oneLine_nil, by simpa using reprIn_simple P _ _ v hv⟩

theorem moved_fields (P : Printer α) (i : Str) : ∀ {fs : List (Str × PyVal α)}, SimpleFields fs →
    List.Forall₂ (MovedAttr i) (reprFields P (i ++ py! "  ") fs) (reprFields P ([] ++ py! "  ") fs)
  | [], _ => by rw [reprFields, reprFields]; exact .nil
  | (n, v) :: fs, h => by
    rw [reprFields, reprFields]
    have h1 := h (n, v) List.mem_cons_self
    exact .cons (moved_field P i h1.1 h1.2) (moved_fields P i fun nv hm => h nv (List.mem_cons_of_mem _ hm))

theorem flat_named {n : Str} (hn : OneLine n) : ReprObject.Flat { type := n } :=
  ⟨hn, by simp [OneLine], by simp [OneLine], by simp [OneLine], oneLine_nil⟩

theorem forall₂_append {X Y : Type} {R : X → Y → Prop} {a a' : List X} {b b' : List Y} (h : List.Forall₂ R a b) (h' : List.Forall₂ R a' b') :
    List.Forall₂ R (a ++ a') (b ++ b') := by
  induction h with
  | nil => exact h'
  | cons m _ ih => exact .cons m ih

theorem reprIn_tidy (P : Printer α) (i : Str) {v : PyVal α} (h : Tidy v) : reprIn P i v = reindent i (reprIn P [] v) := by
  cases h with
  | cont hc hv hm =>
    rw [reprIn, reprIn]
    refine moved_getRepr (flat_named hc) (forall₂_append (moved_fields P i hm) (.cons ?_ .nil))
    exact moved_field P i (by unfold OneLine; decide) hv
  | tree hc hm =>
    rw [reprIn, reprIn]
    exact moved_getRepr (flat_named hc) (moved_fields P i hm)

theorem simple_not_representable {v : PyVal α} (h : v.simple = true) : v.representable = false := by
  cases v <;> first | rfl | simp [PyVal.simple] at h

theorem Tidy.representable {v : PyVal α} (h : Tidy v) : v.representable = true := by cases h <;> rfl

theorem elemText_alone (P : Printer α) (v : PyVal α) : elemText P [] v = shownAlone P v := by
  cases v <;> rfl

theorem elemText_simple (P : Printer α) (i : Str) {v : PyVal α} (h : v.simple = true) : elemText P i v = shownAlone P v := by
  rw [← elemText_alone]
  cases v <;> first | rfl | exact reprIn_simple P _ _ _ h

theorem elemText_tidy (P : Printer α) (i : Str) {v : PyVal α} (h : Tidy v) : elemText P i v = reindent i (shownAlone P v) := by
  have h1 : ∀ j, elemText P j v = reprIn P j v := by cases h <;> intro <;> rfl
  rw [← elemText_alone, h1, h1, reprIn_tidy P i h]

/-- The value of an attribute inside of something. -/
theorem elem_moved (P : Printer α) {v : PyVal α} (h : Printable v) (i : Str) :
    (if v.representable then elemText P i v else reindent i (elemText P i v)) = reindent i (shownAlone P v) := by
  rcases h with h | h
  · rw [simple_not_representable h, elemText_simple P i h]; rfl
  · rw [h.representable, elemText_tidy P i h]; rfl

/-! ### The text of an Object with no indentation -/

theorem getRepr_itemised (o : ReprObject) (he : o.empty = []) (attrs : List ReprAttr) :
    getRepr [] o attrs = itemised o.type o.start o.stop
      (attrs.map fun a => a.start ++ a.key ++ o.sep ++ (if a.representable then a.text else shifted 1 a.text) ++ a.stop) := by
  cases attrs with
  | nil => simp [getRepr, itemised, joinElems, he]
  | cons a as =>
    have h2 : joinElems ((a :: as).map (ReprAttr.line ([] ++ py! "  ") o)) ≠ [] := joinElems_ne_nil (line_ne_nil _ _ _)
    simp only [getRepr, itemised]
    rw [if_neg h2, if_neg (by simp), joinElems_eq, List.map_map]
    have hm : margin 1 = py! "  " := rfl
    have : (fun a => ReprAttr.line ([] ++ py! "  ") o a) = ((fun x => margin 1 ++ x) ∘ fun a =>
        a.start ++ a.key ++ o.sep ++ (if a.representable then a.text else shifted 1 a.text) ++ a.stop) := by
      funext a
      simp only [ReprAttr.line, Function.comp, ← reindent_eq, hm, List.nil_append]
      simp
    rw [show ReprAttr.line ([] ++ py! "  ") o = (fun a => ReprAttr.line ([] ++ py! "  ") o a) from rfl, this]
    simp

/-! ### Definitions -/

theorem staticsText_simple (P : Printer α) (i j : Str) {ss : List (Str × PyVal α)} (h : ∀ nv ∈ ss, nv.2.simple = true) :
    staticsText P i ss = staticsText P j ss := by
  unfold staticsText
  congr 1
  apply List.map_congr_left
  intro nv hm
  rw [reprIn_simple P i j nv.2 (h nv hm)]

theorem flat_submodules : submodulesObject.Flat :=
  ⟨oneLine_nil, by simp [submodulesObject, OneLine], by simp [submodulesObject, OneLine], by simp [submodulesObject, OneLine], oneLine_nil⟩

/-- The text of the submodules inside of a definition at some indentation. -/
def subsText (P : Printer α) (i : Str) (s : Subs α) : Str :=
  getRepr (i ++ py! "  ") submodulesObject (reprSubs P (i ++ py! "  " ++ py! "  ") s)

theorem moved_defText (P : Printer α) {cls : Cls} {index : Nat} {s : Subs α} {statics : List (Str × PyVal α)}
    (hs : ∀ i, getRepr i submodulesObject (reprSubs P (i ++ py! "  ") s) =
      reindent i (getRepr [] submodulesObject (reprSubs P ([] ++ py! "  ") s)))
    (hst : ∀ nv ∈ statics, nv.2.simple = true) (i : Str) :
    defText P i cls index (subsText P i s) statics = reindent i (defText P [] cls index (subsText P [] s) statics) := by
  unfold defText
  refine moved_getRepr (flat_named (by unfold OneLine; decide)) (.cons ?_ (.cons ?_ (.cons ?_ (.cons ?_ .nil))))
  · exact ⟨rfl, rfl, rfl, rfl, by simp [OneLine], oneLine_nil, oneLine_nil, rfl⟩
  · exact ⟨rfl, rfl, rfl, rfl, by simp [OneLine], oneLine_nil, oneLine_nil, rfl⟩
  · refine ⟨rfl, rfl, rfl, rfl, by simp [OneLine], oneLine_nil, oneLine_nil, ?_⟩
    show subsText P i s = reindent i (subsText P [] s)
    unfold subsText
    rw [hs (i ++ py! "  "), hs ([] ++ py! "  "), List.nil_append, reindent_reindent i oneLine_two]
  · refine ⟨rfl, rfl, rfl, rfl, by simp [OneLine], oneLine_nil, oneLine_nil, ?_⟩
    exact staticsText_simple P _ _ hst

theorem moved_subs {P : Printer α} (hq : P.Escapes) : ∀ (s : Subs α), s.Tidy → ∀ i,
    List.Forall₂ (MovedAttr i) (reprSubs P (i ++ py! "  ") s) (reprSubs P ([] ++ py! "  ") s)
  | .nil, _, _ => .nil
  | .ref name index rest, h, i => by
    rw [reprSubs, reprSubs]
    exact .cons ⟨rfl, rfl, rfl, rfl, hq name, by simp [OneLine], by simp [OneLine], rfl⟩ (moved_subs hq rest h i)
  | .sub name cls index subs statics isInit rest, h, i => by
    rw [reprSubs, reprSubs]
    refine .cons ⟨rfl, rfl, rfl, rfl, hq name, by simp [OneLine], by simp [OneLine], ?_⟩ (moved_subs hq rest h.2.2.2 i)
    have ih : ∀ i, getRepr i submodulesObject (reprSubs P (i ++ py! "  ") subs) =
        reindent i (getRepr [] submodulesObject (reprSubs P ([] ++ py! "  ") subs)) :=
      fun i => moved_getRepr flat_submodules (moved_subs hq subs h.2.2.1 i)
    have hB := moved_defText P (cls := cls) (index := index) ih h.2.1
    show defText P (i ++ py! "  ") cls index (subsText P (i ++ py! "  ") subs) statics =
      reindent i (defText P ([] ++ py! "  ") cls index (subsText P ([] ++ py! "  ") subs) statics)
    rw [hB (i ++ py! "  "), hB ([] ++ py! "  "), List.nil_append, reindent_reindent i oneLine_two]

theorem subs_moved {P : Printer α} (hq : P.Escapes) {s : Subs α} (h : s.Tidy) (i : Str) :
    getRepr i submodulesObject (reprSubs P (i ++ py! "  ") s) =
      reindent i (getRepr [] submodulesObject (reprSubs P ([] ++ py! "  ") s)) :=
  moved_getRepr flat_submodules (moved_subs hq s h i)

theorem reprDef_moved {P : Printer α} (hq : P.Escapes) {d : ModuleDef α} (h : d.Tidy) (i : Str) :
    reprDef P i d = reindent i (reprDef P [] d) :=
  moved_defText P (subs_moved hq h.2.2) h.2.1 i

/-- The lines of the submodules, from the texts of their definitions. -/
theorem reprSubs_lines {P : Printer α} (hq : P.Escapes) : ∀ (s : Subs α), s.Tidy →
    (reprSubs P ([] ++ py! "  ") s).map (fun a => a.start ++ a.key ++ submodulesObject.sep ++
      (if a.representable then a.text else shifted 1 a.text) ++ a.stop) =
    s.listed.map fun e => py! "(" ++ P.quote e.1 ++ py! ", " ++ shifted 1 (subAlone P e.2) ++ py! ")"
  | .nil, _ => rfl
  | .ref name index rest, h => by
    rw [reprSubs, List.map_cons, reprSubs_lines hq rest h]
    rfl
  | .sub name cls index subs statics isInit rest, h => by
    rw [reprSubs, List.map_cons, reprSubs_lines hq rest h.2.2.2, Subs.listed, List.map_cons]
    congr 1
    have hd := reprDef_moved hq (d := ⟨cls, index, subs, statics, isInit⟩) ⟨h.1, h.2.1, h.2.2.1⟩ (py! "  ")
    rw [show (py! "  ") = margin 1 from rfl, reindent_eq] at hd
    simp only [subAlone]
    rw [← hd]
    rfl

end Nnx
