import Verif.Proofs.ReprTree
import Verif.Props.ModuleGraph
import Mathlib.Tactic.Ring
/-
C130: the texts of States, ModuleDefs, containers and Pytrees.
-/
namespace Nnx
variable {α : Type}

/-- C130. A container or a Pytree of simple values that is printed inside of something else is printed as it would be
alone, moved to the right. The full statement, for containers and Pytrees that hold Pytrees or containers, is false of
the code: see `C130_doubled`. -/
theorem C130_nested_partial (P : Printer α) {v : PyVal α} (h : Tidy v) (depth : Nat) :
    reprIn P (margin depth) v = shifted depth (reprIn P [] v) := by
  rw [reprIn_tidy P _ h, reindent_eq]

/-- C130. `repr(variable)` lists the metadata and the value, each as Python prints it. -/
theorem C130_container (P : Printer α) {c : Cls} {v : PyVal α} {md : List (Str × PyVal α)} (hv : v.simple = true)
    (hm : SimpleFields md) :
    reprIn P [] (.cont c v md) = itemised c.name (py! "(") (py! ")")
      ((md ++ [(py! "value", v)]).map fun nv => nv.1 ++ py! "=" ++ shifted 1 (reprIn P [] nv.2)) := by
  rw [reprIn, getRepr_itemised _ rfl]
  congr 1
  have hf : ∀ (fs : List (Str × PyVal α)), SimpleFields fs →
      (reprFields P ([] ++ py! "  ") fs).map (fun a => a.start ++ a.key ++ py! "=" ++
        (if a.representable then a.text else shifted 1 a.text) ++ a.stop) =
      fs.map fun nv => nv.1 ++ py! "=" ++ shifted 1 (reprIn P [] nv.2) := by
    intro fs
    induction fs with
    | nil => intro _; rw [reprFields]; rfl
    | cons nv fs ih =>
      intro h
      obtain ⟨n, x⟩ := nv
      rw [reprFields, List.map_cons, List.map_cons, ih fun nv hm => h nv (List.mem_cons_of_mem _ hm),
        reprIn_simple P _ [] x (h _ List.mem_cons_self).2]
      simp
  rw [List.map_append, List.map_append, hf md hm]
  rw [reprIn_simple P _ [] v hv]
  simp

/-- C130. `repr(state)` has one entry for every path, in order, with the text that `repr` of the value gives (a string
without quotes), moved to the right. -/
theorem C130_state (P : Printer α) {s : State (PyVal α)} (h : ∀ kv ∈ s.items, Printable kv.2) :
    reprState P [] s = itemised (py! "State") (py! "({") (py! "})")
      (s.items.map fun kv => P.quote kv.1 ++ py! ": " ++ shifted 1 (shownAlone P kv.2)) := by
  unfold reprState
  rw [getRepr_itemised _ rfl]
  congr 1
  rw [List.map_map]
  apply List.map_congr_left
  intro kv hm
  have := elem_moved P (h kv hm) (margin 1)
  rw [reindent_eq, reindent_eq] at this
  simp only [Function.comp, List.nil_append]
  rw [show elemText P (py! "  ") kv.2 = elemText P (margin 1) kv.2 from rfl, this]
  simp

/-- C130. A State inside of something is printed as it would be alone, moved to the right. -/
theorem C130_state_nested {P : Printer α} (hq : P.Escapes) {s : State (PyVal α)} (h : ∀ kv ∈ s.items, Printable kv.2)
    (depth : Nat) : reprState P (margin depth) s = shifted depth (reprState P [] s) := by
  rw [← reindent_eq]
  unfold reprState
  refine moved_getRepr ⟨by simp [OneLine], by simp [OneLine], by simp [OneLine], by simp [OneLine], oneLine_nil⟩ ?_
  have : ∀ (l : List (Str × PyVal α)), (∀ kv ∈ l, Printable kv.2) → List.Forall₂ (MovedAttr (margin depth))
      (l.map fun kv => { key := P.quote kv.1, text := elemText P (margin depth ++ py! "  ") kv.2, representable := kv.2.representable })
      (l.map fun kv => { key := P.quote kv.1, text := elemText P ([] ++ py! "  ") kv.2, representable := kv.2.representable }) := by
    intro l
    induction l with
    | nil => intro _; exact .nil
    | cons kv l ih =>
      intro h
      refine .cons ⟨rfl, rfl, rfl, rfl, hq _, oneLine_nil, oneLine_nil, ?_⟩ (ih fun kv hm => h kv (List.mem_cons_of_mem _ hm))
      rcases h kv List.mem_cons_self with h | h
      · simp only [simple_not_representable h, elemText_simple P _ h]; rfl
      · simp only [h.representable, if_true, elemText_tidy P _ h, List.nil_append, reindent_reindent _ oneLine_two]
  exact this _ h

/-- C130. `repr(moduledef)` shows the class, the index, the submodules by name - each by its index or by the text that
`repr` of its definition gives - and the static fields. -/
theorem C130_def {P : Printer α} (hq : P.Escapes) {d : ModuleDef α} (h : d.Tidy) :
    reprDef P [] d = itemised (py! "ModuleDef") (py! "(") (py! ")")
      [py! "type=" ++ d.cls.name,
       py! "index=" ++ shifted 1 (natText d.index),
       py! "submodules=" ++ shifted 1 (itemised [] (py! "(") (py! ")")
         (d.subs.listed.map fun e => py! "(" ++ P.quote e.1 ++ py! ", " ++ shifted 1 (subAlone P e.2) ++ py! ")")),
       py! "static_fields=" ++ shifted 1 (staticsText P [] d.statics)] := by
  have hs : subsText P [] d.subs = shifted 1 (itemised [] (py! "(") (py! ")")
      (d.subs.listed.map fun e => py! "(" ++ P.quote e.1 ++ py! ", " ++ shifted 1 (subAlone P e.2) ++ py! ")")) := by
    unfold subsText
    rw [subs_moved hq h.2.2, getRepr_itemised _ rfl, reprSubs_lines hq _ h.2.2]
    exact reindent_eq 1 _
  have hn : shifted 1 d.cls.name = d.cls.name := by rw [← reindent_eq]; exact reindent_oneLine _ h.1
  show defText P [] d.cls d.index (subsText P [] d.subs) d.statics = _
  unfold defText
  rw [getRepr_itemised _ rfl, hs, staticsText_simple P ([] ++ py! "  ") [] h.2.1]
  simp [hn]

/-- C130. A definition inside of something is printed as it would be alone, moved to the right. -/
theorem C130_def_nested {P : Printer α} (hq : P.Escapes) {d : ModuleDef α} (h : d.Tidy) (depth : Nat) :
    reprDef P (margin depth) d = shifted depth (reprDef P [] d) := by
  rw [reprDef_moved hq h, reindent_eq]

/-- The texts of containers here and in the model of `repr(module)` (C70) are the same. -/
theorem reprContainer_eq (P : Printer α) (c : Cls) (v : PyVal α) (md : Md α) (ctx : ReprCtx) :
    reprContainer (fun v => .ok (reprIn P ctx.push.top v)) c v md ctx = (ctx, .ok (reprIn P ctx.top (.cont c v md))) := by
  have hf : ∀ fs : List (Str × PyVal α), containerElems (fun v => .ok (reprIn P ctx.push.top v)) ctx.push fs =
      .ok ((reprFields P (ctx.top ++ py! "  ") fs).map (ReprAttr.line (ctx.top ++ py! "  ") { type := c.name })) := by
    intro fs
    induction fs with
    | nil => rw [reprFields]; rfl
    | cons nv fs ih =>
      obtain ⟨n, x⟩ := nv
      rw [reprFields]
      simp only [containerElems, ih]
      simp [ReprAttr.line, elemLine, ReprCtx.push, ReprCtx.top]
  have happ : ∀ fs : List (Str × PyVal α), reprFields P (ctx.top ++ py! "  ") (fs ++ [(py! "value", v)]) =
      reprFields P (ctx.top ++ py! "  ") fs ++
        [{ key := py! "value", text := reprIn P (ctx.top ++ py! "  ") v, representable := false }] := by
    intro fs
    induction fs with
    | nil => rw [List.nil_append, reprFields, reprFields, reprFields]; rfl
    | cons nv fs ih => obtain ⟨n, x⟩ := nv; rw [List.cons_append, reprFields, reprFields, ih]; rfl
  unfold reprContainer
  rw [hf, happ, reprIn]
  have hpp : ctx.push.pop = ctx := by simp [ReprCtx.push, ReprCtx.pop]
  simp only [hpp]
  rfl

/-! ### Pytrees in Pytrees -/

/-- C130. A Pytree (or a container) in a Pytree is moved to the right twice: the fields of a Pytree are handed to the
printer as texts, which were printed at the current indentation, and texts are indented. -/
theorem C130_doubled (P : Printer α) {c : Cls} {n : Str} {v : PyVal α} (h : Tidy v) :
    reprIn P [] (.tree c [(n, v)]) = itemised c.name (py! "(") (py! ")")
      [n ++ py! "=" ++ shifted 1 (shifted 1 (reprIn P [] v))] := by
  rw [reprIn, getRepr_itemised _ rfl, reprFields, reprFields]
  have := C130_nested_partial P h 1
  simp only [List.map_cons, List.map_nil, List.nil_append]
  rw [show reprIn P (py! "  ") v = reprIn P (margin 1) v from rfl, this]
  simp

/-- The same with a value that is a Variable: `Param(value=P(...))`. -/
theorem C130_doubled_variable (P : Printer α) {c : Cls} {v : PyVal α} (h : Tidy v) :
    reprIn P [] (.cont c v []) = itemised c.name (py! "(") (py! ")")
      [py! "value=" ++ shifted 1 (shifted 1 (reprIn P [] v))] := by
  rw [reprIn, getRepr_itemised _ rfl, reprFields]
  have := C130_nested_partial P h 1
  simp only [List.map_cons, List.map_nil, List.nil_append]
  rw [show reprIn P (py! "  ") v = reprIn P (margin 1) v from rfl, this]
  simp

/-- Pytrees in Pytrees, with a number in the innermost. -/
def nest : Nat → PyVal Nat
  | 0 => .data { name := py! "int" } 0
  | n + 1 => .tree { name := py! "P" } [(py! "x", nest n)]

/-- The text has the line `x=0`, `m` spaces to the right. -/
def HasLine (m : Nat) (s : Str) : Prop :=
  ∃ a b, s = a ++ py! "\n" ++ List.replicate m ' ' ++ py! "x=0" ++ py! "\n" ++ b

theorem HasLine.inside {m : Nat} {s : Str} (h : HasLine m s) (a b : Str) : HasLine m (a ++ s ++ b) := by
  obtain ⟨x, y, rfl⟩ := h
  exact ⟨a ++ x, y ++ b, by simp⟩

theorem HasLine.reindent {m : Nat} {s : Str} (h : HasLine m s) (k : Nat) : HasLine (2 * k + m) (reindent (margin k) s) := by
  obtain ⟨x, y, rfl⟩ := h
  refine ⟨Nnx.reindent (margin k) x, margin k ++ Nnx.reindent (margin k) y, ?_⟩
  have h1 : OneLine (List.replicate m ' ') := fun h => by have := List.eq_of_mem_replicate h; simp at this
  have h2 : Nnx.reindent (margin k) (py! "\n") = py! "\n" ++ margin k := by simp [Nnx.reindent]
  have h3 : OneLine (py! "x=0") := by simp [OneLine]
  simp only [reindent_append, reindent_oneLine _ h1, h2, reindent_oneLine _ h3]
  rw [margin, List.replicate_add]
  simp

theorem margin_succ (k : Nat) : margin k ++ py! "  " = margin (k + 1) := by
  rw [margin, margin, show 2 * (k + 1) = 2 * k + 2 by omega, List.replicate_add]
  rfl

theorem nest_line (P : Printer Nat) (hP : P.data { name := py! "int" } 0 = py! "0") : ∀ n k : Nat,
    HasLine ((n + 1) * (2 * k + n + 2)) (reprIn P (margin k) (nest (n + 1)))
  | 0, k => by
    rw [nest, nest, reprIn, reprFields, reprFields, reprIn, hP, getRepr]
    refine ⟨py! "P(", margin k ++ py! ")", ?_⟩
    simp only [List.map_cons, List.map_nil, joinElems, ReprAttr.line]
    rw [margin_succ, if_neg (by simp), show (0 + 1) * (2 * k + 0 + 2) = 2 * (k + 1) by omega]
    simp [Nnx.reindent, margin]
  | n + 1, k => by
    have ih := (nest_line P hP n (k + 1)).reindent (k + 1)
    rw [nest, reprIn, reprFields, reprFields, getRepr]
    simp only [List.map_cons, List.map_nil, joinElems, ReprAttr.line]
    rw [margin_succ, if_neg (by simp)]
    have e : 2 * (k + 1) + (n + 1) * (2 * (k + 1) + n + 2) = (n + 1 + 1) * (2 * k + (n + 1) + 2) := by ring
    rw [e] at ih
    have := ih.inside (py! "P(\n" ++ margin (k + 1) ++ py! "x=") (py! "\n" ++ margin k ++ py! ")")
    simpa using this

/-- C130. In the text of `n + 1` Pytrees in one another, the innermost field is `(n + 1) * (n + 2)` spaces to the right,
instead of `2 * (n + 1)`. -/
theorem C130_quadratic (P : Printer Nat) (hP : P.data { name := py! "int" } 0 = py! "0") (n : Nat) :
    HasLine ((n + 1) * (n + 2)) (reprIn P [] (nest (n + 1))) := by
  have := nest_line P hP n 0
  rwa [show 2 * 0 + n + 2 = n + 2 by omega] at this

/-! ### Examples -/

/-- A printer of numbers: `10` is an array with two rows. -/
def exPrinter : Printer Nat :=
  ⟨fun s => py! "'" ++ (s.filter (· ≠ '\n')) ++ py! "'", fun _ n => if n = 10 then py! "[[1]\n [2]]" else natText n⟩

theorem exPrinter_escapes : exPrinter.Escapes := fun s h => by
  simp [exPrinter] at h

/-- A State with an array of two rows and a Pytree. -/
def exShown : State (PyVal Nat) := .new
  [(py! "b/w", .cont { name := py! "Param", ancestors := [py! "Container"] } (.data { name := py! "Array" } 10) []),
   (py! "a", .tree { name := py! "Box" } [(py! "n", .data { name := py! "int" } 3)])]

example : (∀ kv ∈ exShown.items, Printable kv.2) ∧ reprState exPrinter [] exShown =
    py! "State({\n  'a': Box(\n    n=3\n  ),\n  'b/w': Param(\n    value=[[1]\n     [2]]\n  )\n})" := by
  refine ⟨?_, by decide +kernel⟩
  have e : exShown.items = [(py! "a", .tree { name := py! "Box" } [(py! "n", .data { name := py! "int" } 3)]),
      (py! "b/w", .cont { name := py! "Param", ancestors := [py! "Container"] } (.data { name := py! "Array" } 10) [])] := by
    decide +kernel
  rw [e]
  intro kv hm
  simp only [List.mem_cons, List.not_mem_nil, or_false] at hm
  rcases hm with rfl | rfl
  · exact .inr (.tree (by simp [OneLine]) (by simp [SimpleFields, OneLine, PyVal.simple]))
  · exact .inr (.cont (by simp [OneLine]) rfl (by simp [SimpleFields]))

/-- The definition of the example graph. -/
example : ∃ d, getModuleDef 3 exHeap 0 = some d ∧ d.Tidy ∧ reprDef exPrinter [] d =
    py! "ModuleDef(\n  type=Net,\n  index=0,\n  submodules=(\n    ('a', ModuleDef(\n      type=Block,\n      index=1,\n      submodules=(\n        ('up', 0)\n      ),\n      static_fields=(('k', 3),)\n    )),\n    ('b', 1),\n    ('me', 0)\n  ),\n  static_fields=(('name', 'net'),)\n)" := by
  refine ⟨_, rfl, ?_, by decide +kernel⟩
  refine ⟨by simp [OneLine, exCls], ?_, ?_⟩
  · decide +kernel
  · refine ⟨by simp [OneLine, exCls], ?_, trivial, trivial⟩
    decide +kernel

/-- Two Pytrees in one another: `x=0` is 6 spaces to the right, the bracket of the inner one 4. -/
example : reprIn exPrinter [] (nest 2) = py! "P(\n  x=P(\n      x=0\n    )\n)" ∧
    reprIn exPrinter [] (nest 2) ≠ itemised (py! "P") (py! "(") (py! ")") [py! "x=" ++ shifted 1 (reprIn exPrinter [] (nest 1))] := by
  constructor <;> decide +kernel

end Nnx
