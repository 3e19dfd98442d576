import Verif.Model.ReprThreads
import Verif.Props.Repr
/-
A thread that prints alone does what `reprModule` says.
-/
namespace Nnx
variable {α : Type}

/-- Steps of one thread while no other thread does anything. -/
inductive ReprRuns (showVal : PyVal α → Except Err Str) (h : Heap α) :
    Option (List Nat) → ReprStatus α → Option (List Nat) → ReprStatus α → Prop
  | here {s st} : ReprRuns showVal h s st s st
  | step {s root p fs s' st'} : ReprRuns showVal h (reprStep showVal h root s p fs).1 (reprStep showVal h root s p fs).2 s' st' →
      ReprRuns showVal h s (.printing root p fs) s' st'

theorem ReprRuns.trans {showVal : PyVal α → Except Err Str} {h : Heap α} {s1 s2 s3 st1 st2 st3} (a : ReprRuns showVal h s1 st1 s2 st2)
    (b : ReprRuns showVal h s2 st2 s3 st3) : ReprRuns showVal h s1 st1 s3 st3 := by
  induction a with
  | here => exact b
  | step _ ih => exact .step (ih b)

/-- A step with a known result. -/
theorem ReprRuns.next {showVal : PyVal α → Except Err Str} {h : Heap α} {s root p fs s1 st1 s' st'}
    (e : reprStep showVal h root s p fs = (s1, st1)) (r : ReprRuns showVal h s1 st1 s' st') :
    ReprRuns showVal h s (.printing root p fs) s' st' := by
  apply ReprRuns.step
  rw [e]
  exact r

/-! ### Formatting depends on the indentation only -/

theorem elemLine_congr {c c' : ReprCtx} (hc : c.indent = c'.indent) (b : Bool) (k v : Str) : elemLine c b k v = elemLine c' b k v := by
  simp only [elemLine, ReprCtx.top, hc]

theorem finishRepr_congr {c c' : ReprCtx} (hc : c.indent = c'.indent) (t e : Str) (ls : List Str) : finishRepr c t e ls = finishRepr c' t e ls := by
  simp only [finishRepr, ReprCtx.top, hc]

theorem push_indent {c c' : ReprCtx} (hc : c.indent = c'.indent) : c.push.indent = c'.push.indent := by
  simp only [ReprCtx.push, ReprCtx.top, hc]

theorem containerElems_congr (showVal : PyVal α → Except Err Str) {c c' : ReprCtx} (hc : c.indent = c'.indent) : ∀ l,
    containerElems showVal c l = containerElems showVal c' l
  | [] => rfl
  | (n, v) :: rest => by
    rw [containerElems, containerElems, containerElems_congr showVal hc rest]
    cases showVal v with
    | error e => rfl
    | ok s => simp only [elemLine_congr hc]

theorem reprContainer_congr (showVal : PyVal α → Except Err Str) {c c' : ReprCtx} (hc : c.indent = c'.indent) (cl : Cls) (v : PyVal α) (m : Md α) :
    (reprContainer showVal cl v m c).2 = (reprContainer showVal cl v m c').2 := by
  rw [reprContainer, reprContainer, containerElems_congr showVal (push_indent hc)]
  cases containerElems showVal c'.push (m ++ [(py! "value", v)]) with
  | error e => rfl
  | ok ls => simp only [push_pop, finishRepr_congr hc]

theorem ctxAt_push (n : Nat) : (ctxAt n).push.indent = indents (n + 1) := rfl

theorem showAttr_value {sub : Loc → ReprCtx → Option (ReprCtx × Except Err Str)} {showVal : PyVal α → Except Err Str} {ctx : ReprCtx} {n : Nat}
    (hc : ctx.indent = indents n) (v : PyVal α) : showAttr sub showVal ctx (.val v) = some (ctx, valueText showVal n v) := by
  cases v with
  | cont c v m =>
    rw [showAttr, valueText, reprContainer_congr showVal (c := ctxAt n) (c' := ctx) hc.symm]
    exact congrArg some (Prod.ext (reprContainer_ctx ..) rfl)
  | _ => rfl

/-! ### The simulation -/

/-- What a thread does when it is asked to print a Module while it prints others. -/
def SubRuns (showVal : PyVal α → Except Err Str) (h : Heap α) (sub : Loc → ReprCtx → Option (ReprCtx × Except Err Str)) (l : Loc) : Prop :=
  ∀ root F (ctx : ReprCtx) S ctx' r, ctx.indent = indents F.length → ctx.seen = some S → sub l ctx = some (ctx', r) →
    ctx'.indent = ctx.indent ∧ ctx'.seen.isSome = true ∧
    (∀ s, r = .ok s → ReprRuns showVal h ctx.seen (.printing root (.enter l) F) ctx'.seen (.printing root (.ret s) F)) ∧
    ∀ e, r = .error e → ∃ G, (∀ f ∈ G, f.clear = false) ∧
      ReprRuns showVal h ctx.seen (.printing root (.enter l) F) ctx'.seen (.printing root (.raised e) (G ++ F))

/-- The loop. -/
theorem reprElems_runs {showVal : PyVal α → Except Err Str} {h : Heap α} {sub : Loc → ReprCtx → Option (ReprCtx × Except Err Str)}
    (root loc : Loc) (clear : Bool) (fs : List (ReprFrame α)) : ∀ {attrs : List (Str × Attr α)},
    (∀ r n, (n, Attr.ref r) ∈ attrs → SubRuns showVal h sub r) → ∀ {ctx : ReprCtx} {S ctx' x} (lines : List Str),
    ctx.indent = indents (fs.length + 1) → ctx.seen = some S → reprElems sub showVal attrs ctx = some (ctx', x) →
    ctx'.indent = ctx.indent ∧ ctx'.seen.isSome = true ∧
    (∀ ls, x = .ok ls → ReprRuns showVal h ctx.seen (.printing root .loop (⟨loc, clear, attrs, lines⟩ :: fs))
      ctx'.seen (.printing root .loop (⟨loc, clear, [], lines ++ ls⟩ :: fs))) ∧
    ∀ e, x = .error e → ∃ G f, (∀ f ∈ G, f.clear = false) ∧ f.clear = clear ∧
      ReprRuns showVal h ctx.seen (.printing root .loop (⟨loc, clear, attrs, lines⟩ :: fs)) ctx'.seen (.printing root (.raised e) (G ++ f :: fs))
  | [], _, ctx, S, ctx', x, lines, hc, hs, e => by
    cases e
    refine ⟨rfl, by rw [hs]; rfl, ?_, ?_⟩
    · rintro ls h; cases h; rw [List.append_nil]; exact .here
    · rintro e h; cases h
  | (name, a) :: rest, hsub, ctx, S, ctx', x, lines, hc, hs, e => by
    have ih := fun {ctx S ctx' x} => reprElems_runs (showVal := showVal) (h := h) root loc clear fs (attrs := rest)
      (fun r n hn => hsub r n (List.mem_cons_of_mem _ hn)) (ctx := ctx) (S := S) (ctx' := ctx') (x := x)
    rw [reprElems] at e
    by_cases hl : listed name a = false
    · rw [if_pos hl] at e
      obtain ⟨i1, i2, i3, i4⟩ := ih lines hc hs e
      have hstep : reprStep showVal h root ctx.seen .loop (⟨loc, clear, (name, a) :: rest, lines⟩ :: fs) =
          (ctx.seen, .printing root .loop (⟨loc, clear, rest, lines⟩ :: fs)) := by
        simp only [reprStep, loopStep, if_pos hl]
      refine ⟨i1, i2, fun ls hls => .next hstep (i3 ls hls), fun er her => ?_⟩
      obtain ⟨G, f, g1, g2, g3⟩ := i4 er her
      exact ⟨G, f, g1, g2, .next hstep g3⟩
    · rw [if_neg hl] at e
      -- the rest, once the text of the attribute is known
      have cont : ∀ {c1 : ReprCtx} {s : Str} {rep : Bool}, c1.indent = ctx.indent → c1.seen.isSome = true → a.representable = rep →
          consLine (elemLine c1 a.representable name s) (reprElems sub showVal rest c1) = some (ctx', x) →
          ReprRuns showVal h ctx.seen (.printing root .loop (⟨loc, clear, (name, a) :: rest, lines⟩ :: fs)) c1.seen
            (.printing root .loop (⟨loc, clear, rest, lines ++ [elemLine (ctxAt (fs.length + 1)) rep name s]⟩ :: fs)) →
          ctx'.indent = ctx.indent ∧ ctx'.seen.isSome = true ∧
          (∀ ls, x = .ok ls → ReprRuns showVal h ctx.seen (.printing root .loop (⟨loc, clear, (name, a) :: rest, lines⟩ :: fs))
            ctx'.seen (.printing root .loop (⟨loc, clear, [], lines ++ ls⟩ :: fs))) ∧
          ∀ e, x = .error e → ∃ G f, (∀ f ∈ G, f.clear = false) ∧ f.clear = clear ∧
            ReprRuns showVal h ctx.seen (.printing root .loop (⟨loc, clear, (name, a) :: rest, lines⟩ :: fs)) ctx'.seen
              (.printing root (.raised e) (G ++ f :: fs)) := by
        intro c1 s rep hi1 hs1 hrep he hrun
        obtain ⟨S1, hS1⟩ := Option.isSome_iff_exists.1 hs1
        cases hr : reprElems sub showVal rest c1 with
        | none => rw [hr] at he; cases he
        | some z =>
          obtain ⟨c2, y⟩ := z
          rw [hr] at he
          obtain ⟨i1, i2, i3, i4⟩ := ih (lines ++ [elemLine (ctxAt (fs.length + 1)) rep name s]) (hi1.trans hc) hS1 hr
          cases y with
          | error er =>
            cases he
            refine ⟨i1.trans hi1, i2, fun ls h => (by cases h), fun e h => ?_⟩
            obtain ⟨G, f, g1, g2, g3⟩ := i4 e h
            exact ⟨G, f, g1, g2, hrun.trans g3⟩
          | ok ls =>
            cases he
            refine ⟨i1.trans hi1, i2, fun ls' h => ?_, fun e h => (by cases h)⟩
            cases h
            have := hrun.trans (i3 ls rfl)
            rw [hrep, elemLine_congr (c := c1) (c' := ctxAt (fs.length + 1)) (hi1.trans hc)]
            simpa using this
      cases a with
      | ref l =>
        have hstep : reprStep showVal h root ctx.seen .loop (⟨loc, clear, (name, .ref l) :: rest, lines⟩ :: fs) =
            (ctx.seen, .printing root (.enter l) (⟨loc, clear, (name, .ref l) :: rest, lines⟩ :: fs)) := by
          simp only [reprStep, loopStep, if_neg hl]
        rw [showAttr] at e
        cases hx : sub l ctx with
        | none => rw [hx] at e; cases e
        | some z =>
          obtain ⟨c1, y⟩ := z
          rw [hx] at e
          obtain ⟨j1, j2, j3, j4⟩ := hsub l name (by simp) root (⟨loc, clear, (name, .ref l) :: rest, lines⟩ :: fs) ctx S c1 y
            (by rw [hc]; rfl) hs hx
          cases y with
          | error er =>
            cases e
            refine ⟨j1, j2, fun ls h => (by cases h), fun e h => ?_⟩
            cases h
            obtain ⟨G, g1, g2⟩ := j4 _ rfl
            exact ⟨G, _, g1, rfl, .next hstep g2⟩
          | ok s =>
            refine cont (rep := true) j1 j2 rfl e (.next hstep ((j3 s rfl).trans (.next ?_ .here)))
            simp only [reprStep, retStep]
      | val v =>
        rw [showAttr_value hc] at e
        cases hx : valueText showVal (fs.length + 1) v with
        | error er =>
          rw [hx] at e
          cases e
          refine ⟨rfl, by rw [hs]; rfl, fun ls h => (by cases h), fun e h => ?_⟩
          cases h
          refine ⟨[], ⟨loc, clear, (name, .val v) :: rest, lines⟩, by simp, rfl, .next ?_ .here⟩
          simp only [reprStep, loopStep, if_neg hl, hx]
          rfl
        | ok s =>
          rw [hx] at e
          refine cont (rep := Attr.representable (.val v)) rfl (by rw [hs]; rfl) rfl e (.next ?_ .here)
          simp only [reprStep, loopStep, if_neg hl, hx]

/-- A Module, while others are being printed. -/
theorem reprModule_runs {showVal : PyVal α → Except Err Str} {h : Heap α} (wf : WFHeap h) : ∀ {fuel : Nat} {l : Loc}, l < h.length →
    SubRuns showVal h (reprModule showVal h fuel) l
  | 0, _, _ => by intro root F ctx S ctx' r _ _ e; cases e
  | fuel + 1, l, hl => by
    intro root F ctx S ctx' r hc hs e
    have hlo : h[l]? = some h[l] := List.getElem?_eq_getElem hl
    generalize h[l] = o at hlo
    rw [reprModule] at e
    simp only [hlo, hs, Option.getD_some, Option.isNone_some, Bool.false_eq_true, if_false] at e
    have h1 : reprStep showVal h root ctx.seen (.enter l) F = (some S, .printing root (.test l false) F) := by
      simp [reprStep, hs]
    by_cases hm : o.uid ∈ S
    · rw [if_pos hm] at e
      cases e
      refine ⟨rfl, rfl, fun s h => ?_, fun e h => (by cases h)⟩
      cases h
      refine .next h1 (.next (s1 := some S) ?_ .here)
      simp only [reprStep, hlo, if_pos hm]
      rw [finishRepr_congr (c := ctxAt F.length) hc.symm]
      rfl
    · rw [if_neg hm] at e
      have h2 : reprStep showVal h root (some S) (.test l false) F = (some S, .printing root (.add l false) F) := by
        simp only [reprStep, hlo, if_neg hm]
      have h3 : reprStep showVal h root (some S) (.add l false) F =
          (some (S ++ [o.uid]), .printing root .loop (⟨l, false, o.attrs, []⟩ :: F)) := by
        simp only [reprStep, hlo]
      have hsub : ∀ r n, (n, Attr.ref r) ∈ o.attrs → SubRuns showVal h (reprModule showVal h fuel) r := by
        intro r n hn
        refine reprModule_runs wf (wf.refs l n r ?_)
        rw [attrAt, hlo]
        exact mem_dget (wf.nodup l o hlo) hn
      cases he : reprElems (reprModule showVal h fuel) showVal o.attrs
          ({ ctx with seen := some (S ++ [o.uid]), expanded := ctx.expanded ++ [l] } : ReprCtx).push with
      | none => rw [he] at e; cases e
      | some z =>
        obtain ⟨c2, y⟩ := z
        rw [he] at e
        obtain ⟨i1, i2, i3, i4⟩ := reprElems_runs root l false F hsub [] (by
          simp only [ReprCtx.push, ReprCtx.top, hc, indents]) rfl he
        have hi : c2.pop.indent = ctx.indent := by
          show c2.indent.tail = ctx.indent
          rw [i1]; rfl
        cases y with
        | error er =>
          cases e
          refine ⟨hi, i2, fun s h => (by cases h), fun e h => ?_⟩
          cases h
          obtain ⟨G, f, g1, g2, g3⟩ := i4 _ rfl
          refine ⟨G ++ [f], ?_, .next h1 (.next h2 (.next h3 ?_))⟩
          · intro f' hf'
            rcases List.mem_append.1 hf' with hf' | hf'
            · exact g1 f' hf'
            · rw [List.mem_singleton.1 hf']; exact g2
          · rw [List.append_assoc]
            exact g3
        | ok ls =>
          cases e
          refine ⟨hi, i2, fun s h => ?_, fun e h => (by cases h)⟩
          cases h
          refine .next h1 (.next h2 (.next h3 ((i3 ls rfl).trans (.next ?_ .here))))
          simp only [reprStep, loopStep, hlo]
          rw [finishRepr_congr (c := ctxAt F.length) (c' := c2.pop) (by rw [hi, hc]; rfl)]
          rfl

/-- **A thread that prints alone.** -/
theorem repr_alone {showVal : PyVal α → Except Err Str} {h : Heap α} (wf : WFHeap h) {l : Loc} (hl : l < h.length) :
    ∃ ctx' r, (∀ fuel, fuel > h.length → reprModule showVal h fuel l .clean = some (ctx', r)) ∧
      ReprRuns showVal h none (.printing l (.enter l) []) none (.finished l r) := by
  obtain ⟨ctx', r, E, hr, -, -, -, hok, herr⟩ := C70_repr showVal wf hl .clean rfl
  refine ⟨ctx', r, hr, ?_⟩
  have e := hr (h.length + 1) (Nat.lt_succ_self _)
  have hlo : h[l]? = some h[l] := List.getElem?_eq_getElem hl
  generalize h[l] = o at hlo
  rw [reprModule] at e
  simp only [hlo, ReprCtx.clean, Option.getD_none, Option.isNone_none, List.not_mem_nil, if_true, if_false] at e
  have h0 : reprStep showVal h l none (.enter l) ([] : List (ReprFrame α)) = (none, .printing l (.create l) []) := rfl
  have h1 : reprStep showVal h l none (.create l) ([] : List (ReprFrame α)) = (some [], .printing l (.test l true) []) := rfl
  have h2 : reprStep showVal h l (some []) (.test l true) ([] : List (ReprFrame α)) = (some [], .printing l (.add l true) []) := by
    simp [reprStep, hlo]
  have h3 : reprStep showVal h l (some []) (.add l true) ([] : List (ReprFrame α)) = (some ([] ++ [o.uid]), .printing l .loop [⟨l, true, o.attrs, []⟩]) := by
    simp only [reprStep, hlo]
  have hsub : ∀ r n, (n, Attr.ref r) ∈ o.attrs → SubRuns showVal h (reprModule showVal h h.length) r := by
    intro r n hn
    refine reprModule_runs wf (wf.refs l n r ?_)
    rw [attrAt, hlo]
    exact mem_dget (wf.nodup l o hlo) hn
  cases he : reprElems (reprModule showVal h h.length) showVal o.attrs
      ({ indent := [[]], seen := some ([] ++ [o.uid]), expanded := [] ++ [l] } : ReprCtx).push with
  | none => rw [he] at e; cases e
  | some z =>
    obtain ⟨c2, y⟩ := z
    rw [he] at e
    obtain ⟨i1, i2, i3, i4⟩ := reprElems_runs l l true [] hsub [] (by rfl) rfl he
    cases y with
    | error er =>
      cases e
      obtain ⟨G, f, g1, g2, g3⟩ := i4 _ rfl
      refine .next h0 (.next h1 (.next h2 (.next h3 (g3.trans (.next ?_ .here)))))
      simp [reprStep, g2]
    | ok ls =>
      cases e
      have hf : finishRepr ({ c2 with seen := none } : ReprCtx).pop o.cls.name [] ls = finishRepr (ctxAt 0) o.cls.name [] ls :=
        finishRepr_congr (by
          show c2.indent.tail = [[]]
          rw [i1]; rfl) ..
      refine .next h0 (.next h1 (.next h2 (.next h3 ((i3 ls rfl).trans (.next (s1 := none)
        (st1 := .printing l (.ret (finishRepr (ctxAt 0) o.cls.name [] ls)) []) ?_ (.next ?_ .here))))))
      · simp only [reprStep, loopStep, hlo]
        rfl
      · rw [hf]; rfl

end Nnx
