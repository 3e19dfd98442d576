import Verif.Spec.Repr
import Verif.Props.Repr
/-
C70: the text of `repr(module)`.
-/
namespace Nnx
variable {α : Type}

theorem reindent_eq (depth : Nat) : ∀ s, reindent (margin depth) s = shifted depth s
  | [] => rfl
  | c :: s => by
    rw [reindent, reindent_eq depth s]
    simp only [shifted, List.flatMap_cons]
    split <;> rfl

theorem joinElems_eq : ∀ ls : List Str, joinElems ls = List.intercalate (py! ",\n") ls
  | [] => rfl
  | [e] => by simp [joinElems, List.intercalate]
  | e :: f :: es => by
    rw [joinElems, joinElems_eq (f :: es)]
    · simp [List.intercalate, List.intersperse]
    · simp

theorem joinElems_ne_nil {e : Str} {es : List Str} (h : e ≠ []) : joinElems (e :: es) ≠ [] := by
  cases es with
  | nil => simpa [joinElems] using h
  | cons f es =>
    rw [joinElems]
    · simp [h]
    · simp

theorem finishRepr_eq {ctx : ReprCtx} {depth : Nat} (hd : ctx.top = margin depth) (name : Str) {lines : List Str}
    (hl : ∀ e ∈ lines, e ≠ []) : finishRepr ctx name [] lines = bracketed depth name lines := by
  cases lines with
  | nil => simp [finishRepr, bracketed, joinElems]
  | cons e es =>
    have := joinElems_ne_nil (es := es) (hl e (by simp))
    rw [finishRepr, bracketed, if_neg this, if_neg (by simp), hd, joinElems_eq]
    simp

theorem push_top {ctx : ReprCtx} {depth : Nat} (hd : ctx.top = margin depth) : ctx.push.top = margin (depth + 1) := by
  show ctx.top ++ py! "  " = _
  rw [hd, margin, margin, show 2 * (depth + 1) = 2 * depth + 2 by omega, List.replicate_add]
  rfl

theorem containerElems_text {showVal : PyVal α → Except Err Str} {ctx : ReprCtx} {depth : Nat} (hd : ctx.top = margin depth) :
    ∀ {fs : List (Str × PyVal α)} {ls}, containerElems showVal ctx fs = .ok ls → ∃ texts,
      List.Forall₂ (fun nv t => showVal nv.2 = .ok t) fs texts ∧
      ls = List.zipWith (fun (nv : Str × PyVal α) t => margin depth ++ nv.1 ++ py! "=" ++ shifted depth t) fs texts
  | [], ls, h => by cases h; exact ⟨[], .nil, rfl⟩
  | (name, v) :: rest, ls, h => by
    rw [containerElems] at h
    split at h
    · cases h
    · rename_i s hs
      split at h
      · cases h
      · rename_i ls' hls
        cases h
        obtain ⟨ts, h1, h2⟩ := containerElems_text hd hls
        refine ⟨s :: ts, .cons hs h1, ?_⟩
        rw [List.zipWith_cons_cons, ← h2, elemLine, hd, reindent_eq]
        rfl

theorem showAttr_text {showVal : PyVal α → Except Err Str} {sub : Loc → ReprCtx → Option (ReprCtx × Except Err Str)}
    {ctx ctx' : ReprCtx} {depth : Nat} (hd : ctx.top = margin depth) {v : PyVal α} {s : Str}
    (h : showAttr sub showVal ctx (.val v) = some (ctx', .ok s)) (name : Str) :
    ctx' = ctx ∧ ∃ text, ValueText (fun v t => showVal v = .ok t) depth v text ∧
      elemLine ctx (Attr.val v).representable name s = margin depth ++ name ++ py! "=" ++ text := by
  have other : ∀ v : PyVal α, (∀ s, v ≠ .str s) → v.isContainer = false → some (ctx, showVal v) = some (ctx', .ok s) →
      ctx' = ctx ∧ ∃ text, ValueText (fun v t => showVal v = .ok t) depth v text ∧
      elemLine ctx false name s = margin depth ++ name ++ py! "=" ++ text := by
    intro v h1 h2 hv
    simp only [Option.some.injEq, Prod.mk.injEq] at hv
    obtain ⟨rfl, hv⟩ := hv
    refine ⟨rfl, _, .other h1 h2 hv, ?_⟩
    rw [elemLine, hd, reindent_eq]
    rfl
  cases v with
  | str s' =>
    simp only [showAttr, Option.some.injEq, Prod.mk.injEq, Except.ok.injEq] at h
    obtain ⟨rfl, rfl⟩ := h
    refine ⟨rfl, _, .str s', ?_⟩
    rw [elemLine, hd, Attr.representable, reindent_eq]
    · rfl
    · simp
  | cont c v md =>
    simp only [showAttr, Option.some.injEq] at h
    rw [reprContainer] at h
    split at h
    · cases h
    · rename_i ls hls
      simp only [Prod.mk.injEq, Except.ok.injEq] at h
      obtain ⟨h1, h2⟩ := h
      rw [push_pop] at h1 h2
      subst h1
      obtain ⟨ts, t1, t2⟩ := containerElems_text (push_top hd) hls
      refine ⟨rfl, _, .container t1, ?_⟩
      rw [← t2, ← h2, elemLine, hd, finishRepr_eq hd]
      · rfl
      · intro e he
        rw [t2, List.mem_iff_getElem?] at he
        obtain ⟨i, hi⟩ := he
        rw [List.getElem?_zipWith_eq_some] at hi
        obtain ⟨a, b, -, -, rfl⟩ := hi
        simp
  | none => exact other _ (by simp) rfl h
  | data c a => exact other _ (by simp) rfl h
  | tup l => exact other _ (by simp) rfl h
  | cmeta a b => exact other _ (by simp) rfl h
  | tree c l => exact other _ (by simp) rfl h
  | dict l => exact other _ (by simp) rfl h

theorem reprElems_text {showVal : PyVal α → Except Err Str} {h : Heap α}
    {sub : Loc → ReprCtx → Option (ReprCtx × Except Err Str)} {depth : Nat} : ∀ {attrs : List (Str × Attr α)},
    (∀ n r, (n, Attr.ref r) ∈ attrs → r < h.length) →
    (∀ r, r < h.length → ∀ ctx ctx' S s, ctx.top = margin depth → ctx.seen = some (S.map (uidAt h)) → (∀ a ∈ S, a < h.length) →
      sub r ctx = some (ctx', .ok s) →
      ∃ S', ModuleText (fun v t => showVal v = .ok t) h depth S r s S' ∧ ctx'.seen = some (S'.map (uidAt h)) ∧
        (∀ a ∈ S', a < h.length) ∧ ctx'.indent = ctx.indent) →
    ∀ {ctx ctx' : ReprCtx} {S : List Loc} {ls : List Str}, ctx.top = margin depth → ctx.seen = some (S.map (uidAt h)) →
      (∀ a ∈ S, a < h.length) → reprElems sub showVal attrs ctx = some (ctx', .ok ls) →
      ∃ S', AttrLines (fun v t => showVal v = .ok t) h depth S attrs ls S' ∧ ctx'.seen = some (S'.map (uidAt h)) ∧
        (∀ a ∈ S', a < h.length) ∧ ctx'.indent = ctx.indent ∧ ∀ e ∈ ls, e ≠ []
  | [], _, _, ctx, ctx', S, ls, _, hs, hS, e => by
    cases e
    exact ⟨S, .nil, hs, hS, rfl, by simp⟩
  | (name, a) :: rest, hrefs, hsub, ctx, ctx', S, ls, hd, hs, hS, e => by
    rw [reprElems] at e
    split at e
    · next hl =>
      obtain ⟨S', h1, h2⟩ := reprElems_text (fun n r hr => hrefs n r (by simp [hr])) hsub hd hs hS e
      cases a with
      | ref r => cases hl
      | val v =>
        refine ⟨S', .hidden ?_ h1, h2⟩
        simp only [listed, Bool.and_eq_false_iff, Bool.not_eq_false', beq_iff_eq] at hl
        exact hl
    · next hl =>
      split at e
      · cases e
      · cases e
      · next ctx1 s hshow =>
        cases hrest : reprElems sub showVal rest ctx1 with
        | none => rw [hrest] at e; cases e
        | some z =>
          obtain ⟨ctx2, x⟩ := z
          rw [hrest] at e
          cases x with
          | error err => cases e
          | ok ls' =>
            simp only [consLine, Option.some.injEq, Prod.mk.injEq, Except.ok.injEq] at e
            obtain ⟨rfl, rfl⟩ := e
            cases a with
            | ref r =>
              obtain ⟨S1, m1, m2, m3, m4⟩ := hsub r (hrefs name r (by simp)) ctx ctx1 S s hd hs hS hshow
              have hd1 : ctx1.top = margin depth := by rw [ReprCtx.top, m4]; exact hd
              obtain ⟨S2, r1, r2, r3, r4, r5⟩ := reprElems_text (fun n r hr => hrefs n r (by simp [hr])) hsub hd1 m2 m3 hrest
              have hline : elemLine ctx1 (Attr.ref r : Attr α).representable name s = margin depth ++ name ++ py! "=" ++ s := by
                rw [elemLine, hd1]; rfl
              refine ⟨S2, ?_, r2, r3, r4.trans m4, ?_⟩
              · rw [hline]; exact .submodule m1 r1
              · intro e he
                rcases List.mem_cons.1 he with rfl | he
                · rw [hline]; simp
                · exact r5 e he
            | val v =>
              obtain ⟨rfl, text, t1, t2⟩ := showAttr_text hd hshow name
              obtain ⟨S2, r1, r2, r3, r4, r5⟩ := reprElems_text (fun n r hr => hrefs n r (by simp [hr])) hsub hd hs hS hrest
              have hl' : v.isNode = false ∧ name.head? ≠ some '_' := by
                simp only [listed, Bool.and_eq_false_iff, Bool.not_eq_false', beq_iff_eq, not_or, Bool.not_eq_true] at hl
                exact hl
              refine ⟨S2, ?_, r2, r3, r4, ?_⟩
              · rw [t2]; exact .value hl'.1 hl'.2 t1 r1
              · intro e he
                rcases List.mem_cons.1 he with rfl | he
                · rw [t2]; simp
                · exact r5 e he

theorem reprModule_text {showVal : PyVal α → Except Err Str} {h : Heap α} (wf : WFHeap h) : ∀ {fuel : Nat} {l : Loc}, l < h.length →
    ∀ {depth : Nat} {ctx ctx' : ReprCtx} {S : List Loc} {s : Str}, ctx.top = margin depth →
      ctx.seen.getD [] = S.map (uidAt h) → (∀ a ∈ S, a < h.length) → reprModule showVal h fuel l ctx = some (ctx', .ok s) →
      ∃ S', ModuleText (fun v t => showVal v = .ok t) h depth S l s S' ∧
        (ctx.seen ≠ none → ctx'.seen = some (S'.map (uidAt h))) ∧ (∀ a ∈ S', a < h.length) ∧ ctx'.indent = ctx.indent
  | 0, _, _, _, _, _, _, _, _, _, _, e => by cases e
  | fuel + 1, l, hl, depth, ctx, ctx', S, s, hd, hs, hS, e => by
    have hlo : h[l]? = some h[l] := List.getElem?_eq_getElem hl
    generalize h[l] = o at hlo
    have hmem : o.uid ∈ S.map (uidAt h) ↔ l ∈ S := by
      rw [← uidAt_of hlo]
      constructor
      · intro hm
        obtain ⟨a, ha, hu⟩ := List.mem_map.1 hm
        have hlt := hS a ha
        have h1 : h[a]? = some h[a] := List.getElem?_eq_getElem hlt
        have := wf.uids a l _ _ h1 hlo (by rw [← uidAt_of h1, ← uidAt_of hlo]; exact hu)
        rw [← this]; exact ha
      · exact fun hm => List.mem_map_of_mem hm
    rw [reprModule, hlo] at e
    simp only [hs] at e
    by_cases hin : o.uid ∈ S.map (uidAt h)
    · rw [if_pos hin] at e
      simp only [Option.some.injEq, Prod.mk.injEq, Except.ok.injEq] at e
      obtain ⟨rfl, rfl⟩ := e
      refine ⟨S, ?_, fun _ => rfl, hS, rfl⟩
      have : finishRepr ({ ctx with seen := some (S.map (uidAt h)) }.push).pop o.cls.name (py! "...") [] =
          o.cls.name ++ py! "(...)" := by simp [finishRepr, joinElems]
      rw [this]
      exact .again hlo (hmem.1 hin)
    · rw [if_neg hin] at e
      split at e
      · cases e
      · cases e
      · next ctx2 elems hel =>
        simp only [Option.some.injEq, Prod.mk.injEq, Except.ok.injEq] at e
        obtain ⟨e1, e2⟩ := e
        obtain ⟨S', a1, a2, a3, a4, a5⟩ := reprElems_text (h := h) (depth := depth + 1) (S := S ++ [l]) (by
            intro n r hr
            exact wf.refs l n r (by rw [attrAt, hlo]; exact (dget_iff_mem (wf.nodup l o hlo)).2 hr))
          (by
            intro r hr c c' T t hc1 hc2 hc3 hc4
            obtain ⟨T', t1, t2, t3, t4⟩ := reprModule_text (showVal := showVal) wf (fuel := fuel) hr hc1
              (by rw [hc2]; rfl) hc3 hc4
            exact ⟨T', t1, t2 (by rw [hc2]; simp), t3, t4⟩)
          (ctx := { ctx with seen := some (S.map (uidAt h) ++ [o.uid]), expanded := ctx.expanded ++ [l] }.push)
          (push_top (ctx := { ctx with seen := some (S.map (uidAt h) ++ [o.uid]), expanded := ctx.expanded ++ [l] }) hd)
          (by rw [List.map_append, List.map_singleton, uidAt_of hlo]; rfl)
          (by
            intro a ha
            rcases List.mem_append.1 ha with ha | ha
            · exact hS a ha
            · rw [List.mem_singleton.1 ha]; exact hl) hel
        have hpop : ctx2.pop.indent = ctx.indent := by
          rw [ReprCtx.pop, a4]; rfl
        have htop : ∀ c : ReprCtx, c.indent = ctx2.indent → c.pop.top = margin depth := by
          intro c hc
          have : c.pop.indent = ctx.indent := by rw [ReprCtx.pop, hc]; exact hpop
          rw [ReprCtx.top, this]; exact hd
        refine ⟨S', ?_, ?_, a3, ?_⟩
        · rw [← e2, finishRepr_eq (htop _ (by split <;> rfl)) _ a5]
          exact .first hlo (fun hm => hin (hmem.2 hm)) a1
        · intro hne
          rw [← e1]
          cases hc : ctx.seen with
          | none => exact absurd hc hne
          | some x => simp only [Option.isNone_some, Bool.false_eq_true, if_false]; exact a2
        · rw [← e1, ← hpop]
          split <;> rfl

/-- **C70, text.** When nothing is being printed and `repr(module)` succeeds, its text is: the class name and in parentheses a line for
every submodule and for every value that is neither a node nor private, in the order of the attributes, indented by two spaces per
level; a Module that was printed before is abbreviated to `Name(...)`. -/
theorem C70_text (showVal : PyVal α → Except Err Str) {h : Heap α} (wf : WFHeap h) {l : Loc} (hl : l < h.length) {fuel : Nat}
    {ctx' : ReprCtx} {s : Str} (e : reprModule showVal h fuel l .clean = some (ctx', .ok s)) :
    ∃ seen', ModuleText (fun v t => showVal v = .ok t) h 0 [] l s seen' := by
  obtain ⟨S', h1, -⟩ := reprModule_text (showVal := showVal) wf hl (depth := 0) (ctx := .clean) (S := []) rfl rfl (by simp) e
  exact ⟨S', h1⟩

/-- The text of the example: two Modules that refer to each other, and one that is shared. -/
example : ∃ seen', ModuleText (fun v t => exShow v = .ok t) exReprHeap 0 [] 0
    (py! "A(\n  b=B(\n    parent=A(...),\n    c=C()\n  ),\n  n=3,\n  c=C(...)\n)") seen' := by
  obtain ⟨c, hc⟩ : ∃ c, reprModule exShow exReprHeap 4 0 .clean =
      some (c, .ok (py! "A(\n  b=B(\n    parent=A(...),\n    c=C()\n  ),\n  n=3,\n  c=C(...)\n)")) := ⟨⟨[[]], none, [0, 1, 2]⟩, by decide +kernel⟩
  exact C70_text exShow exReprHeap_wf (by decide) hc

/-- The whole text of a graph with a cycle and a shared module. -/
example : (reprModule exShow exReprHeap 4 0 .clean).map (fun r => (r.1, r.2.toOption)) =
    some (⟨[[]], none, [0, 1, 2]⟩, some (py! "A(\n  b=B(\n    parent=A(...),\n    c=C()\n  ),\n  n=3,\n  c=C(...)\n)")) := by
  decide +kernel

end Nnx
