import Verif.Model.Repr
import Verif.Proofs.Dfs
/-
C70: `repr` of a Module.
-/
namespace Nnx
variable {α : Type}

/-- What a part of the printing does: it lists Modules `E`, none of them seen before. -/
structure Printed (h : Heap α) (start : Loc → Prop) (ctx ctx' : ReprCtx) (S : List Nat) (ok : Bool) (E : List Loc) : Prop where
  indent : ctx'.indent = ctx.indent
  expanded : ctx'.expanded = ctx.expanded ++ E
  seen : ctx'.seen = some (S ++ E.map (uidAt h))
  nodup : (E.map (uidAt h)).Nodup
  fresh : ∀ u ∈ E.map (uidAt h), u ∉ S
  sound : ∀ e ∈ E, ∃ r, start r ∧ Reaches h r e
  closed : ok = true → ∀ e ∈ E, ∀ n b, attrAt h e n = some (.ref b) → uidAt h b ∈ S ++ E.map (uidAt h)
  roots : ok = true → ∀ r, start r → uidAt h r ∈ S ++ E.map (uidAt h)

theorem push_pop (ctx : ReprCtx) : ctx.push.pop = ctx := rfl

theorem reprContainer_ctx (showVal : PyVal α → Except Err Str) (c : Cls) (v : PyVal α) (m : Md α) (ctx : ReprCtx) :
    (reprContainer showVal c v m ctx).1 = ctx := by
  unfold reprContainer
  split <;> rfl

theorem Printed.nothing {h : Heap α} {start : Loc → Prop} {ctx : ReprCtx} {S : List Nat} (hs : ctx.seen = some S) {ok : Bool}
    (hr : ok = true → ∀ r, start r → uidAt h r ∈ S) : Printed h start ctx ctx S ok [] :=
  ⟨rfl, by simp, by simpa using hs, by simp, by simp, by simp, by simp, by simpa using hr⟩

/-- One part after another. -/
theorem Printed.trans {h : Heap α} {s1 s2 start : Loc → Prop} {c1 c2 c3 : ReprCtx} {S : List Nat} {ok : Bool} {E1 E2 : List Loc}
    (p1 : Printed h s1 c1 c2 S true E1) (p2 : Printed h s2 c2 c3 (S ++ E1.map (uidAt h)) ok E2)
    (h1 : ∀ r, s1 r → start r) (h2 : ∀ r, s2 r → start r) (h3 : ∀ r, start r → s1 r ∨ s2 r) :
    Printed h start c1 c3 S ok (E1 ++ E2) := by
  refine ⟨p2.indent.trans p1.indent, by rw [p2.expanded, p1.expanded, List.append_assoc],
    by rw [p2.seen, List.map_append, List.append_assoc], ?_, ?_, ?_, ?_, ?_⟩
  · rw [List.map_append, List.nodup_append]
    refine ⟨p1.nodup, p2.nodup, ?_⟩
    rintro a ha b hb rfl
    exact p2.fresh _ hb (List.mem_append_right _ ha)
  · intro u hu
    rw [List.map_append, List.mem_append] at hu
    rcases hu with hu | hu
    · exact p1.fresh u hu
    · intro hS; exact p2.fresh u hu (List.mem_append_left _ hS)
  · intro e he
    rcases List.mem_append.1 he with he | he
    · obtain ⟨r, hr, hr'⟩ := p1.sound e he
      exact ⟨r, h1 r hr, hr'⟩
    · obtain ⟨r, hr, hr'⟩ := p2.sound e he
      exact ⟨r, h2 r hr, hr'⟩
  · intro hok e he n b hb
    rw [List.map_append, ← List.append_assoc]
    rcases List.mem_append.1 he with he | he
    · exact List.mem_append_left _ (p1.closed rfl e he n b hb)
    · exact p2.closed hok e he n b hb
  · intro hok r hr
    rw [List.map_append, ← List.append_assoc]
    rcases h3 r hr with hr | hr
    · exact List.mem_append_left _ (p1.roots rfl r hr)
    · exact p2.roots hok r hr

/-- A part that raised: what follows is not printed. -/
theorem Printed.raised {h : Heap α} {s1 start : Loc → Prop} {c1 c2 : ReprCtx} {S : List Nat} {E : List Loc}
    (p : Printed h s1 c1 c2 S false E) (h1 : ∀ r, s1 r → start r) : Printed h start c1 c2 S false E :=
  ⟨p.indent, p.expanded, p.seen, p.nodup, p.fresh, fun e he => by
    obtain ⟨r, hr, hr'⟩ := p.sound e he
    exact ⟨r, h1 r hr, hr'⟩, fun h => (by cases h), fun h => (by cases h)⟩

def isOk {ε β : Type} : Except ε β → Bool
  | .ok _ => true
  | .error _ => false

theorem consLine_printed {h : Heap α} {start : Loc → Prop} {c c' : ReprCtx} {S : List Nat} {x : Except Err (List Str)}
    {E : List Loc} (line : Str) (p : Printed h start c c' S (isOk x) E) :
    ∃ x', consLine line (some (c', x)) = some (c', x') ∧ Printed h start c c' S (isOk x') E := by
  cases x with
  | error e => exact ⟨_, rfl, p⟩
  | ok ls => exact ⟨_, rfl, p⟩

/-- What printing one attribute does. -/
theorem showAttr_printed {showVal : PyVal α → Except Err Str} {h : Heap α}
    {sub : Loc → ReprCtx → Option (ReprCtx × Except Err Str)} {fuel : Nat} {a : Attr α} {ctx : ReprCtx} {S : List Nat}
    (hsub : ∀ r, a = .ref r → ∀ ctx S, ctx.seen = some S → (unseen h S).length < fuel →
      ∃ ctx' x E, sub r ctx = some (ctx', x) ∧ Printed h (· = r) ctx ctx' S (isOk x) E)
    (hs : ctx.seen = some S) (hf : (unseen h S).length < fuel) :
    ∃ ctx' x E, showAttr sub showVal ctx a = some (ctx', x) ∧ Printed h (fun r => a = .ref r) ctx ctx' S (isOk x) E := by
  cases a with
  | ref l =>
    obtain ⟨c, x, E, e, p⟩ := hsub l rfl ctx S hs hf
    refine ⟨c, x, E, e, p.indent, p.expanded, p.seen, p.nodup, p.fresh, fun e he => ?_, p.closed, fun hok r hr => ?_⟩
    · obtain ⟨r, rfl, hr'⟩ := p.sound e he
      exact ⟨r, rfl, hr'⟩
    · cases hr; exact p.roots hok l rfl
  | val v =>
    have hn : ∀ ok, Printed h (fun r => Attr.val v = .ref r) ctx ctx S ok [] := fun ok => .nothing hs (by intro _ r h; cases h)
    cases v with
    | cont c v m =>
      refine ⟨ctx, (reprContainer showVal c v m ctx).2, [], ?_, hn _⟩
      rw [showAttr]
      exact congrArg some (Prod.ext (reprContainer_ctx showVal c v m ctx) rfl)
    | _ => exact ⟨_, _, [], rfl, hn _⟩

/-- Printing a list of attributes, if printing the Modules among them works. -/
theorem reprElems_printed {showVal : PyVal α → Except Err Str} {h : Heap α}
    {sub : Loc → ReprCtx → Option (ReprCtx × Except Err Str)} {fuel : Nat} : ∀ {attrs : List (Str × Attr α)},
    (∀ r, (∃ n, (n, Attr.ref r) ∈ attrs) → ∀ ctx S, ctx.seen = some S → (unseen h S).length < fuel →
      ∃ ctx' x E, sub r ctx = some (ctx', x) ∧ Printed h (· = r) ctx ctx' S (isOk x) E) →
    ∀ ctx S, ctx.seen = some S → (unseen h S).length < fuel →
      ∃ ctx' x E, reprElems sub showVal attrs ctx = some (ctx', x) ∧
        Printed h (fun r => ∃ n, (n, Attr.ref r) ∈ attrs) ctx ctx' S (isOk x) E
  | [], _, ctx, S, hs, _ => ⟨ctx, .ok [], [], rfl, .nothing hs (by rintro _ r ⟨n, hn⟩; cases hn)⟩
  | (name, a) :: rest, hsub, ctx, S, hs, hf => by
    have ih := reprElems_printed (showVal := showVal) (attrs := rest) (fun r ⟨n, hn⟩ => hsub r ⟨n, List.mem_cons_of_mem _ hn⟩)
    have back : ∀ r, (∃ n, (n, Attr.ref r) ∈ rest) → ∃ n, (n, Attr.ref r) ∈ (name, a) :: rest :=
      fun r ⟨n, hn⟩ => ⟨n, List.mem_cons_of_mem _ hn⟩
    have here : ∀ r, a = .ref r → ∃ n, (n, Attr.ref r) ∈ (name, a) :: rest := by
      rintro r rfl; exact ⟨name, by simp⟩
    have both : ∀ r, (∃ n, (n, Attr.ref r) ∈ (name, a) :: rest) → a = .ref r ∨ ∃ n, (n, Attr.ref r) ∈ rest := by
      rintro r ⟨n, hn⟩
      rcases List.mem_cons.1 hn with hn | hn
      · cases hn; exact .inl rfl
      · exact .inr ⟨n, hn⟩
    rw [reprElems]
    by_cases hl : listed name a = false
    · rw [if_pos hl]
      obtain ⟨ctx', x, E, he, hp⟩ := ih ctx S hs hf
      have hne : ∀ r, a ≠ .ref r := by rintro r rfl; cases hl
      exact ⟨ctx', x, E, he, hp.indent, hp.expanded, hp.seen, hp.nodup, hp.fresh, fun e he => by
        obtain ⟨r, hr, hr'⟩ := hp.sound e he
        exact ⟨r, back r hr, hr'⟩, hp.closed, fun hok r hr => hp.roots hok r ((both r hr).resolve_left (hne r))⟩
    · rw [if_neg hl]
      obtain ⟨c1, x1, E1, e1, p1⟩ := showAttr_printed (showVal := showVal) (fun r hr => hsub r (here r hr)) hs hf
      rw [e1]
      cases x1 with
      | error e => exact ⟨c1, .error e, E1, rfl, p1.raised here⟩
      | ok s =>
        have hf' : (unseen h (S ++ E1.map (uidAt h))).length < fuel :=
          Nat.lt_of_le_of_lt (unseen_mono (fun u hu => List.mem_append_left _ hu)) hf
        obtain ⟨c2, x2, E2, e2, p2⟩ := ih c1 _ p1.seen hf'
        simp only [e2]
        obtain ⟨x', e', p'⟩ := consLine_printed (elemLine c1 a.representable name s) (p1.trans p2 here back both)
        exact ⟨c2, x', _, e', p'⟩

/-- Printing a Module while others are being printed. -/
theorem reprModule_printed {showVal : PyVal α → Except Err Str} {h : Heap α} (wf : WFHeap h) : ∀ {fuel : Nat} {l : Loc},
    l < h.length → ∀ ctx S, ctx.seen = some S → (unseen h S).length < fuel →
      ∃ ctx' x E, reprModule showVal h fuel l ctx = some (ctx', x) ∧ Printed h (· = l) ctx ctx' S (isOk x) E
  | 0, _, _, _, _, _, hf => absurd hf (Nat.not_lt_zero _)
  | fuel + 1, l, hl, ctx, S, hs, hf => by
    have hlo : h[l]? = some h[l] := List.getElem?_eq_getElem hl
    generalize h[l] = o at hlo
    have hu := uidAt_of hlo
    rw [reprModule]
    simp only [hlo, hs, Option.getD_some, Option.isNone_some, Bool.false_eq_true, if_false]
    by_cases hm : o.uid ∈ S
    · rw [if_pos hm]
      refine ⟨_, _, [], rfl, ?_⟩
      refine ⟨rfl, by simp [push_pop], by simp [push_pop], by simp, by simp, by simp, by simp, ?_⟩
      rintro _ r rfl
      simpa [hu] using hm
    · rw [if_neg hm]
      have hsub : ∀ r, (∃ n, (n, Attr.ref r) ∈ o.attrs) → ∀ ctx S, ctx.seen = some S → (unseen h S).length < fuel →
          ∃ ctx' x E, reprModule showVal h fuel r ctx = some (ctx', x) ∧ Printed h (· = r) ctx ctx' S (isOk x) E := by
        rintro r ⟨n, hn⟩
        refine reprModule_printed wf (wf.refs l n r ?_)
        rw [attrAt, hlo]
        exact mem_dget (wf.nodup l o hlo) hn
      have hf' : (unseen h (S ++ [o.uid])).length < fuel := by
        have := unseen_lt hlo hm
        omega
      obtain ⟨c2, x2, E2, e2, p2⟩ := reprElems_printed (showVal := showVal) hsub
        ({ ctx with seen := some (S ++ [o.uid]), expanded := ctx.expanded ++ [l] } : ReprCtx).push _ rfl hf'
      have hdone : ∀ ok, ok = isOk x2 → Printed h (· = l) ctx c2.pop S ok (l :: E2) := by
        rintro ok rfl
        refine ⟨?_, ?_, ?_, ?_, ?_, ?_, ?_, ?_⟩
        · show c2.indent.tail = ctx.indent
          rw [p2.indent]; rfl
        · show c2.expanded = _
          rw [p2.expanded]
          show (ctx.expanded ++ [l]) ++ E2 = _
          simp
        · show c2.seen = _
          rw [p2.seen]; simp [hu]
        · rw [List.map_cons, List.nodup_cons]
          refine ⟨fun hin => p2.fresh _ hin (by simp [hu]), p2.nodup⟩
        · intro u huE
          rw [List.map_cons, List.mem_cons] at huE
          rcases huE with rfl | huE
          · rw [hu]; exact hm
          · intro hS; exact p2.fresh u huE (List.mem_append_left _ hS)
        · intro e he
          rcases List.mem_cons.1 he with rfl | he
          · exact ⟨e, rfl, [], .here hl⟩
          · obtain ⟨r, ⟨n, hn⟩, p, hp⟩ := p2.sound e he
            refine ⟨l, rfl, n :: p, .step ?_ hp⟩
            rw [attrAt, hlo]
            exact mem_dget (wf.nodup l o hlo) hn
        · intro hok e he n b hb
          have e3 : S ++ (l :: E2).map (uidAt h) = (S ++ [o.uid]) ++ E2.map (uidAt h) := by simp [hu]
          rw [e3]
          rcases List.mem_cons.1 he with rfl | he
          · apply p2.roots hok
            rw [attrAt, hlo] at hb
            exact ⟨n, dget_mem hb⟩
          · exact p2.closed hok e he n b hb
        · rintro _ r rfl
          simp
      rw [e2]
      cases x2 with
      | error e => exact ⟨_, .error e, _, rfl, hdone _ rfl⟩
      | ok ls => exact ⟨_, .ok _, _, rfl, hdone _ rfl⟩

/-! ### More fuel changes nothing -/

theorem consLine_mono {line : Str} {x y : Option (ReprCtx × Except Err (List Str))} {r}
    (h : ∀ z, x = some z → y = some z) (e : consLine line x = some r) : consLine line y = some r := by
  cases x with
  | none => cases e
  | some z => rw [h z rfl]; exact e

theorem showAttr_mono {showVal : PyVal α → Except Err Str} {s1 s2 : Loc → ReprCtx → Option (ReprCtx × Except Err Str)}
    (hs : ∀ l ctx r, s1 l ctx = some r → s2 l ctx = some r) (ctx : ReprCtx) (a : Attr α) :
    ∀ r, showAttr s1 showVal ctx a = some r → showAttr s2 showVal ctx a = some r := by
  cases a with
  | ref l => exact fun r h => hs l ctx r h
  | val v => cases v <;> exact fun r h => h

theorem reprElems_mono {showVal : PyVal α → Except Err Str} {s1 s2 : Loc → ReprCtx → Option (ReprCtx × Except Err Str)}
    (hs : ∀ l ctx r, s1 l ctx = some r → s2 l ctx = some r) : ∀ {attrs : List (Str × Attr α)} {ctx r},
    reprElems s1 showVal attrs ctx = some r → reprElems s2 showVal attrs ctx = some r
  | [], _, _, h => h
  | (name, a) :: rest, ctx, r, h => by
    rw [reprElems] at h ⊢
    by_cases hl : listed name a = false
    · rw [if_pos hl] at h ⊢
      exact reprElems_mono hs h
    · rw [if_neg hl] at h ⊢
      have h1 := showAttr_mono (showVal := showVal) hs ctx a
      cases hx : showAttr s1 showVal ctx a with
      | none => rw [hx] at h; cases h
      | some y =>
        rw [hx] at h
        rw [h1 _ hx]
        obtain ⟨c, y⟩ := y
        cases y with
        | error e => exact h
        | ok s =>
          exact consLine_mono (fun z hz => reprElems_mono hs hz) h

theorem reprModule_mono {showVal : PyVal α → Except Err Str} {h : Heap α} : ∀ {fuel : Nat} {l : Loc} {ctx r},
    reprModule showVal h fuel l ctx = some r → reprModule showVal h (fuel + 1) l ctx = some r
  | 0, _, _, _, e => by cases e
  | fuel + 1, l, ctx, r, e => by
    rw [reprModule] at e ⊢
    cases hl : h[l]? with
    | none => rw [hl] at e; exact e
    | some o =>
      rw [hl] at e
      simp only at e ⊢
      by_cases hm : o.uid ∈ ctx.seen.getD []
      · rw [if_pos hm] at e ⊢; exact e
      · rw [if_neg hm] at e ⊢
        cases he : reprElems (reprModule showVal h fuel) showVal o.attrs
          ({ ctx with seen := some (ctx.seen.getD [] ++ [o.uid]), expanded := ctx.expanded ++ [l] } : ReprCtx).push with
        | none => rw [he] at e; cases e
        | some z =>
          rw [he] at e
          rw [reprElems_mono (s2 := reprModule showVal h (fuel + 1)) (fun _ _ _ h => reprModule_mono h) he]
          exact e

theorem reprModule_mono_le {showVal : PyVal α → Except Err Str} {h : Heap α} {f f' : Nat} (hf : f ≤ f') {l : Loc} {ctx r}
    (e : reprModule showVal h f l ctx = some r) : reprModule showVal h f' l ctx = some r := by
  induction hf with
  | refl => exact e
  | step _ ih => exact reprModule_mono ih

/-- Starting to print: as if an empty set of seen Modules was there, which is removed at the end. -/
theorem reprModule_start (showVal : PyVal α → Except Err Str) (h : Heap α) (fuel : Nat) {l : Loc} (hl : l < h.length) {ctx : ReprCtx}
    (hs : ctx.seen = none) {ctx' : ReprCtx} {x : Except Err Str}
    (e : reprModule showVal h fuel l { ctx with seen := some [] } = some (ctx', x)) :
    ∃ x', reprModule showVal h fuel l ctx = some (if isOk x then { ctx' with seen := none } else ctx', x') ∧ isOk x' = isOk x := by
  cases fuel with
  | zero => cases e
  | succ fuel =>
    have hlo : h[l]? = some h[l] := List.getElem?_eq_getElem hl
    generalize h[l] = o at hlo
    rw [reprModule] at e ⊢
    simp only [hlo, hs, Option.getD_none, Option.getD_some, List.not_mem_nil, if_false, Option.isNone_some, Option.isNone_none,
        Bool.false_eq_true, if_true] at e ⊢
    cases he : reprElems (reprModule showVal h fuel) showVal o.attrs
        ({ ctx with seen := some ([] ++ [o.uid]), expanded := ctx.expanded ++ [l] } : ReprCtx).push with
    | none => rw [he] at e; cases e
    | some z =>
      obtain ⟨c2, z⟩ := z
      rw [he] at e
      cases z with
      | error err =>
        simp only [Option.some.injEq, Prod.mk.injEq] at e
        obtain ⟨rfl, rfl⟩ := e
        exact ⟨_, rfl, rfl⟩
      | ok elems =>
        simp only [Option.some.injEq, Prod.mk.injEq] at e
        obtain ⟨rfl, rfl⟩ := e
        exact ⟨_, rfl, rfl⟩

/-- **C70**. For every module graph, cyclic or not, every Module `l` in it, and every printer state in which nothing is
being printed: `repr` terminates, with the same result however much recursion is allowed beyond the number of Modules.
The Modules whose attributes it lists are distinct and reachable from `l`. If it succeeds, they are all the Modules that
are reachable, and the printer state is what it was before. If it raises, the indentation is what it was before, and so
is the set of seen Modules once the generator is collected. -/
theorem C70_repr (showVal : PyVal α → Except Err Str) {h : Heap α} (wf : WFHeap h) {l : Loc} (hl : l < h.length) (ctx : ReprCtx)
    (hs : ctx.seen = none) :
    ∃ ctx' r E, (∀ fuel, fuel > h.length → reprModule showVal h fuel l ctx = some (ctx', r)) ∧
      ctx'.expanded = ctx.expanded ++ E ∧ E.Nodup ∧ (∀ e ∈ E, Reaches h l e) ∧
      (∀ s, r = .ok s → ctx' = { ctx with expanded := ctx.expanded ++ E } ∧ ∀ e, Reaches h l e → e ∈ E) ∧
      (∀ e, r = .error e → ctx'.indent = ctx.indent ∧ closeGenerator ctx' = { ctx with expanded := ctx.expanded ++ E }) := by
  have hun : (unseen h []).length < h.length + 1 := by
    have : (unseen h []).length ≤ h.length := List.length_filter_le _ _
    omega
  obtain ⟨c, x, E, e, p⟩ := reprModule_printed (showVal := showVal) wf hl { ctx with seen := some [] } [] rfl hun
  obtain ⟨x', e', hx⟩ := reprModule_start showVal h _ hl hs e
  have hinj : ∀ a b, a < h.length → b < h.length → uidAt h a = uidAt h b → a = b := by
    intro a b ha hb hab
    have h1 : h[a]? = some h[a] := List.getElem?_eq_getElem ha
    have h2 : h[b]? = some h[b] := List.getElem?_eq_getElem hb
    exact wf.uids a b _ _ h1 h2 (by rw [← uidAt_of h1, ← uidAt_of h2]; exact hab)
  have hlt : ∀ {a b}, Reaches h a b → b < h.length := by
    rintro a b ⟨q, hq⟩
    induction hq with
    | here h => exact h
    | step _ _ ih => exact ih
  have hreach : ∀ e ∈ E, Reaches h l e := by
    intro e he
    obtain ⟨r, rfl, hr⟩ := p.sound e he
    exact hr
  have hclean : ∀ s, ({ c with seen := s } : ReprCtx) = ⟨ctx.indent, s, ctx.expanded ++ E⟩ := by
    intro s
    have h1 := p.indent
    have h2 := p.expanded
    simp only at h1 h2
    rw [← h1, ← h2]
  have hctx : ctx = ⟨ctx.indent, none, ctx.expanded⟩ := by rw [← hs]
  refine ⟨_, x', E, fun fuel hf => reprModule_mono_le hf e', ?_, ?_, hreach, ?_, ?_⟩
  · split
    · exact p.expanded
    · exact p.expanded
  · have := p.nodup
    rw [List.nodup_iff_pairwise_ne, List.pairwise_map] at this
    exact this.imp (fun hne e => hne (by rw [e]))
  · rintro s rfl
    rw [← hx]
    refine ⟨?_, ?_⟩
    · simp only [isOk, if_true]
      rw [hclean]
      exact congrArg (fun s => ReprCtx.mk ctx.indent s (ctx.expanded ++ E)) hs.symm
    · have hok : isOk x = true := hx.symm
      have hmem : ∀ b, b < h.length → uidAt h b ∈ [] ++ E.map (uidAt h) → b ∈ E := by
        intro b hb hin
        rw [List.nil_append] at hin
        obtain ⟨e, he, heq⟩ := List.mem_map.1 hin
        rw [← hinj e b (hlt (hreach e he)) hb heq]
        exact he
      have hwalk : ∀ a q b, Walk h a q b → a ∈ E → b ∈ E := by
        intro a q b hq
        induction hq with
        | here h => exact id
        | step hat _ ih =>
          intro ha
          exact ih (hmem _ (wf.refs _ _ _ hat) (p.closed hok _ ha _ _ hat))
      rintro b ⟨q, hq⟩
      exact hwalk l q b hq (hmem l hl (p.roots hok l rfl))
  · rintro err rfl
    have hno : isOk x = false := hx.symm
    rw [hno]
    simp only [Bool.false_eq_true, if_false]
    refine ⟨p.indent, ?_⟩
    rw [closeGenerator, hclean]
    exact congrArg (fun s => ReprCtx.mk ctx.indent s (ctx.expanded ++ E)) hs.symm

/-! ### Concrete cases -/

/-- Two Modules that refer to each other, and one that is shared. -/
def exReprHeap : Heap Nat :=
  [⟨{ name := py! "A" }, [(py! "b", .ref 1), (py! "n", .val (.data { name := py! "int" } 3)), (py! "c", .ref 2)], 10, false, ⟨0, 0⟩⟩,
   ⟨{ name := py! "B" }, [(py! "parent", .ref 0), (py! "c", .ref 2)], 11, false, ⟨0, 0⟩⟩,
   ⟨{ name := py! "C" }, [(py! "_hidden", .val (.data { name := py! "int" } 4))], 12, false, ⟨0, 0⟩⟩]

def exShow : PyVal Nat → Except Err Str
  | .data _ n => if n = 99 then .error .typeError else .ok (Nat.toDigits 10 n)
  | _ => .ok []

/-- The hypothesis about the graph holds of it. -/
theorem exReprHeap_wf : WFHeap exReprHeap := by
  have hall : ∀ (l : Loc) (n : Str) (a : Attr Nat), attrAt exReprHeap l n = some a →
      (n, a) ∈ exReprHeap.flatMap (·.attrs) := by
    intro l n a h
    unfold attrAt at h
    split at h
    · next o ho =>
      exact List.mem_flatMap.2 ⟨o, List.mem_of_getElem? ho, dget_mem h⟩
    · cases h
  refine ⟨?_, ?_, ?_, ?_, ?_, ?_⟩
  · intro l o h
    exact (by decide : ∀ o ∈ exReprHeap, DNodup o.attrs) o (List.mem_of_getElem? h)
  · intro l n l' h
    exact (by decide : ∀ na ∈ exReprHeap.flatMap (·.attrs), ∀ l' < 10, na.2 = .ref l' → l' < 3) _ (hall _ _ _ h) l'
      (by
        have := hall _ _ _ h
        simp [exReprHeap] at this
        rcases this with h | h | h | h <;> rw [h.2] <;> decide) rfl
  · intro l l' o o' h h' e
    have hlt := (List.getElem?_eq_some_iff.1 h).1
    have hlt' := (List.getElem?_eq_some_iff.1 h').1
    have := (by decide : ∀ i < 3, ∀ j < 3, (exReprHeap[i]?.map (·.uid)) = (exReprHeap[j]?.map (·.uid)) → i = j) l hlt l' hlt'
    apply this
    rw [h, h', Option.map_some, Option.map_some, e]
  · intro l n c v m h
    have := hall _ _ _ h
    simp [exReprHeap] at this
  · intro l n a h
    exact (by unfold NoSlash; decide : ∀ na ∈ exReprHeap.flatMap (·.attrs), NoSlash na.1) _ (hall _ _ _ h)
  · intro l n a h
    exact (by decide : ∀ na ∈ exReprHeap.flatMap (·.attrs), isReserved na.1 = false) _ (hall _ _ _ h)

/-- **C70 fails** while an exception that passed through `repr` is being handled: the set of seen Modules is still there, and
printing the same Module again shows nothing of it. -/
theorem C70_stale_seen :
    let h : Heap Nat := [⟨{ name := py! "A" }, [(py! "n", .val (.data { name := py! "int" } 99)),
      (py! "k", .val (.data { name := py! "int" } 1))], 10, false, ⟨0, 0⟩⟩]
    let r := reprModule exShow h 2 0 .clean
    r.map (·.1) = some ⟨[[]], some [10], [0]⟩ ∧
      (r.bind fun r => reprModule exShow h 2 0 r.1).map (fun r => r.2.toOption) = some (some (py! "A(...)")) := by
  decide +kernel

end Nnx
