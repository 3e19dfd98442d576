import Verif.Spec.PureTree
import Verif.Proofs.TrainStep
import Verif.Proofs.Revalue
import Verif.Proofs.ScanInit
import Verif.Props.Tree
import Verif.Props.PureLoop
/-
C103: Pures as JAX pytrees.
-/
namespace Nnx
variable {α : Type} [DecidableEq α]

/-! ### Lists of leaves -/

mutual
theorem unflattenFrom_append (t : TreeDef α) (xs : List (PyVal α)) (v : PyVal α) (rest tail : List (PyVal α))
    (h : unflattenFrom t xs = .ok (v, rest)) : unflattenFrom t (xs ++ tail) = .ok (v, rest ++ tail) := by
  cases t with
  | leaf =>
    cases xs with
    | nil => cases h
    | cons x xs => cases h; rfl
  | node d kids =>
    simp only [unflattenFrom] at h ⊢
    split at h
    · cases h
    · next vs rest' he =>
      rw [unflattenAll_append kids xs vs rest' tail he]
      split at h
      · cases h
      · next v' hn => cases h; simp only [hn]
theorem unflattenAll_append (ts : List (TreeDef α)) (xs : List (PyVal α)) (vs : List (PyVal α)) (rest tail : List (PyVal α))
    (h : unflattenAll ts xs = .ok (vs, rest)) : unflattenAll ts (xs ++ tail) = .ok (vs, rest ++ tail) := by
  cases ts with
  | nil => cases h; rfl
  | cons t ts =>
    simp only [unflattenAll] at h ⊢
    split at h
    · cases h
    · next v ys he =>
      rw [unflattenFrom_append t xs v ys tail he]
      split at h
      · cases h
      · next vs' zs he' =>
        cases h
        simp only [unflattenAll_append ts ys vs' rest tail he']
end

theorem allOk_append {X : Type _} (a b : List (Except Err X)) : allOk (a ++ b) =
    match allOk a with
    | .error e => .error e
    | .ok xs =>
      match allOk b with
      | .error e => .error e
      | .ok ys => .ok (xs ++ ys) := by
  induction a with
  | nil => simp only [List.nil_append, allOk]; cases allOk b <;> rfl
  | cons x a ih =>
    cases x with
    | error e => rfl
    | ok x =>
      simp only [List.cons_append, allOk, ih]
      cases allOk a with
      | error e => rfl
      | ok xs => cases allOk b <;> rfl

theorem columns_append {X : Type _} : ∀ (xs ys : List X) (ls ms : List (List X)), (∀ l ∈ ls, l.length = xs.length) → ls.length = ms.length →
    columns (xs ++ ys) (List.zipWith (· ++ ·) ls ms) = columns xs ls ++ columns ys ms
  | [], ys, ls, ms, h, hl => by
    have : List.zipWith (· ++ ·) ls ms = ms := by
      induction ls generalizing ms with
      | nil => cases ms with
        | nil => rfl
        | cons m ms => cases hl
      | cons l ls ih =>
        cases ms with
        | nil => cases hl
        | cons m ms =>
          have hnil : l = [] := List.eq_nil_of_length_eq_zero (h l (by simp))
          simp [hnil, ih ms (fun l hl => h l (by simp [hl])) (by simpa using hl)]
    rw [this]; rfl
  | x :: xs, ys, ls, ms, h, hl => by
    have h1 : (List.zipWith (· ++ ·) ls ms).filterMap List.head? = ls.filterMap List.head? ∧
        (List.zipWith (· ++ ·) ls ms).map List.tail = List.zipWith (· ++ ·) (ls.map List.tail) ms := by
      have hpos : ∀ l ∈ ls, l ≠ [] := fun l hm e => by have := h l hm; rw [e] at this; cases this
      clear h
      induction ls generalizing ms with
      | nil => simp
      | cons l ls ih =>
        cases ms with
        | nil => cases hl
        | cons m ms =>
          obtain ⟨i1, i2⟩ := ih ms (by simpa using hl) (fun l hl => hpos l (by simp [hl]))
          have hlen := hpos l (by simp)
          cases l with
          | nil => exact absurd rfl hlen
          | cons a l => simp [i1, i2]
    simp only [List.cons_append, columns, h1.1, h1.2]
    rw [columns_append xs ys (ls.map List.tail) ms ?_ (by simpa using hl)]
    intro l hm
    obtain ⟨l', hm', rfl⟩ := List.mem_map.1 hm
    simp [h l' hm']

/-! ### Lists of States -/

theorem upTo_cons (t : StateDef α) (ts : List (StateDef α)) : ∀ (rests : List (List (State (PyVal α)))) {ls ms : List (List (PyVal α))},
    (∀ r ∈ rests, r ≠ []) → allOk ((rests.filterMap (·[0]?)).map (stateUpTo t)) = .ok ls →
    allOk ((rests.map List.tail).map (statesUpTo ts)) = .ok ms →
    allOk (rests.map (statesUpTo (t :: ts))) = .ok (List.zipWith (· ++ ·) ls ms)
  | [], ls, ms, _, h1, h2 => by cases h1; cases h2; rfl
  | r :: rests, ls, ms, hne, h1, h2 => by
    cases r with
    | nil => exact absurd rfl (hne [] (by simp))
    | cons a as =>
      simp only [List.filterMap_cons, List.getElem?_cons_zero, List.map_cons, List.tail_cons] at h1 h2 ⊢
      cases ha : stateUpTo t a with
      | error e => rw [ha] at h1; cases h1
      | ok zs =>
        rw [ha] at h1
        simp only [allOk] at h1
        cases hr : allOk ((rests.filterMap (·[0]?)).map (stateUpTo t)) with
        | error e => rw [hr] at h1; cases h1
        | ok ls' =>
          rw [hr] at h1
          cases h1
          cases has : statesUpTo ts as with
          | error e => rw [has] at h2; cases h2
          | ok ys =>
            rw [has] at h2
            simp only [allOk] at h2
            cases hr' : allOk ((rests.map List.tail).map (statesUpTo ts)) with
            | error e => rw [hr'] at h2; cases h2
            | ok ms' =>
              rw [hr'] at h2
              cases h2
              have := upTo_cons t ts rests (fun r hr => hne r (by simp [hr])) hr hr'
              simp only [statesUpTo, ha, has, allOk, this, List.zipWith_cons_cons]

theorem heads_length {X : Type _} : ∀ {rests : List (List X)}, (∀ r ∈ rests, r ≠ []) → (rests.filterMap (·[0]?)).length = rests.length
  | [], _ => rfl
  | [] :: _, h => absurd rfl (h [] (by simp))
  | (a :: as) :: rests, h => by
    have := heads_length (rests := rests) fun r hm => h r (by simp [hm])
    simp only [List.filterMap_cons, List.getElem?_cons_zero, List.length_cons, this]

/-- Mapping over several States at once is mapping over each. -/
theorem states_map {f : List (PyVal α) → Except Err (PyVal α)} (hk : KeepsPlain f) : ∀ (ss : List (State (PyVal α)))
    (rests : List (List (State (PyVal α)))), (∀ s ∈ ss, TreeState s) →
    (∀ r ∈ rests, r.length = ss.length ∧ ∀ (i : Nat) s a, ss[i]? = some s → r[i]? = some a → TreeState a ∧ FitsState s a) →
    ∃ xs ts ls, statesFlatten ss = .ok (xs, ts) ∧ allOk (rests.map (statesUpTo ts)) = .ok ls ∧ (∀ l ∈ ls, l.length = xs.length) ∧
      (∀ ys, allOk ((columns xs ls).map f) = .ok ys → ∀ tail, ∃ ss', statesUnflatten ts (ys ++ tail) = .ok (ss', tail) ∧
        ss'.length = ss.length ∧ ∀ (i : Nat) s s', ss[i]? = some s → ss'[i]? = some s' →
          stateTreeMap f s (rests.filterMap (·[i]?)) = .ok s') ∧
      (∀ e, allOk ((columns xs ls).map f) = .error e → ∃ (i : Nat) (s : State (PyVal α)), ss[i]? = some s ∧
        stateTreeMap f s (rests.filterMap (·[i]?)) = .error e)
  | [], rests, _, hr => by
    have : ∀ rests : List (List (State (PyVal α))), (∀ r ∈ rests, r.length = 0) →
        ∃ ls, allOk (rests.map (statesUpTo [])) = .ok ls ∧ ∀ l ∈ ls, l.length = 0 := by
      intro rests
      induction rests with
      | nil => exact fun _ => ⟨[], rfl, by simp⟩
      | cons r rests ih =>
        intro h
        obtain ⟨ls, h1, h2⟩ := ih fun r hr => h r (by simp [hr])
        have hr : r = [] := List.eq_nil_of_length_eq_zero (h r (by simp))
        subst hr
        exact ⟨[] :: ls, by simp [statesUpTo, allOk, h1], by simpa using h2⟩
    obtain ⟨ls, h1, h2⟩ := this rests fun r hm => (hr r hm).1
    refine ⟨[], [], ls, rfl, h1, h2, ?_, ?_⟩
    · intro ys hys tail
      cases hys
      exact ⟨[], rfl, rfl, by simp⟩
    · intro e he; cases he
  | s :: ss, rests, hs, hr => by
    have hne : ∀ r ∈ rests, r ≠ [] := by
      rintro r hm rfl
      simp at hr
      exact absurd (hr _ hm).1 (by simp)
    have hheads : ∀ a ∈ rests.filterMap (·[0]?), TreeState a ∧ FitsState s a := by
      intro a ha
      obtain ⟨r, hm, h0⟩ := List.mem_filterMap.1 ha
      exact (hr r hm).2 0 s a rfl h0
    obtain ⟨x1, t1, hspec, hflat⟩ := stateSpec (hs s (by simp))
    obtain ⟨l1, hl1, hlen1, _⟩ := state_up_to_all (hs s (by simp)) hspec (fun a ha => (hheads a ha).1) (fun a ha => (hheads a ha).2)
    obtain ⟨x2, t2, l2, hflat2, hl2, hlen2, hok2, herr2⟩ := states_map hk ss (rests.map List.tail) (fun s hm => hs s (by simp [hm]))
      (fun r hm => by
        obtain ⟨r', hm', rfl⟩ := List.mem_map.1 hm
        obtain ⟨e1, e2⟩ := hr r' hm'
        refine ⟨by simp [e1], fun i s a hi ha => e2 (i + 1) s a (by simpa using hi) ?_⟩
        simpa using ha)
    have hcol : l1.length = l2.length := by
      have e1 := (allOk_map_ok hl1).1
      have e2 := (allOk_map_ok hl2).1
      rw [e1, e2, List.length_map, heads_length hne]
    have hshift : ∀ i : Nat, (rests.map List.tail).filterMap (·[i]?) = rests.filterMap (·[i + 1]?) := by
      intro i
      rw [List.filterMap_map]
      congr 1
      funext r
      cases r <;> simp
    have hstate : ∀ ys, allOk ((columns x1 l1).map f) = .ok ys → ∀ tail, ∃ ws, unflattenAll t1 (ys ++ tail) = .ok (ws, tail) ∧
        stateTreeMap f s (rests.filterMap (·[0]?)) = .ok (.unflatten s.keys ws) := by
      intro ys hys tail
      obtain ⟨hl, hy⟩ := columns_ok (ps := pathsAll (s.keys.map TreeKey.key) t1) hlen1 hys
      obtain ⟨ws, h1, _⟩ := hspec.unflatten ys [] hl (plain_zip hspec.len hk hy)
      rw [List.append_nil] at h1
      refine ⟨ws, by simpa using unflattenAll_append t1 ys ws [] tail h1, ?_⟩
      simp only [stateTreeMap, hflat, hl1, hys, stateUnflatten, h1]
    have hstate_err : ∀ e, allOk ((columns x1 l1).map f) = .error e →
        stateTreeMap f s (rests.filterMap (·[0]?)) = .error e := by
      intro e he
      simp only [stateTreeMap, hflat, hl1, he]
    refine ⟨x1 ++ x2, (s.keys, t1) :: t2, List.zipWith (· ++ ·) l1 l2, ?_, upTo_cons _ _ rests hne hl1 hl2, ?_, ?_, ?_⟩
    · simp only [statesFlatten, hflat, hflat2]
    · intro l hm
      obtain ⟨i, hi⟩ := List.getElem?_of_mem hm
      rw [List.getElem?_zipWith_eq_some] at hi
      obtain ⟨a, b, ha, hb, rfl⟩ := hi
      simp [hlen1 a (List.mem_of_getElem? ha), hlen2 b (List.mem_of_getElem? hb)]
    · intro ys hys tail
      rw [columns_append _ _ _ _ hlen1 hcol, List.map_append, allOk_append] at hys
      cases h1 : allOk ((columns x1 l1).map f) with
      | error e => rw [h1] at hys; cases hys
      | ok y1 =>
        rw [h1] at hys
        simp only at hys
        cases h2 : allOk ((columns x2 l2).map f) with
        | error e => rw [h2] at hys; cases hys
        | ok y2 =>
          rw [h2] at hys
          cases hys
          obtain ⟨ws, hw, hst⟩ := hstate y1 h1 (y2 ++ tail)
          obtain ⟨ss', hss, hlen, hall⟩ := hok2 y2 h2 tail
          refine ⟨.unflatten s.keys ws :: ss', ?_, by simp [hlen], ?_⟩
          · simp only [statesUnflatten, List.append_assoc, hw, hss]
          · intro i a a' ha ha'
            cases i with
            | zero => cases ha; cases ha'; exact hst
            | succ i =>
              have := hall i a a' (by simpa using ha) (by simpa using ha')
              rw [hshift] at this
              exact this
    · intro e he
      rw [columns_append _ _ _ _ hlen1 hcol, List.map_append, allOk_append] at he
      cases h1 : allOk ((columns x1 l1).map f) with
      | error e' =>
        rw [h1] at he
        cases he
        exact ⟨0, s, rfl, hstate_err e h1⟩
      | ok y1 =>
        rw [h1] at he
        simp only at he
        cases h2 : allOk ((columns x2 l2).map f) with
        | ok y2 => rw [h2] at he; cases he
        | error e' =>
          rw [h2] at he
          cases he
          obtain ⟨i, a, ha, hm⟩ := herr2 e h2
          rw [hshift] at hm
          exact ⟨i + 1, a, by simpa using ha, hm⟩

/-! ### Pures -/

omit [DecidableEq α] in
theorem States.one_of {x : States α} (h : x.isTuple = false) : ∃ s, x = .one s := by
  cases x with
  | one s => exact ⟨s, rfl⟩
  | many ss => cases h

/-- **C103, the States are mapped one by one.** For Pures of the same structure, `jax.tree_map(f, pure, *rest)` has the ModuleDef of `pure` and the States that
`jax.tree_map` gives for the States of `pure` and those of the others, in a tuple if `pure` has a tuple; it raises if and only if one of these
raises, and only what one of these raises. -/
theorem C103_componentwise {f : List (PyVal α) → Except Err (PyVal α)} (hk : KeepsPlain f) {p : Pure' α} (hp : TreePure p) {rest : List (Pure' α)}
    (hr : ∀ r ∈ rest, TreePure r ∧ PureFits p r) :
    (∀ e, pureTreeMap f p rest = .error e → ∃ (i : Nat) (s : State (PyVal α)), p.states.toList[i]? = some s ∧
      stateTreeMap f s (rest.filterMap fun r => r.states.toList[i]?) = .error e) ∧
    ∀ q, pureTreeMap f p rest = .ok q ↔ q.moduledef = p.moduledef ∧ q.states.isTuple = p.states.isTuple ∧
      q.states.toList.length = p.states.toList.length ∧ ∀ (i : Nat) s s', p.states.toList[i]? = some s → q.states.toList[i]? = some s' →
        stateTreeMap f s (rest.filterMap fun r => r.states.toList[i]?) = .ok s' := by
  obtain ⟨xs, ts, ls, hflat, hls, _, hok, herr⟩ := states_map hk p.states.toList (rest.map fun r => r.states.toList) hp (by
    intro r hm
    obtain ⟨r', hm', rfl⟩ := List.mem_map.1 hm
    obtain ⟨h1, h2⟩ := hr r' hm'
    exact ⟨h2.length, fun i s a hs ha => ⟨h1 a (List.mem_of_getElem? ha), h2.fits i s a hs ha⟩⟩)
  have hup : rest.map (pureUpTo ⟨p.states.isTuple, ts, p.moduledef⟩) = (rest.map fun r => r.states.toList).map (statesUpTo ts) := by
    rw [List.map_map]
    refine List.map_congr_left fun r hm => ?_
    have := (hr r hm).2
    simp only [pureUpTo, this.kind, this.moduledef, and_self, if_true, Function.comp]
  have hmap : pureTreeMap f p rest =
      match allOk ((columns xs ls).map f) with
      | .error e => .error e
      | .ok ys => pureUnflatten ⟨p.states.isTuple, ts, p.moduledef⟩ ys := by
    simp only [pureTreeMap, pureFlatten, hflat, hup, hls]
    cases allOk ((columns xs ls).map f) <;> rfl
  have hfm : ∀ i : Nat, (rest.map fun r => r.states.toList).filterMap (·[i]?) = rest.filterMap fun r => r.states.toList[i]? := by
    intro i
    rw [List.filterMap_map]
    rfl
  simp only [hfm] at hok herr
  cases hys : allOk ((columns xs ls).map f) with
  | error e =>
    rw [hys] at hmap
    obtain ⟨i, s, h1, h2⟩ := herr e hys
    rw [hmap]
    refine ⟨fun e' he => (by cases he; exact ⟨i, s, h1, h2⟩), fun q => ⟨fun h => (by cases h), ?_⟩⟩
    rintro ⟨_, _, hlen, hall⟩
    have hlt : i < q.states.toList.length := by
      rw [hlen]; exact (List.getElem?_eq_some_iff.1 h1).1
    rw [hall i s _ h1 (List.getElem?_eq_getElem hlt)] at h2
    cases h2
  | ok ys =>
    rw [hys] at hmap
    obtain ⟨ss', h1, h2, h3⟩ := hok ys hys []
    rw [List.append_nil] at h1
    -- what is built
    have hbuilt : ∃ q, pureTreeMap f p rest = .ok q ∧ q.moduledef = p.moduledef ∧ q.states.isTuple = p.states.isTuple ∧ q.states.toList = ss' := by
      rw [hmap]
      simp only [pureUnflatten, h1]
      cases hkind : p.states.isTuple with
      | true => exact ⟨⟨.many ss', p.moduledef⟩, rfl, rfl, rfl, rfl⟩
      | false =>
        obtain ⟨s, hs⟩ := States.one_of hkind
        rw [hs] at h2
        match ss', h2 with
        | [s'], _ => exact ⟨⟨.one s', p.moduledef⟩, rfl, rfl, rfl, rfl⟩
    obtain ⟨q0, e1, e2, e3, e4⟩ := hbuilt
    rw [e1]
    refine ⟨fun e he => (by cases he), fun q => ⟨fun h => ?_, ?_⟩⟩
    · cases h
      rw [e4]
      exact ⟨e2, e3, h2, h3⟩
    · rintro ⟨g1, g2, g3, g4⟩
      have hlist : q.states.toList = q0.states.toList := by
        rw [e4]
        apply List.ext_getElem?
        intro i
        by_cases hi : i < p.states.toList.length
        · have ha := List.getElem?_eq_getElem hi
          have hb := List.getElem?_eq_getElem (by rw [g3]; exact hi : i < q.states.toList.length)
          have hc := List.getElem?_eq_getElem (by rw [h2]; exact hi : i < ss'.length)
          have := g4 i _ _ ha hb
          rw [h3 i _ _ ha hc] at this
          rw [hb, hc, Except.ok.inj this]
        · rw [List.getElem?_eq_none (by omega), List.getElem?_eq_none (by omega)]
      have hst : q0.states = q.states := by
        cases hq : q.states with
        | one s =>
          rw [hq] at hlist g2
          obtain ⟨s', hs'⟩ := States.one_of (e3.trans g2.symm)
          rw [hs'] at hlist ⊢
          simp only [States.toList, List.cons.injEq, and_true] at hlist
          rw [hlist]
        | many ss =>
          rw [hq] at hlist g2
          cases hq0 : q0.states with
          | one s => rw [hq0, ← g2] at e3; cases e3
          | many ss0 => rw [hq0] at hlist; simp only [States.toList] at hlist; rw [hlist]
      cases q; cases q0
      simp_all

theorem statesUpTo_misfit : ∀ (ss : List (State (PyVal α))) {xs : List (PyVal α)} {ts : List (StateDef α)}, (∀ s ∈ ss, TreeState s) →
    statesFlatten ss = .ok (xs, ts) → ∀ rs : List (State (PyVal α)), (∀ r ∈ rs, TreeState r) →
    (∃ zs, statesUpTo ts rs = .ok zs ∧ rs.length = ss.length ∧ ∀ (i : Nat) s t, ss[i]? = some s → rs[i]? = some t → FitsState s t) ∨
    statesUpTo ts rs = .error .valueError
  | [], xs, ts, _, hf, rs, _ => by
    cases hf
    cases rs with
    | nil => exact .inl ⟨[], rfl, rfl, by simp⟩
    | cons r rs => exact .inr rfl
  | s :: ss, xs, ts, hs, hf, rs, hr => by
    obtain ⟨x1, t1, hspec, hflat⟩ := stateSpec (hs s (by simp))
    simp only [statesFlatten, hflat] at hf
    split at hf
    · cases hf
    · next x2 t2 hf2 =>
      cases hf
      cases rs with
      | nil => exact .inr rfl
      | cons r rs =>
        simp only [statesUpTo]
        rcases state_up_to (hs s (by simp)) (hr r (by simp)) hspec with ⟨hfit, z1, hz1, _⟩ | ⟨_, he⟩
        · rw [hz1]
          rcases statesUpTo_misfit ss (fun s hm => hs s (by simp [hm])) hf2 rs (fun r hm => hr r (by simp [hm])) with ⟨z2, hz2, hl, hall⟩ | he
          · rw [hz2]
            refine .inl ⟨z1 ++ z2, rfl, by simp [hl], fun i a b ha hb => ?_⟩
            cases i with
            | zero => cases ha; cases hb; exact hfit
            | succ i => exact hall i a b (by simpa using ha) (by simpa using hb)
          · rw [he]; exact .inr rfl
        · rw [he]; exact .inr rfl

/-- **C103, misfits.** `jax.tree_map` over Pures of which one has another structure (another kind or number of States, other paths, classes, metadata, another ModuleDef,
or another initializing flag of the root) raises ValueError. -/
theorem C103_misfit {f : List (PyVal α) → Except Err (PyVal α)} {p : Pure' α} (hp : TreePure p) {rest : List (Pure' α)}
    (hr : ∀ r ∈ rest, TreePure r) (hm : ∃ r ∈ rest, ¬ PureFits p r) : pureTreeMap f p rest = .error .valueError := by
  have hflat : ∃ xs ts, statesFlatten p.states.toList = .ok (xs, ts) := by
    have : ∀ ss : List (State (PyVal α)), (∀ s ∈ ss, TreeState s) → ∃ xs ts, statesFlatten ss = .ok (xs, ts) := by
      intro ss
      induction ss with
      | nil => exact fun _ => ⟨[], [], rfl⟩
      | cons s ss ih =>
        intro h
        obtain ⟨x1, t1, _, h1⟩ := stateSpec (h s (by simp))
        obtain ⟨x2, t2, h2⟩ := ih fun s hm => h s (by simp [hm])
        exact ⟨x1 ++ x2, (s.keys, t1) :: t2, by simp only [statesFlatten, h1, h2]⟩
    exact this _ hp
  obtain ⟨xs, ts, hflat⟩ := hflat
  have hcase : ∀ r ∈ rest, (PureFits p r ∧ ∃ zs, pureUpTo ⟨p.states.isTuple, ts, p.moduledef⟩ r = .ok zs) ∨
      pureUpTo ⟨p.states.isTuple, ts, p.moduledef⟩ r = .error .valueError := by
    intro r hm
    unfold pureUpTo
    split
    · next hc =>
      rcases statesUpTo_misfit p.states.toList hp hflat r.states.toList (hr r hm) with ⟨zs, hz, hl, hall⟩ | he
      · exact .inl ⟨⟨hc.1, hl, hall, hc.2⟩, zs, hz⟩
      · exact .inr he
    · exact .inr rfl
  have : allOk (rest.map (pureUpTo ⟨p.states.isTuple, ts, p.moduledef⟩)) = .error .valueError := by
    cases hc : allOk (rest.map (pureUpTo ⟨p.states.isTuple, ts, p.moduledef⟩)) with
    | ok ls =>
      obtain ⟨r, hr', hn⟩ := hm
      obtain ⟨i, hi⟩ := List.getElem?_of_mem hr'
      obtain ⟨y, _, e⟩ := (allOk_map_ok hc).2 i r hi
      rcases hcase r hr' with ⟨h, _⟩ | h
      · exact absurd h hn
      · rw [e] at h; cases h
    | error e =>
      obtain ⟨i, r, hi, he, _⟩ := allOk_map_error hc
      rcases hcase r (List.mem_of_getElem? hi) with ⟨_, zs, h⟩ | h
      · rw [he] at h; cases h
      · rw [he] at h; cases h; rfl
  simp only [pureTreeMap, pureFlatten, hflat, this]

omit [DecidableEq α] in
theorem allOk_heads (xs : List (PyVal α)) : allOk ((xs.map fun x => [x]).map fun zs : List (PyVal α) => Except.ok (zs.headD .none)) = .ok xs := by
  induction xs with
  | nil => rfl
  | cons x xs ih => simp only [List.map_cons, List.headD_cons, allOk, ih]

/-- **C103, round trip.** Flattening a Pure and rebuilding it, as `jax.jit` does with its arguments and results, gives a Pure with the same ModuleDef and, in a tuple if there was
one, States with the same paths and the same values, up to the order of entries in dicts and in the `vars` of Pytrees. -/
theorem C103_round_trip {p : Pure' α} (hp : TreePure p) : ∃ xs t q, pureFlatten p = .ok (xs, t) ∧ pureUnflatten t xs = .ok q ∧ q.moduledef = p.moduledef ∧
    q.states.isTuple = p.states.isTuple ∧ q.states.toList.length = p.states.toList.length ∧ ∀ (i : Nat) s s', p.states.toList[i]? = some s →
      q.states.toList[i]? = some s' → s'.keys = s.keys ∧ ∀ k v w, s.get k = some v → s'.get k = some w → SameValue v w := by
  have hk : KeepsPlain fun zs : List (PyVal α) => Except.ok (zs.headD .none) := fun x zs y he hx => by simp at he; subst he; exact hx
  obtain ⟨xs, ts, ls, hflat, hls, _, hok, _⟩ := states_map hk p.states.toList [] hp (by simp)
  cases hls
  obtain ⟨ss, h1, h2, h3⟩ := hok xs (by rw [columns_nil]; exact allOk_heads xs) []
  rw [List.append_nil] at h1
  have hpt : ∀ (i : Nat) s s', p.states.toList[i]? = some s → ss[i]? = some s' →
      s'.keys = s.keys ∧ ∀ k v w, s.get k = some v → s'.get k = some w → SameValue v w := by
    intro i s s' hs hs'
    have hm := h3 i s s' hs hs'
    obtain ⟨s2, g1, g2, g3⟩ := C93_state_map (rest := []) hk (hp s (List.mem_of_getElem? hs)) (by simp) (by simp) (fun k path x v zs _ _ _ _ => ⟨x, rfl⟩)
    rw [List.filterMap_nil, g1] at hm
    cases hm
    refine ⟨g2, fun k v w hv hw => (g3 k v w hv hw).mono ?_⟩
    rintro path x y ⟨zs, _, e⟩
    simp at e
    exact e.symm
  refine ⟨xs, ⟨p.states.isTuple, ts, p.moduledef⟩, ?_⟩
  simp only [pureFlatten, hflat, pureUnflatten, h1]
  cases hkind : p.states.isTuple with
  | true => exact ⟨⟨.many ss, p.moduledef⟩, trivial, rfl, rfl, rfl, h2, hpt⟩
  | false =>
    obtain ⟨s, hs⟩ := States.one_of hkind
    rw [hs] at h2
    match ss, h2, hpt with
    | [s'], h2, hpt => exact ⟨⟨.one s', p.moduledef⟩, trivial, rfl, rfl, rfl, by rw [hs]; exact h2, hpt⟩

omit [DecidableEq α] in
/-- Arrays, and containers of something that is not a tree. -/
theorem sameValue_eq {v w : PyVal α} (h : SameValue v w) (hv : TreeLeaf v ∨ ∃ c x m, v = .cont c x m ∧ TreeLeaf x) : w = v := by
  have hleaf : ∀ {v w : PyVal α}, SameValue v w → TreeLeaf v → w = v := by
    intro v w h hv
    cases h with
    | leaf _ r => exact r
    | cont node _ => have := hv.1; rw [node] at this; cases this
    | static => rfl
    | _ => cases hv
  rcases hv with hv | ⟨c, x, m, rfl, hx⟩
  · exact hleaf h hv
  · cases h with
    | leaf _ r => exact r
    | cont _ h => rw [hleaf h hx]
    | static => rfl

omit [DecidableEq α] in
theorem State.ext_of_keys {s t : State (PyVal α)} (hn : DNodup s.mapping) (hk : t.keys = s.keys) (h : ∀ k v w, s.get k = some v → t.get k = some w → w = v) : t = s := by
  cases s with | mk d =>
  cases t with | mk e =>
  congr 1
  refine (dict_ext_of_keys hn hk fun k => ?_).symm
  have hiff : (dget d k).isSome ↔ (dget e k).isSome := by rw [dget_isSome, dget_isSome]; exact (iff_of_eq (congrArg _ hk)).symm
  cases hd : dget d k with
  | none => rw [hd] at hiff; cases he : dget e k with
    | none => rfl
    | some w => rw [he] at hiff; cases hiff.2 rfl
  | some v =>
    rw [hd] at hiff
    obtain ⟨w, hw⟩ := Option.isSome_iff_exists.1 (hiff.1 rfl)
    rw [hw, h k v w hd hw]

/-- **C103.** More leaves than the Pure has are rejected. -/
theorem C103_too_many_leaves {p : Pure' α} (hp : TreePure p) : ∃ xs t, pureFlatten p = .ok (xs, t) ∧
    ∀ y ys, pureUnflatten t (xs ++ y :: ys) = .error .valueError := by
  have hk : KeepsPlain fun zs : List (PyVal α) => Except.ok (zs.headD .none) := fun x zs y he hx => by simp at he; subst he; exact hx
  obtain ⟨xs, ts, ls, hflat, hls, _, hok, _⟩ := states_map hk p.states.toList [] hp (by simp)
  cases hls
  refine ⟨xs, ⟨p.states.isTuple, ts, p.moduledef⟩, by simp only [pureFlatten, hflat], fun y ys => ?_⟩
  obtain ⟨ss, h1, _⟩ := hok xs (by rw [columns_nil]; exact allOk_heads xs) (y :: ys)
  simp only [pureUnflatten, h1]

/-- **C103, round trip, States of arrays and containers of arrays.** Then the Pure that comes back is the same one. -/
theorem C103_round_trip_flat {p : Pure' α} (hp : TreePure p)
    (hflat : ∀ s ∈ p.states.toList, ∀ k v, s.get k = some v → TreeLeaf v ∨ ∃ c x m, v = .cont c x m ∧ TreeLeaf x) :
    ∃ xs t, pureFlatten p = .ok (xs, t) ∧ pureUnflatten t xs = .ok p := by
  obtain ⟨xs, t, q, h1, h2, h3, h4, h5, h6⟩ := C103_round_trip hp
  refine ⟨xs, t, h1, ?_⟩
  rw [h2]
  have hlist : q.states.toList = p.states.toList := by
    apply List.ext_getElem?
    intro i
    by_cases hi : i < p.states.toList.length
    · have ha := List.getElem?_eq_getElem hi
      have hb := List.getElem?_eq_getElem (by rw [h5]; exact hi : i < q.states.toList.length)
      obtain ⟨hkeys, hvals⟩ := h6 i _ _ ha hb
      rw [ha, hb]
      congr 1
      have hn := (hp _ (List.getElem_mem hi)).nodup
      refine State.ext_of_keys hn hkeys fun k v w hv hw => sameValue_eq (hvals k v w hv hw) (hflat _ (List.getElem_mem hi) k v hv)
    · rw [List.getElem?_eq_none (by omega), List.getElem?_eq_none (by omega)]
  have hst : q.states = p.states := by
    cases hq : q.states <;> cases hps : p.states <;> rw [hq, hps] at hlist h4 <;> simp_all [States.toList, States.isTuple]
  cases q; cases p
  simp_all

/-! ### Modules -/

theorem filterMap_at {X Y : Type _} {g : X → Option Y} : ∀ {xs : List X}, (∀ x ∈ xs, (g x).isSome) →
    (xs.filterMap g).length = xs.length ∧ ∀ j : Nat, (xs.filterMap g)[j]? = xs[j]?.bind g
  | [], _ => ⟨rfl, fun j => by simp⟩
  | x :: xs, h => by
    obtain ⟨i1, i2⟩ := filterMap_at (xs := xs) fun x hm => h x (by simp [hm])
    obtain ⟨y, hy⟩ := Option.isSome_iff_exists.1 (h x (by simp))
    simp only [List.filterMap_cons, hy, List.length_cons, i1, true_and]
    intro j
    cases j with
    | zero => simp [hy]
    | succ j => simp [i2]

omit [DecidableEq α] in
theorem others_of_states {rest : List (Pure' α)} {i : Nat} (hl : ∀ r ∈ rest, i < r.states.toList.length) {k : Str} {q : List TreeKey}
    {zs : List (PyVal α)} (h : StateOthers (rest.filterMap fun r => r.states.toList[i]?) k q zs) : PureOthers rest k q zs := by
  obtain ⟨h1, h2⟩ := filterMap_at (g := fun r : Pure' α => r.states.toList[i]?) (xs := rest) (fun r hm => by simp [hl r hm])
  refine ⟨h.1.trans h1, fun j r z hr hz => ?_⟩
  have hlt := hl r (List.mem_of_getElem? hr)
  have hj := h2 j
  rw [hr, Option.bind_some, List.getElem?_eq_getElem hlt] at hj
  obtain ⟨u, hu, hsub⟩ := h.2 j _ z hj hz
  exact ⟨_, List.getElem_mem hlt, u, hu, hsub⟩

omit [DecidableEq α] in
/-- No path is in two of the States of `module.partition(*filters)`. -/
theorem modulePure_disjoint {fuel : Nat} {h : Heap α} {l : Loc} {fs : List (Filter α)} {p : Pure' α} (e : modulePure fuel h l fs = .ok p) :
    ∀ (i j : Nat) (s t : State (PyVal α)) (k : Str), p.states.toList[i]? = some s → p.states.toList[j]? = some t → (s.get k).isSome → (t.get k).isSome →
      i = j := by
  obtain ⟨s, hd, hs, hpieces, hne⟩ := modulePure_parts e
  unfold modulePure at e
  split at e
  · cases e
  next ss d hp =>
  cases e
  simp only [toList_unpack]
  unfold partitionModule at hp
  split at hp
  swap
  · cases hp
  next d' s' hd' hs' =>
  cases fs with
  | nil =>
    cases hp
    intro i j a b k hi hj
    have h1 := (List.getElem?_eq_some_iff.1 hi).1
    have h2 := (List.getElem?_eq_some_iff.1 hj).1
    simp only [List.length_singleton] at h1 h2
    omega
  | cons x fs =>
    simp only at hp
    split at hp
    · cases hp
    · next hpart =>
      cases hp
      simp only [toList_unpack] at hpieces
      cases hs.symm.trans hs'
      intro i j a b k hi hj ha hb
      obtain ⟨v, hv⟩ := Option.isSome_iff_exists.1 ha
      obtain ⟨n, _, hn⟩ := C01_partition_exactly_one (getState_obtainable hs) hpart (hpieces.2.1 a (List.mem_of_getElem? hi) k v hv)
      rw [hn i ⟨a, hi, ha⟩, hn j ⟨b, hj, hb⟩]

omit [DecidableEq α] in
theorem attr_wfVal {h : Heap α} (wf : WFHeap h) {l : Loc} {n : Str} {v : PyVal α} (ha : attrAt h l n = some (.val v)) (hn : v.isNode = true) : WFVal v := by
  cases v with
  | cont c x m => exact .inr (wf.conts l n c x m ha)
  | cmeta => cases hn
  | _ => exact .inl trivial

/-- **C103, a module of mapped values.** Let `p = module.partition(*filters)`, with values that are good trees, and `rest` Pures of the same structure. If `f` returns for
every leaf, a value that is not a container, and a node for a node, then `jax.tree_map(f, p, *rest)` returns, and `merge`, in any world, makes a new module: it has the ModuleDef of `module`, and
its State has the paths of the State of `module`, each with the value of `module` there, every leaf of it replaced by what `f` returned for it and for what is at the same place in `rest`.
Merging changes no existing module. -/
theorem C103_tree_map {f : List (PyVal α) → Except Err (PyVal α)} (hplain : ∀ xs y, f xs = .ok y → y.Plain)
    (hnode : ∀ x zs y, f (x :: zs) = .ok y → x.isNode = true → y.isNode = true)
    {h : Heap α} (wf : WFHeap h) {l : Loc} (hl : l < h.length) {fuel : Nat} {fs : List (Filter α)} {p : Pure' α} (hp : modulePure fuel h l fs = .ok p)
    {s : State (PyVal α)} (hs : getState fuel h l = some s) (hgood : ∀ k v, s.get k = some v → GoodTree v)
    {rest : List (Pure' α)} (hr : ∀ r ∈ rest, TreePure r ∧ PureFits p r)
    (hf : ∀ k path x v zs, s.get k = some v → Sub v path x → TreeLeaf x → PureOthers rest k path zs → ∃ y, f (x :: zs) = .ok y)
    {u : World α} (wfu : WFWorld u) :
    ∃ q u' r, pureTreeMap f p rest = .ok q ∧ q.merge u = (u', .ok r) ∧ WFWorld u' ∧
      (∀ a : Loc, a < u.heap.length → u'.heap[a]? = u.heap[a]?) ∧ u.heap.length ≤ r ∧
      ∀ n, u'.heap.length < n → ∃ s', partitionModule n u'.heap r [] = .ok ([s'], p.moduledef) ∧ s'.keys = s.keys ∧
        ∀ k v y, s.get k = some v → s'.get k = some y → Mapped (PureApplied f rest k) v y := by
  obtain ⟨s0, hd, hs0, ⟨hpc, hp1, hp2⟩, hne⟩ := modulePure_parts hp
  cases hs.symm.trans hs0
  have hdis := modulePure_disjoint hp
  have hcan := getState_canonical hs
  obtain ⟨hpaths, _, _⟩ := state_paths wf hl hs
  have hk : KeepsPlain f := fun x zs y e _ => hplain _ y e
  have htree : TreePure p := fun t ht =>
    ⟨StrictSorted.nodup (hpc t ht), fun k v hv => hgood k v (hp1 t ht k v hv)⟩
  have hrl : ∀ (i : Nat) t, p.states.toList[i]? = some t → ∀ r ∈ rest, i < r.states.toList.length := fun i t hi r hm => by
    rw [(hr r hm).2.length]; exact (List.getElem?_eq_some_iff.1 hi).1
  -- every State is mapped
  have hmapped : ∀ (i : Nat) t, p.states.toList[i]? = some t → ∃ t', stateTreeMap f t (rest.filterMap fun r => r.states.toList[i]?) = .ok t' ∧ t'.keys = t.keys ∧
      ∀ k v y, t.get k = some v → t'.get k = some y → Mapped (PureApplied f rest k) v y := by
    intro i t hi
    have ht := List.mem_of_getElem? hi
    have hmem : ∀ a ∈ rest.filterMap fun r => r.states.toList[i]?, TreeState a ∧ FitsState t a := by
      intro a ha
      obtain ⟨r, hm, hra⟩ := List.mem_filterMap.1 ha
      exact ⟨(hr r hm).1 a (List.mem_of_getElem? hra), (hr r hm).2.fits i t a hi hra⟩
    obtain ⟨t', g1, g2, g3⟩ := C93_state_map hk (htree t ht) (fun a ha => (hmem a ha).1) (fun a ha => (hmem a ha).2)
      (fun k path x v zs hv hsub hleaf ho => hf k path x v zs (hp1 t ht k v hv) hsub hleaf (others_of_states (hrl i t hi) ho))
    refine ⟨t', g1, g2, fun k v y hv hy => (g3 k v y hv hy).mono ?_⟩
    rintro path x y ⟨zs, ho, e⟩
    exact ⟨zs, others_of_states (hrl i t hi) ho, e⟩
  obtain ⟨c1, c2⟩ := C103_componentwise hk htree hr
  cases hq : pureTreeMap f p rest with
  | error e =>
    obtain ⟨i, t, hi, he⟩ := c1 e hq
    obtain ⟨t', ht', _⟩ := hmapped i t hi
    rw [he] at ht'
    cases ht'
  | ok q =>
  obtain ⟨q1, q2, q3, q4⟩ := (c2 q).1 hq
  have hpart : ∀ (i : Nat) t', q.states.toList[i]? = some t' → ∃ t, p.states.toList[i]? = some t ∧ t'.keys = t.keys ∧
      (∀ k v y, t.get k = some v → t'.get k = some y → Mapped (PureApplied f rest k) v y) ∧ ∀ k y, t'.get k = some y → WFVal y := by
    intro i t' hi
    have hlt : i < p.states.toList.length := by rw [← q3]; exact (List.getElem?_eq_some_iff.1 hi).1
    have hit := List.getElem?_eq_getElem hlt
    obtain ⟨t'', g1, g2, g3⟩ := hmapped i _ hit
    have hm := q4 i _ t' hit hi
    rw [g1] at hm
    cases hm
    refine ⟨_, hit, g2, g3, fun k y hy => (stateTreeMap_wf hplain ?_ g1 k y (dget_mem hy)).2⟩
    intro kv hkv
    have hget := mem_dget (StrictSorted.nodup (hpc _ (List.getElem_mem hlt))) (show (kv.1, kv.2) ∈ _ from hkv)
    obtain ⟨a, n, _, ha, hn⟩ := hpaths _ _ (hp1 _ (List.getElem_mem hlt) _ _ hget)
    exact attr_wfVal wf ha hn
  have hsome : ∀ {t t' : State (PyVal α)} (k : Str), t'.keys = t.keys → (t'.get k).isSome = (t.get k).isSome := by
    intro t t' k hkeys
    rw [Bool.eq_iff_iff, State.get, State.get, dget_isSome, dget_isSome]
    exact iff_of_eq (congrArg _ hkeys)
  -- the State of the new module
  let look := fun (k : Str) (v : PyVal α) => (q.states.toList.findSome? fun t => t.get k).getD v
  let fin : State (PyVal α) := ⟨s.mapping.map fun kv => (kv.1, look kv.1 kv.2)⟩
  have hfkeys : fin.keys = s.keys := by simp [fin, State.keys, dkeys]
  have hfcan : fin.Canonical := strictSorted_of_keys hfkeys hcan
  have hfget : ∀ k, fin.get k = (s.get k).map (look k) := fun k => dget_map_key _ _ k
  have hlook : ∀ (i : Nat) t' k y v, q.states.toList[i]? = some t' → t'.get k = some y → look k v = y := by
    intro i t' k y v hi hy
    cases hfs : q.states.toList.findSome? fun t => t.get k with
    | none =>
      have := List.findSome?_eq_none_iff.1 hfs t' (List.mem_of_getElem? hi)
      rw [hy] at this; cases this
    | some y' =>
      obtain ⟨t2, hm2, hy2⟩ := List.exists_of_findSome?_eq_some hfs
      obtain ⟨j, hj⟩ := List.getElem?_of_mem hm2
      obtain ⟨a, ha, ka, _⟩ := hpart i t' hi
      obtain ⟨b, hb, kb, _⟩ := hpart j t2 hj
      have hij := hdis i j a b k ha hb (by rw [← hsome k ka, hy]; rfl) (by rw [← hsome k kb, hy2]; rfl)
      subst hij
      rw [hi] at hj
      cases hj
      rw [hy] at hy2
      cases hy2
      simp only [look, hfs, Option.getD_some]
  have hback : ∀ k v, s.get k = some v → ∃ (i : Nat) (t t' : State (PyVal α)) (y : PyVal α), p.states.toList[i]? = some t ∧ q.states.toList[i]? = some t' ∧
      t.get k = some v ∧ t'.get k = some y ∧ fin.get k = some y := by
    intro k v hv
    obtain ⟨t, ht, hg⟩ := hp2 k v hv
    obtain ⟨i, hi⟩ := List.getElem?_of_mem ht
    have hlt : i < q.states.toList.length := by rw [q3]; exact (List.getElem?_eq_some_iff.1 hi).1
    have hit := List.getElem?_eq_getElem hlt
    obtain ⟨t2, ht2, hk2, _⟩ := hpart i _ hit
    rw [hi] at ht2
    cases ht2
    have : ((q.states.toList[i]'hlt).get k).isSome := by rw [hsome k hk2, hg]; rfl
    obtain ⟨y, hy⟩ := Option.isSome_iff_exists.1 this
    exact ⟨i, t, _, y, hi, hit, hg, hy, by rw [hfget, hv, Option.map_some, hlook i _ k y v hit hy]⟩
  have hpieces : Pieces fin q.states.toList := by
    refine ⟨?_, ?_, ?_⟩
    · intro t' ht'
      obtain ⟨i, hi⟩ := List.getElem?_of_mem ht'
      obtain ⟨t, ht, hkeys, _⟩ := hpart i t' hi
      exact strictSorted_of_keys hkeys (hpc t (List.mem_of_getElem? ht))
    · intro t' ht' k y hy
      obtain ⟨i, hi⟩ := List.getElem?_of_mem ht'
      obtain ⟨t, ht, hkeys, _⟩ := hpart i t' hi
      have : (t.get k).isSome := by rw [← hsome k hkeys, hy]; rfl
      obtain ⟨v, hv⟩ := Option.isSome_iff_exists.1 this
      rw [hfget, hp1 t (List.mem_of_getElem? ht) k v hv, Option.map_some, hlook i t' k y v hi hy]
    · intro k y hy
      rw [hfget] at hy
      cases hv : s.get k with
      | none => rw [hv] at hy; cases hy
      | some v =>
        obtain ⟨i, t, t', y', _, hi, _, hy', hfin⟩ := hback k v hv
        rw [hfget, hy] at hfin
        cases hfin
        exact ⟨t', List.mem_of_getElem? hi, hy'⟩
  have hfv : ∀ k v y, s.get k = some v → fin.get k = some y → Mapped (PureApplied f rest k) v y ∧ y.isNode = true ∧ WFVal y := by
    intro k v y hv hy
    obtain ⟨i, t, t', y', hi, hi', ht, ht', hfin⟩ := hback k v hv
    rw [hy] at hfin
    cases hfin
    obtain ⟨t2, ht2, _, hm, hw⟩ := hpart i t' hi'
    rw [hi] at ht2
    cases ht2
    have hmap := hm k v y ht ht'
    obtain ⟨_, _, _, _, hn⟩ := hpaths k v hv
    exact ⟨hmap, hmap.isNode (fun path x y ⟨zs, _, e⟩ => hnode x zs y e) hn, hw k y ht'⟩
  have hfsome : ∀ k, (fin.get k).isSome = (s.get k).isSome := fun k => by rw [hfget, Option.isSome_map]
  obtain ⟨wf2, hlen2, hs2, hd2⟩ := revalue_spec wf hl hs hd hfcan hfsome (fun k y hy => by
    have hsk : (s.get k).isSome := by rw [← hfsome, hy]; rfl
    obtain ⟨v, hv⟩ := Option.isSome_iff_exists.1 hsk
    exact (hfv k v y hv hy).2)
  have hl2 : l < (revalue h l fin).length := by rw [hlen2]; exact hl
  obtain ⟨u', g, hm, sp⟩ := mergeDef_spec wf2 hl2 hd2 hs2 hpieces (w := u) wfu.heap.conts
  have hmerge : q.merge u = (u', .ok u.heap.length) := by
    rw [← q1] at hm
    unfold Pure'.merge
    cases hst : q.states.toList with
    | nil =>
      rw [hst] at q3
      exact absurd (List.eq_nil_of_length_eq_zero q3.symm) hne
    | cons a as => rw [hst] at hm; exact hm
  have wfu' : WFWorld u' := by
    refine ⟨sp.wf wf2 wfu.heap wfu.ids, fun a o ho => ?_⟩
    by_cases ha : a < u.heap.length
    · rw [sp.old _ ha] at ho; exact Nat.le_trans (wfu.ids _ _ ho) sp.ids
    · exact (sp.fresh _ _ (Nat.le_of_not_lt ha) ho).2.1
  refine ⟨q, u', _, rfl, hmerge, wfu', sp.old, Nat.le_refl _, fun n hn => ?_⟩
  have hgl : u.heap.length < u'.heap.length := by
    obtain ⟨o', ho', _⟩ := sp.iso.obj l _ ⟨[], .here hl2⟩ (List.getElem?_eq_getElem hl2)
    rw [sp.iso.root] at ho'
    exact (List.getElem?_eq_some_iff.1 ho').1
  obtain ⟨sf, df, e1, e2⟩ := C24_partition_canonical wf2 wfu'.heap hl2 hgl (sp.iso.sameGraph wf2 hl2) (Nat.lt_succ_self _) hn
  refine ⟨fin, ?_, hfkeys, fun k v y hv hy => (hfv k v y hv hy).1⟩
  rw [e2]
  unfold partitionModule at e1
  split at e1
  swap
  · cases e1
  next d' s' hd' hs' =>
  cases e1
  rw [getState_det wf2 hl2 hs' hs2, getModuleDef_det wf2 hl2 hd' hd2]

/-! ### Examples -/

/-- Adds the numbers of arrays. -/
def exSum : List (PyVal Nat) → Except Err (PyVal Nat)
  | .data c a :: zs => .ok (.data c (zs.foldl (fun n z => match z with | .data _ b => n + b | _ => n) a))
  | _ => .ok (.data cArray 0)

theorem exSum_plain : ∀ xs y, exSum xs = .ok y → y.Plain := by
  intro xs y h
  unfold exSum at h
  split at h <;> cases h <;> trivial

theorem exSum_node : ∀ x zs y, exSum (x :: zs) = .ok y → x.isNode = true → y.isNode = true := by
  intro x zs y h hx
  unfold exSum at h
  split at h
  · next he => cases h; cases he; exact hx
  · cases h; decide

theorem exPureModel_good : ∀ s ∈ exPureModel.states.toList, ∀ k v, s.get k = some v → GoodTree v := by
  intro s hs k v hv
  have hm := dget_mem hv
  simp only [exPureModel, States.toList, List.mem_cons, List.not_mem_nil, or_false] at hs
  rcases hs with rfl | rfl <;> simp only [List.mem_cons, List.not_mem_nil, or_false, Prod.mk.injEq] at hm
  · rcases hm with ⟨_, rfl⟩ | ⟨_, rfl⟩ <;> exact .cont (exParam_wf _) (.leaf trivial)
  · obtain ⟨_, rfl⟩ := hm
    exact .cont (exStat_wf _) (.leaf trivial)

theorem exPureModel_tree : TreePure exPureModel := by
  intro s hs
  refine ⟨?_, exPureModel_good s hs⟩
  simp only [exPureModel, States.toList, List.mem_cons, List.not_mem_nil, or_false] at hs
  rcases hs with rfl | rfl <;> decide

omit [DecidableEq α] in
theorem fits_refl {v : PyVal α} (h : GoodTree v) : Fits v v := by
  induction h with
  | leaf h => exact .leaf h
  | none => exact .none
  | tup _ ih => exact .tup rfl fun i x y hx hy => (by rw [hx] at hy; cases hy; exact ih x (List.mem_of_getElem? hx))
  | dict _ _ ih => exact .dict (fun _ => Iff.rfl) fun k x y hx hy => (by rw [hx] at hy; cases hy; exact ih k x hx)
  | @cont c v m wf _ ih =>
    by_cases hc : c.isSub cNodeBase = true
    · exact .cont hc (fun _ => rfl) ih
    · by_cases hs : c = cStatic
      · subst hs; exact .static
      · exact .leaf ⟨by simpa using hc, hs⟩
  | tree _ _ ih =>
    exact .tree (fun _ => Iff.rfl) (fun k x y hx hy => by rw [hx] at hy; cases hy; rfl)
      (fun k x y hx hn hy => by rw [hx] at hy; cases hy; exact ih k x hx hn) (fun k x hx _ => hx)

/-- A Pure fits itself. -/
theorem pureFits_refl {p : Pure' α} (h : TreePure p) (hd : p.moduledef.auxEqv p.moduledef = true) : PureFits p p :=
  ⟨rfl, rfl, fun i s t hs ht => (by
    rw [hs] at ht; cases ht
    exact ⟨rfl, fun k x u hx hu => (by rw [hx] at hu; cases hu; exact fits_refl ((h s (List.mem_of_getElem? hs)).good k x hx))⟩), hd⟩

/-- The theorems apply: the sum of the model and itself merges to a model with the doubled values. -/
example : ∃ q u' r, pureTreeMap exSum exPureModel [exPureModel] = .ok q ∧ q.merge exWorld = (u', .ok r) ∧
    ∀ n, u'.heap.length < n → ∃ s', partitionModule n u'.heap r [] = .ok ([s'], exPureModel.moduledef) ∧ s'.keys = [py! "a/s", py! "a/w", py! "w"] := by
  have hs : getState 3 exHeap 0 = some ⟨[(py! "a/s", exStat 6), (py! "a/w", exParam 5), (py! "w", exParam 1)]⟩ := by decide +kernel
  have hp : modulePure 3 exHeap 0 [.ofType cParam, .ellipsis] = .ok exPureModel := by rfl
  obtain ⟨q, u', r, h1, h2, _, _, _, h3⟩ := C103_tree_map exSum_plain exSum_node exHeap_wf (by decide) hp hs
    (by
      intro k v hv
      have hm := dget_mem hv
      simp only [List.mem_cons, List.not_mem_nil, or_false, Prod.mk.injEq] at hm
      rcases hm with ⟨_, rfl⟩ | ⟨_, rfl⟩ | ⟨_, rfl⟩
      · exact .cont (exStat_wf _) (.leaf trivial)
      · exact .cont (exParam_wf _) (.leaf trivial)
      · exact .cont (exParam_wf _) (.leaf trivial))
    (rest := [exPureModel]) (by
      intro r hr
      cases List.mem_singleton.1 hr
      exact ⟨exPureModel_tree, pureFits_refl exPureModel_tree (by decide +kernel)⟩)
    (by
      intro k path x v zs _ _ _ _
      unfold exSum
      split <;> exact ⟨_, rfl⟩)
    exWorld_wf
  refine ⟨q, u', r, h1, h2, fun n hn => ?_⟩
  obtain ⟨s', g1, g2, _⟩ := h3 n hn
  exact ⟨s', g1, g2⟩

/-- The same sum computed: every number is doubled, in both States. -/
example : (match pureTreeMap exSum exPureModel [exPureModel] with
    | .ok q => decide (q.states.toList = [⟨[(py! "a/w", exParam 10), (py! "w", exParam 2)]⟩, ⟨[(py! "a/s", exStat 12)]⟩])
    | .error _ => false) = true := by decide +kernel

/-- Flattening: the three leaves, in the order of the States and of the paths; rebuilding gives the Pure back. -/
example : (pureFlatten exPureModel).map (·.1) = .ok [.data cArray 5, .data cArray 1, .data cArray 6] ∧
    ∃ xs t, pureFlatten exPureModel = .ok (xs, t) ∧ pureUnflatten t xs = .ok exPureModel := by
  refine ⟨by decide +kernel, C103_round_trip_flat exPureModel_tree ?_⟩
  intro s hs k v hv
  have hm := dget_mem hv
  simp only [exPureModel, States.toList, List.mem_cons, List.not_mem_nil, or_false] at hs
  rcases hs with rfl | rfl <;> simp only [List.mem_cons, List.not_mem_nil, or_false, Prod.mk.injEq] at hm
  · rcases hm with ⟨_, rfl⟩ | ⟨_, rfl⟩ <;> exact .inr ⟨_, _, _, rfl, trivial⟩
  · obtain ⟨_, rfl⟩ := hm
    exact .inr ⟨_, _, _, rfl, trivial⟩

/-- Whether a call raises ValueError. -/
def raisesValueError {X : Type} : Except Err X → Bool
  | .error .valueError => true
  | _ => false

/-- A Pure whose States are not in a tuple does not fit, nor does one with another initializing flag of the root. -/
example : raisesValueError (pureTreeMap exSum exPureModel [⟨.one ⟨[(py! "a/w", exParam 10), (py! "w", exParam 2)]⟩, exPureModel.moduledef⟩]) = true ∧
    raisesValueError (pureTreeMap exSum exPureModel
      [⟨exPureModel.states, { exPureModel.moduledef with isInit := !exPureModel.moduledef.isInit }⟩]) = true := by
  exact ⟨by decide +kernel, by decide +kernel⟩

end Nnx
