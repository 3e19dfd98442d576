import Verif.Spec.Interrupt
import Verif.Props.ModulePop
/-
Property C114: an interrupted pop_state can be repeated, but what it has removed is lost.
-/
namespace Nnx
variable {α : Type}

/-- `x` is `h` without some attributes that a pop removes: those of modules visited under some path of `V`. -/
structure PopSub (preds : List (Pred α)) (V : List (Loc × List Str)) (h x : Heap α) : Prop where
  len : x.length = h.length
  obj : ∀ (a : Loc) (o : ModObj α), h[a]? = some o → ∃ keep : Str × Attr α → Bool,
    x[a]? = some { o with attrs := o.attrs.filter keep } ∧
    ∀ na ∈ o.attrs, keep na = false → ∃ q, (a, q) ∈ V ∧ keepAttr preds q na = false

theorem PopSub.refl (preds : List (Pred α)) (V : List (Loc × List Str)) (h : Heap α) : PopSub preds V h h :=
  ⟨rfl, fun a o ho => ⟨fun _ => true, by rw [ho]; simp, by simp⟩⟩

theorem PopSub.trans {preds : List (Pred α)} {V : List (Loc × List Str)} {h x y : Heap α} (h1 : PopSub preds V h x)
    (h2 : PopSub preds V x y) : PopSub preds V h y := by
  refine ⟨h2.len.trans h1.len, fun a o ho => ?_⟩
  obtain ⟨k1, e1, r1⟩ := h1.obj a o ho
  obtain ⟨k2, e2, r2⟩ := h2.obj a _ e1
  refine ⟨fun na => k2 na && k1 na, by rw [e2]; simp [List.filter_filter, Bool.and_comm], fun na hna hk => ?_⟩
  by_cases hk1 : k1 na = true
  · exact r2 na (List.mem_filter.2 ⟨hna, hk1⟩) (by simpa [hk1] using hk)
  · exact r1 na hna (by simpa using hk1)

theorem PopSub.mono {preds : List (Pred α)} {V V' : List (Loc × List Str)} {h x : Heap α} (hs : PopSub preds V h x)
    (hV : ∀ y ∈ V, y ∈ V') : PopSub preds V' h x :=
  ⟨hs.len, fun a o ho => by
    obtain ⟨k, e, r⟩ := hs.obj a o ho
    exact ⟨k, e, fun na hna hk => by obtain ⟨q, hq, hk'⟩ := r na hna hk; exact ⟨q, hV _ hq, hk'⟩⟩⟩

/-- Modules are never removed. -/
theorem keep_ref {preds : List (Pred α)} {V : List (Loc × List Str)} {a : Loc} {as : List (Str × Attr α)} {keep : Str × Attr α → Bool}
    (hr : ∀ na ∈ as, keep na = false → ∃ q, (a, q) ∈ V ∧ keepAttr preds q na = false) {n : Str} {b : Loc}
    (hm : (n, Attr.ref b) ∈ as) : keep (n, .ref b) = true := by
  cases hk : keep (n, .ref b) with
  | true => rfl
  | false =>
    obtain ⟨q, _, h⟩ := hr _ hm hk
    simp [keepAttr] at h

theorem popVisitAttrs_filter (rec : Loc → List Nat → List Str → List (Loc × List Str)) (uid : Loc → Nat)
    {keep : Str × Attr α → Bool} : ∀ (as : List (Str × Attr α)) (idx : List Nat) (p : List Str),
    (∀ n b, (n, Attr.ref b) ∈ as → keep (n, .ref b) = true) →
    popVisitAttrs rec uid (as.filter keep) idx p = popVisitAttrs rec uid as idx p := by
  intro as
  induction as with
  | nil => intro idx p _; rfl
  | cons na as ih =>
    intro idx p hk
    obtain ⟨n, a⟩ := na
    have hk' : ∀ n b, (n, Attr.ref b) ∈ as → keep (n, .ref b) = true := fun n b h => hk n b (List.mem_cons_of_mem _ h)
    cases a with
    | ref b =>
      rw [List.filter_cons_of_pos (hk n b List.mem_cons_self)]
      simp only [popVisitAttrs, ih _ _ hk']
    | val v =>
      by_cases hv : keep (n, .val v) = true
      · rw [List.filter_cons_of_pos hv]; simp only [popVisitAttrs, ih _ _ hk']
      · rw [List.filter_cons_of_neg hv]; simp only [popVisitAttrs, ih _ _ hk']

theorem PopSub.uid {preds : List (Pred α)} {V : List (Loc × List Str)} {h x : Heap α} (hs : PopSub preds V h x) (a : Loc) :
    uidAt x a = uidAt h a := by
  cases ho : h[a]? with
  | some o =>
    obtain ⟨k, e, _⟩ := hs.obj a o ho
    rw [uidAt_of e, uidAt_of ho]
  | none =>
    have : x[a]? = none := by
      rw [List.getElem?_eq_none_iff] at ho ⊢
      rw [hs.len]; exact ho
    simp [uidAt, ho, this]

/-- The visits do not depend on what has been removed. -/
theorem PopSub.visit {preds : List (Pred α)} {V : List (Loc × List Str)} {h x : Heap α} (hs : PopSub preds V h x) :
    ∀ fuel, popVisit x fuel = popVisit h fuel := by
  have hu : uidAt x = uidAt h := funext hs.uid
  intro fuel
  induction fuel with
  | zero => rfl
  | succ fuel ih =>
    funext l idx p
    simp only [popVisit]
    cases ho : h[l]? with
    | none =>
      have : x[l]? = none := by
        rw [List.getElem?_eq_none_iff] at ho ⊢
        rw [hs.len]; exact ho
      rw [this]
    | some o =>
      obtain ⟨k, e, r⟩ := hs.obj l o ho
      rw [e]
      simp only
      rw [ih, hu, popVisitAttrs_filter _ _ _ _ _ (fun n b hm => keep_ref r hm)]

theorem attrAt_popSub {preds : List (Pred α)} {V : List (Loc × List Str)} {h x : Heap α} (wf : WFHeap h) (hs : PopSub preds V h x)
    (l : Loc) (n : Str) : attrAt x l n = attrAt h l n ∨ (attrAt x l n = none ∧ ∃ v q, attrAt h l n = some (.val v) ∧
      (l, q) ∈ V ∧ v.isNode = true ∧ AnyP preds (joinSlash (q ++ [n])) v = true) := by
  cases ho : h[l]? with
  | none =>
    have : x[l]? = none := by
      rw [List.getElem?_eq_none_iff] at ho ⊢
      rw [hs.len]; exact ho
    left; simp [attrAt, ho, this]
  | some o =>
    obtain ⟨k, e, r⟩ := hs.obj l o ho
    have e1 : attrAt x l n = (dget o.attrs n).filter (fun a => k (n, a)) := by
      simp only [attrAt, e]; exact dget_filter (wf.nodup _ _ ho) (fun n a => k (n, a)) n
    have e2 : attrAt h l n = dget o.attrs n := by simp [attrAt, ho]
    rw [e1, e2]
    cases hd : dget o.attrs n with
    | none => left; rfl
    | some a =>
      cases hk : k (n, a) with
      | true => left; simp [Option.filter, hk]
      | false =>
        obtain ⟨q, hq, hka⟩ := r _ (dget_mem hd) hk
        right
        refine ⟨by simp [Option.filter, hk], ?_⟩
        cases a with
        | ref b => simp [keepAttr] at hka
        | val v =>
          simp only [keepAttr, Bool.not_eq_eq_eq_not, Bool.not_false, Bool.and_eq_true] at hka
          exact ⟨v, q, rfl, hq, hka.1, hka.2⟩

theorem PopSub.wf {preds : List (Pred α)} {V : List (Loc × List Str)} {h x : Heap α} (wf : WFHeap h) (hs : PopSub preds V h x) :
    WFHeap x := by
  have hold : ∀ (l : Loc) (o' : ModObj α), x[l]? = some o' → ∃ o keep, h[l]? = some o ∧ o' = { o with attrs := o.attrs.filter keep } := by
    intro l o' ho'
    have hl : l < h.length := by rw [← hs.len]; exact (List.getElem?_eq_some_iff.1 ho').1
    obtain ⟨k, e, _⟩ := hs.obj l _ (List.getElem?_eq_getElem hl)
    rw [ho'] at e
    exact ⟨_, k, List.getElem?_eq_getElem hl, Option.some.inj e⟩
  have hat : ∀ l n a, attrAt x l n = some a → attrAt h l n = some a := by
    intro l n a ha
    rcases attrAt_popSub wf hs l n with h1 | ⟨h1, _⟩
    · rw [← h1]; exact ha
    · rw [h1] at ha; cases ha
  refine ⟨?_, ?_, ?_, ?_, ?_, ?_⟩
  · intro l o' ho'
    obtain ⟨o, k, ho, rfl⟩ := hold l o' ho'
    exact dnodup_filter (wf.nodup l o ho) _
  · intro l n l' ha; rw [hs.len]; exact wf.refs l n l' (hat _ _ _ ha)
  · intro l l' o1 o2 h1 h2 hu
    obtain ⟨p1, k1, g1, rfl⟩ := hold l o1 h1
    obtain ⟨p2, k2, g2, rfl⟩ := hold l' o2 h2
    exact wf.uids l l' p1 p2 g1 g2 hu
  · intro l n c v m ha; exact wf.conts l n c v m (hat _ _ _ ha)
  · intro l n a ha; exact wf.slash l n a (hat _ _ _ ha)
  · intro l n a ha; exact wf.reserved l n a (hat _ _ _ ha)

theorem ddel_eq_filter {K V : Type _} [DecidableEq K] {d : Dict K V} (hn : DNodup d) (k : K) :
    ddel d k = d.filter (fun kv => decide (kv.1 ≠ k)) := by
  induction d with
  | nil => rfl
  | cons x d ih =>
    obtain ⟨k', v⟩ := x
    have hn' : k' ∉ d.map (·.1) ∧ DNodup d := by
      unfold DNodup dkeys at hn ⊢
      simpa [List.nodup_cons] using hn
    simp only [ddel]
    split
    · next h =>
      subst h
      rw [List.filter_cons_of_neg (by simp)]
      symm
      rw [List.filter_eq_self]
      intro kv hkv
      have : kv.1 ≠ k' := fun h => hn'.1 (List.mem_map.2 ⟨kv, hkv, h⟩)
      simpa using this
    · next h => rw [List.filter_cons_of_pos (by simpa using h), ih hn'.2]

theorem popSub_delAttr {preds : List (Pred α)} {V : List (Loc × List Str)} {h x y : Heap α} (wf : WFHeap h) (hs : PopSub preds V h x)
    {l : Loc} {n : Str} {v : PyVal α} {p : List Str} (hV : (l, p) ∈ V) (ha : attrAt h l n = some (.val v))
    (hk : keepAttr preds p (n, .val v) = false) (e : delAttr x l n = .ok y) : PopSub preds V h y := by
  have hl : l < h.length := attrAt_some_lt ha
  have ho := List.getElem?_eq_getElem hl
  generalize h[l] = o at ho
  obtain ⟨k, e1, r⟩ := hs.obj l o ho
  simp only [delAttr, e1] at e
  split at e
  swap
  · cases e
  simp only [Except.ok.injEq] at e
  subst e
  have hlx : l < x.length := by rw [hs.len]; exact hl
  refine ⟨by rw [List.length_set]; exact hs.len, fun a o' ho' => ?_⟩
  by_cases hal : a = l
  · subst hal
    rw [ho] at ho'; cases ho'
    refine ⟨fun na => decide (na.1 ≠ n) && k na, ?_, ?_⟩
    · rw [List.getElem?_set_self hlx, ddel_eq_filter (dnodup_filter (wf.nodup _ _ ho) _)]
      simp [List.filter_filter]
    · rintro ⟨m, b⟩ hm hkm
      by_cases hmn : m = n
      · subst hmn
        have h1 : attrAt h a m = some b := attrAt_of_mem wf ho hm
        rw [ha] at h1
        cases h1
        exact ⟨p, hV, hk⟩
      · exact r _ hm (by simpa [hmn] using hkm)
  · rw [List.getElem?_set, if_neg (fun e => hal e.symm)]
    exact hs.obj a o' ho'

theorem popInsert_length (preds : List (Pred α)) : ∀ (states states' : List (Dict Str (PyVal α))) (k : Str) (v : PyVal α),
    popInsert preds states k v = some states' → states'.length = states.length := by
  induction preds with
  | nil => intro states states' k v h; simp [popInsert] at h
  | cons p ps ih =>
    intro states states' k v h
    cases states with
    | nil => simp [popInsert] at h
    | cons d ds =>
      simp only [popInsert] at h
      split at h
      · cases h; rfl
      · obtain ⟨ds', h1, rfl⟩ := Option.map_eq_some_iff.1 h
        simp [ih _ _ _ _ h1]

/-- An interrupted traversal removes only what the whole traversal removes. -/
theorem popRecUpTo_spec {h0 : Heap α} (wf : WFHeap h0) (preds : List (Pred α)) (V : List (Loc × List Str)) :
    ∀ (fuel budget : Nat) (l : Loc) (h : Heap α) (idx : List Nat) (p : List Str) (states : List (Dict Str (PyVal α))),
    PopSub preds V h0 h → (∀ x ∈ popVisit h0 fuel l idx p, x ∈ V) → states.length = preds.length →
    PopSub preds V h0 (popRecUpTo preds fuel budget l h idx p states).1 ∧
    ∀ b idx' st', (popRecUpTo preds fuel budget l h idx p states).2 = some (b, idx', st') →
      idx' = idx ++ (popVisit h0 fuel l idx p).map (fun x => uidAt h0 x.1) ∧ st'.length = preds.length := by
  intro fuel
  induction fuel with
  | zero => intro budget l h idx p states hs _ _; exact ⟨hs, by simp [popRecUpTo]⟩
  | succ fuel ih =>
    intro budget l h idx p states hs hV hlen
    have loop : ∀ (as : List (Str × Attr α)) (budget : Nat) (h : Heap α) (idx : List Nat) (states : List (Dict Str (PyVal α))),
        (∀ n a, (n, a) ∈ as → attrAt h0 l n = some a) → PopSub preds V h0 h → (l, p) ∈ V →
        (∀ x ∈ popVisitAttrs (popVisit h0 fuel) (uidAt h0) as idx p, x ∈ V) → states.length = preds.length →
        PopSub preds V h0 (popAttrsUpTo (popRecUpTo preds fuel) preds l as budget h idx p states).1 ∧
        ∀ b idx' st', (popAttrsUpTo (popRecUpTo preds fuel) preds l as budget h idx p states).2 = some (b, idx', st') →
          idx' = idx ++ (popVisitAttrs (popVisit h0 fuel) (uidAt h0) as idx p).map (fun x => uidAt h0 x.1) ∧
          st'.length = preds.length := by
      intro as
      induction as with
      | nil =>
        intro budget h idx states _ hs _ _ hlen
        refine ⟨hs, fun b idx' st' e => ?_⟩
        simp only [popAttrsUpTo, Option.some.injEq, Prod.mk.injEq] at e
        obtain ⟨-, rfl, rfl⟩ := e
        exact ⟨by simp [popVisitAttrs], hlen⟩
      | cons na as iha =>
        intro budget h idx states hmem hs hl hV hlen
        obtain ⟨n, a⟩ := na
        have hmem' : ∀ n a, (n, a) ∈ as → attrAt h0 l n = some a := fun n a hm => hmem n a (List.mem_cons_of_mem _ hm)
        cases a with
        | ref b =>
          simp only [popVisitAttrs, List.mem_append] at hV
          obtain ⟨g1, g2⟩ := ih budget b h idx (p ++ [n]) states hs (fun x hx => hV x (.inl hx)) hlen
          simp only [popAttrsUpTo]
          generalize popRecUpTo preds fuel budget b h idx (p ++ [n]) states = res at g1 g2
          obtain ⟨h1, r1⟩ := res
          cases r1 with
          | none => exact ⟨g1, by simp⟩
          | some r1 =>
            obtain ⟨b1, idx1, st1⟩ := r1
            obtain ⟨rfl, hl1⟩ := g2 b1 idx1 st1 rfl
            obtain ⟨k1, k2⟩ := iha b1 h1 _ st1 hmem' g1 hl (fun x hx => hV x (.inr hx)) hl1
            refine ⟨k1, fun b2 idx2 st2 e => ?_⟩
            obtain ⟨rfl, hl2⟩ := k2 b2 idx2 st2 e
            exact ⟨by simp [popVisitAttrs], hl2⟩
        | val v =>
          simp only [popVisitAttrs] at hV
          simp only [popAttrsUpTo]
          by_cases hv : v.isNode = true
          swap
          · rw [if_neg hv]; exact iha budget h idx states hmem' hs hl hV hlen
          · rw [if_pos hv]
            cases hi : popInsert preds states (joinSlash (p ++ [n])) v with
            | none => exact iha budget h idx states hmem' hs hl hV hlen
            | some st =>
              have hst : st.length = preds.length := (popInsert_length _ _ _ _ _ hi).trans hlen
              have hany : AnyP preds (joinSlash (p ++ [n])) v = true := by
                rw [popInsert_eq _ _ _ _ hlen] at hi
                split at hi
                · next h => exact h
                · cases hi
              cases budget with
              | zero => exact ⟨hs, by simp⟩
              | succ budget =>
                simp only
                cases hd : delAttr h l n with
                | error er => exact ⟨hs, by simp⟩
                | ok h1 =>
                  have hs1 := popSub_delAttr wf hs hl (hmem n _ List.mem_cons_self)
                    (by simp [keepAttr, hv, hany]) hd
                  exact iha budget h1 idx st hmem' hs1 hl hV hst
    simp only [popRecUpTo]
    cases ho0 : h0[l]? with
    | none =>
      have : h[l]? = none := by
        rw [List.getElem?_eq_none_iff] at ho0 ⊢
        rw [hs.len]; exact ho0
      rw [this]
      exact ⟨hs, by simp⟩
    | some o =>
      obtain ⟨k, e, r⟩ := hs.obj l o ho0
      rw [e]
      simp only [popVisit, ho0] at hV ⊢
      by_cases hin : o.uid ∈ idx
      · rw [if_pos hin, if_pos hin]
        refine ⟨hs, fun b idx' st' e => ?_⟩
        simp only [Option.some.injEq, Prod.mk.injEq] at e
        obtain ⟨-, rfl, rfl⟩ := e
        exact ⟨by simp, hlen⟩
      · rw [if_neg hin] at hV
        rw [if_neg hin, if_neg hin]
        have hfil := popVisitAttrs_filter (popVisit h0 fuel) (uidAt h0) (keep := k) o.attrs idx p (fun n b hm => keep_ref r hm)
        obtain ⟨g1, g2⟩ := loop (o.attrs.filter k) budget h idx states
          (fun n a hm => attrAt_of_mem wf ho0 (List.mem_of_mem_filter hm)) hs (hV _ (by simp))
          (by rw [hfil]; exact fun x hx => hV x (List.mem_append_left _ hx)) hlen
        rw [hfil] at g2
        generalize popAttrsUpTo (popRecUpTo preds fuel) preds l (o.attrs.filter k) budget h idx p states = res at g1 g2
        obtain ⟨h1, r1⟩ := res
        cases r1 with
        | none => exact ⟨g1, by simp⟩
        | some r1 =>
          obtain ⟨b1, idx1, st1⟩ := r1
          obtain ⟨rfl, hl1⟩ := g2 b1 idx1 st1 rfl
          refine ⟨g1, fun b2 idx2 st2 e => ?_⟩
          simp only [Option.some.injEq, Prod.mk.injEq] at e
          obtain ⟨-, rfl, rfl⟩ := e
          exact ⟨by simp [uidAt_of ho0], hl1⟩

/-- Attempts remove only what the call removes. -/
theorem PopAttempts.sub {h x : Heap α} (wf : WFHeap h) {root : Loc} {filters : List (Filter α)} {preds : List (Pred α)}
    (hp : toPredicates filters = .ok preds) {fuel : Nat} (ha : PopAttempts fuel root filters h x) :
    PopSub preds (popVisit h fuel root [] []) h x := by
  induction ha with
  | start => exact .refl _ _ _
  | @interrupted y n _ ih =>
    refine ih.trans ?_
    unfold popInterrupted
    split
    · exact .refl _ _ _
    · rw [hp]
      simp only
      have := (popRecUpTo_spec (ih.wf wf) preds (popVisit h fuel root [] []) fuel n root y [] [] (List.replicate preds.length [])
        (.refl _ _ _) (by rw [ih.visit]; exact fun _ h => h) (by simp)).1
      exact this

theorem popState_wellFormed {h h' : Heap α} {root : Loc} {filters : List (Filter α)} {fuel : Nat} {ss : List (State (PyVal α))}
    (e : popState fuel root filters h = (h', .ok ss)) : filters ≠ [] ∧ ∀ f ∈ filters, f.WellFormed := by
  refine ⟨by rintro rfl; simp [popState] at e, ?_⟩
  rcases toPredicates_spec filters with ⟨h1, _⟩ | ⟨_, x, hx⟩
  · exact AllWellFormed_iff.1 h1
  · unfold popState at e
    split at e
    · simp at e
    · rw [hx] at e; simp at e

/-! ### C114 -/

/-- **C114.** `m.pop_state(f1..fn)` on a graph without reference cycles, after any number of attempts that were
interrupted. There is one path per reachable Module, the same after all attempts, such that: an attempt leaves
everything as it was, except that some of the attributes that match a filter under this path may be missing; and
the repeated call returns, leaves exactly the Modules that one uninterrupted call leaves (`h'`), and its State `i`
holds exactly the attributes that are still there and have filter `i` as their first match. -/
theorem C114_repeat {h : Heap α} (wf : WFHeap h) {root : Loc} (hroot : root < h.length) (hac : Acyclic h root)
    {filters : List (Filter α)} {fuel : Nat} (hf : h.length < fuel) {h' : Heap α} {ss : List (State (PyVal α))}
    (e : popState fuel root filters h = (h', .ok ss)) :
    ∃ path : Loc → List Str, (∀ l, Reaches h root l → Walk h root (path l) l) ∧
      ∀ x, PopAttempts fuel root filters h x →
        (x.length = h.length ∧ ∀ (l : Loc) (o : ModObj α), h[l]? = some o → ∃ o', x[l]? = some o' ∧ o'.cls = o.cls ∧ o'.uid = o.uid ∧
          o'.isInit = o.isInit ∧ o'.trace = o.trace) ∧
        (∀ l n, attrAt x l n = attrAt h l n ∨ (attrAt x l n = none ∧ ∃ v, Reaches h root l ∧ attrAt h l n = some (.val v) ∧
          v.isNode = true ∧ ∃ f ∈ filters, f.Matches (joinSlash (path l ++ [n])) v)) ∧
        ∃ ss', popState fuel root filters x = (h', .ok ss') ∧ ss'.length = filters.length ∧
          ∀ (i : Nat) (t : State (PyVal α)), ss'[i]? = some t → ∀ k v, t.get k = some v ↔
            ∃ l n, Reaches h root l ∧ attrAt x l n = some (.val v) ∧ v.isNode = true ∧ k = joinSlash (path l ++ [n]) ∧
              FirstMatch filters k v i := by
  obtain ⟨hne, hwf⟩ := popState_wellFormed e
  rcases toPredicates_spec filters with ⟨_, preds, hp, hspec⟩ | ⟨hn, _⟩
  swap
  · exact absurd (AllWellFormed_iff.2 hwf) hn
  have hAny : ∀ k v, AnyP preds k v = true ↔ ∃ f ∈ filters, f.Matches k v := fun k v => by
    rw [(hspec k v).1, SomeMatches_iff]
  have hemp : filters.isEmpty = false := by cases filters with | nil => exact absurd rfl hne | cons _ _ => rfl
  obtain ⟨vs, evs, h1, e1, hvs, -, hnd, hx, -, hh⟩ := popRec_spec wf preds fuel root [] h [] (List.replicate preds.length [])
    hroot (Nat.lt_of_le_of_lt (rank_le h root) hf) hac ⟨fun a o0 ha => ⟨o0, ha, rfl⟩, by simp⟩ (fun _ _ _ => rfl) (by simp)
  have hh1 : h1 = h' := by
    simp only [popState, hemp, hp, e1] at e
    simpa using (Prod.mk.inj e).1
  subst hh1
  have hwalk : ∀ y ∈ vs, Walk h root y.2 y.1 := by
    intro y hy
    obtain ⟨_, q, hq, hw⟩ := hx y hy
    rw [hq]; simpa using hw
  refine ⟨visitPath (popVisit h fuel root [] []), ?_, ?_⟩
  · obtain ⟨_, _, _, _, hpath, _⟩ := popState_effect_at wf hroot hac hne hwf hf
    exact hpath
  intro x ha
  have hs := ha.sub wf hp
  have wfx := hs.wf wf
  have hrefs : ∀ l n b, attrAt x l n = some (.ref b) ↔ attrAt h l n = some (.ref b) := by
    intro l n b
    rcases attrAt_popSub wf hs l n with h1 | ⟨h1, v, q, h2, _⟩
    · rw [h1]
    · rw [h1, h2]; simp
  have hwx : ∀ a p b, Walk x a p b ↔ Walk h a p b := fun a p b =>
    ⟨fun w => w.congr hs.len.symm (fun l n b hb => (hrefs l n b).1 hb),
     fun w => w.congr hs.len (fun l n b hb => (hrefs l n b).2 hb)⟩
  have hreach : ∀ a b, Reaches x a b ↔ Reaches h a b := fun a b =>
    ⟨fun ⟨p, w⟩ => ⟨p, (hwx _ _ _).1 w⟩, fun ⟨p, w⟩ => ⟨p, (hwx _ _ _).2 w⟩⟩
  have hacx : Acyclic x root := fun a hr p w => hac a ((hreach _ _).1 hr) p ((hwx _ _ _).1 w)
  have hrootx : root < x.length := by rw [hs.len]; exact hroot
  have hfx : x.length < fuel := by rw [hs.len]; exact hf
  refine ⟨⟨hs.len, ?_⟩, ?_, ?_⟩
  · intro l o ho
    obtain ⟨k, e, _⟩ := hs.obj l o ho
    exact ⟨_, e, rfl, rfl, rfl, rfl⟩
  · intro l n
    rcases attrAt_popSub wf hs l n with h1 | ⟨h1, v, q, h2, h3, h4, h5⟩
    · exact .inl h1
    · right
      refine ⟨h1, v, ?_, h2, h4, ?_⟩
      · rw [← hvs] at h3
        exact ⟨_, hwalk _ h3⟩
      · have hvp : visitPath (popVisit h fuel root [] []) l = q := by
          rw [← hvs] at h3 ⊢; exact visitPath_of_mem hnd h3
        rw [hvp]
        exact (hAny _ _).1 h5
  · obtain ⟨h2, ss2, g1, g2, -, g4, -⟩ := popState_effect_at wfx hrootx hacx hne hwf hfx
    rw [hs.visit] at g4
    obtain ⟨vs', evs', h2', e2, hvs', -, -, -, -, hh'⟩ := popRec_spec wfx preds fuel root [] x [] (List.replicate preds.length [])
      hrootx (Nat.lt_of_le_of_lt (rank_le x root) hfx) hacx ⟨fun a o0 ha => ⟨o0, ha, rfl⟩, by simp⟩ (fun _ _ _ => rfl) (by simp)
    have : h2' = h2 := by
      simp only [popState, hemp, hp, e2] at g1
      simpa using (Prod.mk.inj g1).1
    subst this
    rw [hs.visit, ← hvs] at hvs'
    subst hvs'
    have heq : h2' = h1 := by
      apply List.ext_getElem?
      intro l
      cases ho : h[l]? with
      | none =>
        have hlx : x[l]? = none := by
          rw [List.getElem?_eq_none_iff] at ho ⊢
          rw [hs.len]; exact ho
        have hnv : l ∉ vs'.map (·.1) := by
          intro hm
          obtain ⟨y, hy, rfl⟩ := List.mem_map.1 hm
          have := (hwalk y hy).lt
          exact absurd this (Nat.not_lt.2 (List.getElem?_eq_none_iff.1 ho))
        rw [hh.outside l hnv (by simp), hh'.outside l hnv (by simp), ho, hlx]
      | some o =>
        obtain ⟨k, ek, r⟩ := hs.obj l o ho
        by_cases hm : l ∈ vs'.map (·.1)
        · obtain ⟨y, hy, rfl⟩ := List.mem_map.1 hm
          rw [hh.inside y hy o ho, hh'.inside y hy _ ek]
          simp only [List.filter_filter, Option.some.injEq]
          congr 1
          apply List.filter_congr
          intro na hna
          cases hk : k na with
          | true => simp
          | false =>
            obtain ⟨q, hq, hka⟩ := r na hna hk
            rw [← hvs] at hq
            have : y = (y.1, q) := eq_of_map_nodup hnd hy hq rfl
            have hy2 : y.2 = q := congrArg Prod.snd this
            rw [hy2, hka]; rfl
        · rw [hh.outside l hm (by simp), hh'.outside l hm (by simp), ho, ek]
          congr 1
          have : o.attrs.filter k = o.attrs := by
            rw [List.filter_eq_self]
            intro na hna
            cases hk : k na with
            | true => rfl
            | false =>
              obtain ⟨q, hq, _⟩ := r na hna hk
              rw [← hvs] at hq
              exact absurd (List.mem_map.2 ⟨_, hq, rfl⟩) hm
          rw [this]
    rw [heq] at g1
    refine ⟨ss2, g1, g2, fun i t ht k v => ?_⟩
    rw [g4 i t ht k v]
    constructor
    · rintro ⟨l, n, hr, hat, hnode, hk, hfm⟩
      exact ⟨l, n, (hreach _ _).1 hr, hat, hnode, hk, hfm⟩
    · rintro ⟨l, n, hr, hat, hnode, hk, hfm⟩
      exact ⟨l, n, (hreach _ _).2 hr, hat, hnode, hk, hfm⟩

/-- **C114, what an attempt has removed is lost.** No State that the repeated call returns has an entry for an attribute
that an interrupted attempt has removed. -/
theorem C114_lost {h : Heap α} (wf : WFHeap h) {root : Loc} (hroot : root < h.length) (hac : Acyclic h root)
    {filters : List (Filter α)} {fuel : Nat} (hf : h.length < fuel) {h' : Heap α} {ss : List (State (PyVal α))}
    (e : popState fuel root filters h = (h', .ok ss)) {x x' : Heap α} (ha : PopAttempts fuel root filters h x)
    {ss' : List (State (PyVal α))} (e' : popState fuel root filters x = (x', .ok ss')) {l : Loc} {n : Str}
    (hgone : attrAt x l n = none) {p : List Str} (hp : Walk h root p l) (hn : NoSlash n) :
    ∀ t ∈ ss', t.get (joinSlash (p ++ [n])) = none := by
  obtain ⟨path, hpath, hall⟩ := C114_repeat wf hroot hac hf e
  obtain ⟨-, -, ss2, e2, -, hget⟩ := hall x ha
  rw [e'] at e2
  obtain ⟨-, h2⟩ := Prod.mk.inj e2
  obtain rfl := Except.ok.inj h2
  intro t ht
  obtain ⟨i, hi⟩ := List.getElem?_of_mem ht
  cases hk : t.get (joinSlash (p ++ [n])) with
  | none => rfl
  | some v =>
    exfalso
    obtain ⟨l', n', hr, hat, _, hkey, _⟩ := (hget i t hi _ v).1 hk
    have hat' : attrAt h l' n' = some (.val v) := by
      rcases (hall x ha).2.1 l' n' with h1 | ⟨h1, _⟩
      · rw [← h1]; exact hat
      · rw [h1] at hat; cases hat
    obtain ⟨h3, h4⟩ := joinSlash_path_inj (hp.noSlash wf) hn ((hpath l' hr).noSlash wf) (wf.slash _ _ _ hat') hkey
    subst h4
    rw [h3] at hp
    obtain rfl := hp.functional (hpath l' hr)
    rw [hgone] at hat; cases hat

/-- The model of the interrupted call is that of the call: if it is not stopped early, it does what `pop_state`
does. -/
theorem C114_not_stopped {h : Heap α} {root : Loc} {filters : List (Filter α)} {fuel : Nat} {h' : Heap α} {ss : List (State (PyVal α))}
    (e : popState fuel root filters h = (h', .ok ss)) : ∃ N, ∀ m, popInterrupted (N + m) fuel root filters h = h' := by
  have key : ∀ (preds : List (Pred α)) (fuel : Nat) (l : Loc) (h : Heap α) (idx : List Nat) (p : List Str)
      (states : List (Dict Str (PyVal α))) (h' : Heap α) (idx' : List Nat) (st' : List (Dict Str (PyVal α))),
      popRec preds fuel l h idx p states = (h', .ok (idx', st')) →
      ∃ N, ∀ m, popRecUpTo preds fuel (N + m) l h idx p states = (h', some (m, idx', st')) := by
    intro preds fuel
    induction fuel with
    | zero => intro l h idx p states h' idx' st' e; simp [popRec] at e
    | succ fuel ih =>
      intro l h idx p states h' idx' st' e
      have loop : ∀ (as : List (Str × Attr α)) (h : Heap α) (idx : List Nat) (states : List (Dict Str (PyVal α)))
          (h' : Heap α) (idx' : List Nat) (st' : List (Dict Str (PyVal α))),
          popAttrs (popRec preds fuel) preds l as h idx p states = (h', .ok (idx', st')) →
          ∃ N, ∀ m, popAttrsUpTo (popRecUpTo preds fuel) preds l as (N + m) h idx p states = (h', some (m, idx', st')) := by
        intro as
        induction as with
        | nil =>
          intro h idx states h' idx' st' e
          simp only [popAttrs, Prod.mk.injEq, Except.ok.injEq] at e
          obtain ⟨rfl, rfl, rfl⟩ := e
          exact ⟨0, fun m => by simp [popAttrsUpTo]⟩
        | cons na as iha =>
          intro h idx states h' idx' st' e
          obtain ⟨n, a⟩ := na
          cases a with
          | ref b =>
            simp only [popAttrs] at e
            split at e
            · simp at e
            · next h1 idx1 st1 e1 =>
              obtain ⟨N1, g1⟩ := ih b h idx (p ++ [n]) states h1 idx1 st1 e1
              obtain ⟨N2, g2⟩ := iha h1 idx1 st1 h' idx' st' e
              refine ⟨N1 + N2, fun m => ?_⟩
              simp only [popAttrsUpTo]
              rw [Nat.add_assoc, g1 (N2 + m)]
              exact g2 m
          | val v =>
            simp only [popAttrs] at e
            split at e
            · next hv =>
              split at e
              · next hi =>
                obtain ⟨N, g⟩ := iha h idx states h' idx' st' e
                exact ⟨N, fun m => by simp only [popAttrsUpTo, hv, if_true, hi]; exact g m⟩
              · next st hi =>
                split at e
                · simp at e
                · next h1 hd =>
                  obtain ⟨N, g⟩ := iha h1 idx st h' idx' st' e
                  refine ⟨N + 1, fun m => ?_⟩
                  rw [Nat.add_right_comm]
                  simp only [popAttrsUpTo, hv, if_true, hi, hd]
                  exact g m
            · next hv =>
              obtain ⟨N, g⟩ := iha h idx states h' idx' st' e
              exact ⟨N, fun m => by simp only [popAttrsUpTo, hv]; exact g m⟩
      simp only [popRec] at e
      split at e
      · simp at e
      · next o ho =>
        split at e
        · next hin =>
          simp only [Prod.mk.injEq, Except.ok.injEq] at e
          obtain ⟨rfl, rfl, rfl⟩ := e
          exact ⟨0, fun m => by simp [popRecUpTo, ho, hin]⟩
        · next hin =>
          split at e
          · simp at e
          · next h1 idx1 st1 e1 =>
            simp only [Prod.mk.injEq, Except.ok.injEq] at e
            obtain ⟨rfl, rfl, rfl⟩ := e
            obtain ⟨N, g⟩ := loop o.attrs h idx states _ _ _ e1
            exact ⟨N, fun m => by simp only [popRecUpTo, ho, hin, if_false, g m]⟩
  unfold popState at e
  split at e
  · simp at e
  · next hne =>
    split at e
    · simp at e
    · next preds hp =>
      split at e
      · simp at e
      · next h1 idx1 st1 e1 =>
        simp only [Prod.mk.injEq, Except.ok.injEq] at e
        obtain ⟨rfl, -⟩ := e
        obtain ⟨N, g⟩ := key preds fuel root h [] [] _ _ _ _ e1
        refine ⟨N, fun m => ?_⟩
        unfold popInterrupted
        rw [if_neg hne, hp]
        simp only [g m]

/-- The example of C17, stopped after one deletion: the statistic of the shared block is still there, one parameter is
gone; repeating leaves the Modules of the uninterrupted call, but only one of the parameters is returned. -/
example : ∃ h' x, PopAttempts 3 0 [.ofType cBatchStat, .ofType cParam] exShared x ∧ x ≠ exShared ∧
    popState 3 0 [.ofType cBatchStat, .ofType cParam] exShared =
      (h', .ok [⟨[(py! "b/s", exStat 6)]⟩, ⟨[(py! "b/w", exParam 5), (py! "w", exParam 1)]⟩]) ∧
    popState 3 0 [.ofType cBatchStat, .ofType cParam] x = (h', .ok [⟨[(py! "b/s", exStat 6)]⟩, ⟨[(py! "b/w", exParam 5)]⟩]) :=
  ⟨_, popInterrupted 1 3 0 [.ofType cBatchStat, .ofType cParam] exShared, .interrupted 1 .start, by decide +kernel, rfl, by decide +kernel⟩

end Nnx
