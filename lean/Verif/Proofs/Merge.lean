import Verif.Proofs.Build
import Verif.Proofs.Update
/-
partition followed by merge rebuilds an isomorphic graph.
-/
namespace Nnx
variable {α : Type} [DecidableEq α]

/-! ### The attributes of a rebuilt object -/

omit [DecidableEq α] in
theorem staticsOf_nodup {as : List (Str × Attr α)} (hn : DNodup as) : DNodup (staticsOf as) ∧
    ∀ n, dget (staticsOf as) n = match dget as n with
      | some (.val v) => if !v.isNode && !isReserved n then some v else none
      | _ => none := by
  induction as with
  | nil => exact ⟨by simp [staticsOf, DNodup], fun n => by simp [staticsOf, dget]⟩
  | cons a as ih =>
    obtain ⟨k, a⟩ := a
    have hn' := hn
    simp only [DNodup, dkeys, List.map_cons, List.nodup_cons] at hn'
    obtain ⟨ih1, ih2⟩ := ih hn'.2
    have hk : k ∉ dkeys (staticsOf as) := by
      rw [← dget_eq_none, ih2 k, dget_eq_none.2 hn'.1]
    cases a with
    | ref l =>
      have e : staticsOf ((k, Attr.ref l) :: as) = staticsOf as := by simp [staticsOf]
      rw [e]
      refine ⟨ih1, fun n => ?_⟩
      rw [ih2 n]
      simp only [dget]
      by_cases hkn : k = n
      · subst hkn; rw [dget_eq_none.2 hn'.1]; simp
      · simp [hkn]
    | val v =>
      by_cases hv : (!v.isNode && !isReserved k) = true
      · have e : staticsOf ((k, Attr.val v) :: as) = (k, v) :: staticsOf as := by
          simp only [staticsOf, List.filterMap_cons, hv, if_true]
        rw [e]
        refine ⟨?_, fun n => ?_⟩
        · simp only [DNodup, dkeys, List.map_cons, List.nodup_cons]
          exact ⟨hk, ih1⟩
        · simp only [dget]
          by_cases hkn : k = n
          · subst hkn; simp [hv]
          · simp only [hkn, if_false]; exact ih2 n
      · have e : staticsOf ((k, Attr.val v) :: as) = staticsOf as := by
          simp only [staticsOf, List.filterMap_cons]; rw [if_neg hv]
        rw [e]
        refine ⟨ih1, fun n => ?_⟩
        rw [ih2 n]
        simp only [dget]
        by_cases hkn : k = n
        · subst hkn; rw [dget_eq_none.2 hn'.1]
          simp only [if_true]
          rw [if_neg hv]
        · simp [hkn]

omit [DecidableEq α] in
theorem refsOf_nodup (f : Loc → Loc) {as : List (Str × Attr α)} (hn : DNodup as) : DNodup (refsOf f as) ∧
    ∀ n, dget (refsOf f as) n = match dget as n with
      | some (.ref l) => some (f l)
      | _ => none := by
  induction as with
  | nil => exact ⟨by simp [refsOf, DNodup], fun n => by simp [refsOf, dget]⟩
  | cons a as ih =>
    obtain ⟨k, a⟩ := a
    have hn' := hn
    simp only [DNodup, dkeys, List.map_cons, List.nodup_cons] at hn'
    obtain ⟨ih1, ih2⟩ := ih hn'.2
    have hk : k ∉ dkeys (refsOf f as) := by
      rw [← dget_eq_none, ih2 k, dget_eq_none.2 hn'.1]
    cases a with
    | val v =>
      have e : refsOf f ((k, Attr.val v) :: as) = refsOf f as := by simp [refsOf]
      rw [e]
      refine ⟨ih1, fun n => ?_⟩
      rw [ih2 n]
      simp only [dget]
      by_cases hkn : k = n
      · subst hkn; rw [dget_eq_none.2 hn'.1]; simp
      · simp [hkn]
    | ref l =>
      have e : refsOf f ((k, Attr.ref l) :: as) = (k, f l) :: refsOf f as := by simp [refsOf]
      rw [e]
      refine ⟨?_, fun n => ?_⟩
      · simp only [DNodup, dkeys, List.map_cons, List.nodup_cons]
        exact ⟨hk, ih1⟩
      · simp only [dget]
        by_cases hkn : k = n
        · subst hkn; simp
        · simp only [hkn, if_false]; exact ih2 n

omit [DecidableEq α] in
theorem rebuilt_get (f : Loc → Loc) {o : ModObj α} (hn : DNodup o.attrs) (u : Nat) (tr : Trace) (n : Str) :
    dget (rebuilt f o u tr).attrs n = match dget o.attrs n with
      | some (.ref l) => some (.ref (f l))
      | some (.val v) => if !v.isNode && !isReserved n then some (.val v) else none
      | none => none := by
  have hs : DNodup (sortItems o.attrs) := dnodup_perm (sortItems_perm _).symm hn
  obtain ⟨hs1, hs2⟩ := staticsOf_nodup hs
  obtain ⟨hr1, hr2⟩ := refsOf_nodup f hs
  have hsn : DNodup ((staticsOf (sortItems o.attrs)).map (fun kv => (kv.1, Attr.val kv.2))) := by
    simpa [DNodup, dkeys, Function.comp_def] using hs1
  have hrn : DNodup ((refsOf f (sortItems o.attrs)).map (fun kv => (kv.1, (Attr.ref kv.2 : Attr α)))) := by
    simpa [DNodup, dkeys, Function.comp_def] using hr1
  have e1 : dget ((staticsOf (sortItems o.attrs)).map (fun kv => (kv.1, Attr.val kv.2))) n =
      (dget (staticsOf (sortItems o.attrs)) n).map Attr.val := dget_map_val (fun _ v => Attr.val v) _ n
  have e2 : dget ((refsOf f (sortItems o.attrs)).map (fun kv => (kv.1, (Attr.ref kv.2 : Attr α)))) n =
      (dget (refsOf f (sortItems o.attrs)) n).map Attr.ref := dget_map_val (fun _ v => Attr.ref v) _ n
  simp only [rebuilt]
  rw [dofList_of_nodup hrn, dget_dupdate, lastOf_eq_dget hrn, dget_dupdate, lastOf_eq_dget hsn, e1, e2, hs2, hr2,
    dget_sortItems hn]
  cases dget o.attrs n with
  | none => simp [dget]
  | some a =>
    cases a with
    | ref l => simp
    | val v =>
      by_cases hv : (!v.isNode && !isReserved n) = true
      · simp only [hv, if_true]; simp
      · simp only [hv]; simp [dget]

/-! ### Building -/

/-- The result of building the definition of the graph at `root` in `h`. -/
structure BuildSpec (h : Heap α) (root : Loc) (w w1 : World α) (f : Loc → Loc) : Prop where
  base : f root = w.heap.length
  len : w.heap.length ≤ w1.heap.length
  ids : w.nextId ≤ w1.nextId
  jax : w1.jaxTrace = w.jaxTrace
  stack : w1.nnxStack = w.nnxStack
  old : ∀ j : Nat, j < w.heap.length → w1.heap[j]? = w.heap[j]?
  ge : ∀ l, w.heap.length ≤ f l
  inj : ∀ a b, Reaches h root a → Reaches h root b → f a = f b → a = b
  new : ∀ (l : Loc) (o : ModObj α), Reaches h root l → h[l]? = some o → ∃ u : Nat, w.nextId < u ∧ u ≤ w1.nextId ∧
    w1.heap[f l]? = some (rebuilt f o u w.curTrace)
  surj : ∀ j : Nat, w.heap.length ≤ j → j < w1.heap.length → ∃ l, Reaches h root l ∧ f l = j
  uniq : ∀ (j j' : Nat) (o o' : ModObj α), w.heap.length ≤ j → w.heap.length ≤ j' → w1.heap[j]? = some o →
    w1.heap[j']? = some o' → o.uid = o'.uid → j = j'

omit [DecidableEq α] in
theorem getModuleDef_build {h : Heap α} (wf : WFHeap h) {root : Loc} (hroot : root < h.length) {fuel : Nat}
    {d : ModuleDef α} (e : getModuleDef fuel h root = some d) (w : World α) :
    ∃ w1 f, buildModule d w = .ok (w.heap.length, w1) ∧ BuildSpec h root w w1 f := by
  unfold getModuleDef at e
  split at e
  · next d' F he =>
    simp only [Option.some.injEq] at e
    subst e
    obtain ⟨hd, hb⟩ := makeDef_build h fuel root [] _ F he
    obtain ⟨vs, dfs⟩ := hd []
    obtain ⟨hn, hr, hw, hF⟩ := dfs.complete wf isOrder_sort hroot
    have hFn : F.Nodup := dfs.nodup List.nodup_nil
    obtain ⟨w1, im1, e1, r1, g1⟩ := hb w.heap.length F w [] (List.prefix_refl _) hFn ⟨by simp, by simp [dget]⟩
    have hroot0 : newLoc w.heap.length F h root = w.heap.length := by
      have ho : h[root]? = some h[root] := List.getElem?_eq_getElem hroot
      cases dfs with
      | visit e' hu d' =>
        have := d'.seen_eq
        rw [newLoc, uidAt_of e', this]
        simp [List.findIdx_cons]
      | seen _ hu => simp at hu
    have hmem : ∀ l, Reaches h root l → uidAt h l ∈ F := by
      intro l hl
      rw [hF]
      obtain ⟨x, hx, rfl⟩ := List.mem_map.1 ((hr l).2 hl)
      exact List.mem_map.2 ⟨x, hx, rfl⟩
    have hidx : ∀ l, Reaches h root l → F.findIdx (· == uidAt h l) < F.length ∧
        F[F.findIdx (· == uidAt h l)]? = some (uidAt h l) := by
      intro l hl
      have hlt : F.findIdx (· == uidAt h l) < F.length :=
        List.findIdx_lt_length_of_exists ⟨_, hmem l hl, by simp⟩
      refine ⟨hlt, ?_⟩
      rw [List.getElem?_eq_getElem hlt]
      have := List.findIdx_getElem (w := hlt)
      simpa using this
    have huid : ∀ l l', l < h.length → l' < h.length → uidAt h l = uidAt h l' → l = l' := by
      intro l l' hl hl' e
      apply wf.uids _ _ _ _ (List.getElem?_eq_getElem hl) (List.getElem?_eq_getElem hl')
      simpa [uidAt, hl, hl'] using e
    have hlen1 : w1.heap.length = w.heap.length + F.length := r1.len
    refine ⟨w1, newLoc w.heap.length F h, ?_, ?_⟩
    · rw [buildModule_eq, e1]
      simp [hroot0]
    · refine ⟨hroot0, by omega, g1.ids, g1.jax, g1.stack, ?_, ?_, ?_, ?_, ?_, ?_⟩
      · intro j hj; exact g1.old j (by simpa using hj)
      · intro l; simp [newLoc]
      · intro a b ha hb e
        obtain ⟨ha1, ha2⟩ := hidx a ha
        obtain ⟨hb1, hb2⟩ := hidx b hb
        have : F.findIdx (· == uidAt h a) = F.findIdx (· == uidAt h b) := by
          simp only [newLoc] at e; exact Nat.add_left_cancel e
        rw [this, hb2] at ha2
        simp only [Option.some.injEq] at ha2
        obtain ⟨pa, ha⟩ := ha
        obtain ⟨pb, hb⟩ := hb
        exact huid _ _ ha.lt hb.lt ha2.symm
      · intro l o hl ho
        obtain ⟨h1, h2⟩ := hidx l hl
        obtain ⟨l2, o2, u, e2, hi, hu1, hu2, hw2⟩ := g1.new _ (by simp) h1
        have : l2 = l := by
          rw [h2, uidAt_of ho] at hi
          simp only [Option.some.injEq] at hi
          exact wf.uids _ _ _ _ e2 ho hi.symm
        subst this
        rw [ho] at e2; cases e2
        exact ⟨u, hu1, hu2, hw2⟩
      · intro j h1 h2
        obtain ⟨l2, o2, u, e2, hi, hu1, hu2, hw2⟩ := g1.new (j - w.heap.length) (by simp) (by omega)
        have hlt : j - w.heap.length < F.length := by omega
        have hFj : F[j - w.heap.length] = o2.uid := by
          rw [List.getElem?_eq_getElem hlt] at hi; simpa using hi
        have hin : o2.uid ∈ F := by rw [← hFj]; exact List.getElem_mem _
        refine ⟨l2, ?_, ?_⟩
        · rw [hF] at hin
          obtain ⟨x, hx, hxu⟩ := List.mem_map.1 hin
          have hl2 := (List.getElem?_eq_some_iff.1 e2).1
          have : x.1 = l2 := huid _ _ (dfs.lt x hx) hl2 (by rw [hxu, uidAt_of e2])
          rw [← hr l2, ← this]
          exact List.mem_map.2 ⟨x, hx, rfl⟩
        · rw [newLoc, uidAt_of e2, ← hFj, findIdx_nodup hFn hlt]
          exact Nat.add_sub_cancel' h1
      · intro j j' o o' h1 h1' ho ho' hu
        have hj := (List.getElem?_eq_some_iff.1 ho).1
        have hj' := (List.getElem?_eq_some_iff.1 ho').1
        have := g1.uniq (j - w.heap.length) (j' - w.heap.length) o o' (by simp) (by omega) (by simp) (by omega)
          (by rw [show w.heap.length + (j - w.heap.length) = j by omega]; exact ho)
          (by rw [show w.heap.length + (j' - w.heap.length) = j' by omega]; exact ho') hu
        omega
  · cases e

omit [DecidableEq α] in
theorem Reaches.step {h : Heap α} (wf : WFHeap h) {a b c : Loc} {n : Str} (h1 : Reaches h a b)
    (h2 : attrAt h b n = some (.ref c)) : Reaches h a c := by
  obtain ⟨p, hp⟩ := h1
  exact ⟨_, hp.snoc h2 (wf.refs _ _ _ h2)⟩

omit [DecidableEq α] in
theorem BuildSpec.attr {h : Heap α} (wf : WFHeap h) {root : Loc} {w w1 : World α} {f : Loc → Loc}
    (b : BuildSpec h root w w1 f) {l : Loc} (hl : Reaches h root l) (n : Str) :
    attrAt w1.heap (f l) n = match attrAt h l n with
      | some (.ref l) => some (.ref (f l))
      | some (.val v) => if !v.isNode && !isReserved n then some (.val v) else none
      | none => none := by
  obtain ⟨p, hp⟩ := hl
  have ho : h[l]? = some (h[l]'hp.lt) := List.getElem?_eq_getElem hp.lt
  obtain ⟨u, _, _, hu⟩ := b.new l _ ⟨p, hp⟩ ho
  simp only [attrAt, hu, ho]
  exact rebuilt_get f (wf.nodup _ _ ho) u _ n

omit [DecidableEq α] in
theorem BuildSpec.lt {h : Heap α} {root : Loc} {w w1 : World α} {f : Loc → Loc}
    (b : BuildSpec h root w w1 f) {l : Loc} (hl : Reaches h root l) : f l < w1.heap.length := by
  obtain ⟨p, hp⟩ := hl
  have ho : h[l]? = some (h[l]'hp.lt) := List.getElem?_eq_getElem hp.lt
  obtain ⟨u, _, _, hu⟩ := b.new l _ ⟨p, hp⟩ ho
  exact (List.getElem?_eq_some_iff.1 hu).1

omit [DecidableEq α] in
theorem BuildSpec.walk {h : Heap α} (wf : WFHeap h) {root : Loc} {w w1 : World α} {f : Loc → Loc}
    (b : BuildSpec h root w w1 f) {a l : Loc} {p : List Str} (ha : Reaches h root a) (hw : Walk h a p l) :
    Walk w1.heap (f a) p (f l) := by
  induction hw with
  | here _ => exact .here (b.lt ha)
  | step e _ ih =>
    refine .step ?_ (ih (ha.step wf e))
    rw [b.attr wf ha, e]

/-! ### Filling in the state -/

omit [DecidableEq α] in
theorem wfVal_of_node {h : Heap α} (wf : WFHeap h) {l : Loc} {n : Str} {v : PyVal α}
    (e : attrAt h l n = some (.val v)) (hv : v.isNode = true) : WFVal v := by
  cases v with
  | cont c x m => exact .inr (wf.conts l n c x m e)
  | cmeta x m =>
    exfalso
    revert hv
    simp only [PyVal.isNode, PyVal.isInstance, PyVal.cls]
    decide
  | _ => left; simp [PyVal.Plain]

omit [DecidableEq α] in
theorem cellVals_single {E : List (Str × PyVal α)} {tgt : Str → Loc × Str}
    (hinj : ∀ e ∈ E, ∀ e' ∈ E, tgt e.1 = tgt e'.1 → e.1 = e'.1) (hn : DNodup E) {k : Str} {v : PyVal α}
    (hm : (k, v) ∈ E) : cellVals (E.map (fun e => (tgt e.1, e.2))) (tgt k).1 (tgt k).2 = [v] := by
  have e : E.filter (fun e => decide (tgt e.1 = tgt k)) = [(k, v)] := by
    have h1 : E.filter (fun e => decide (tgt e.1 = tgt k)) = E.filter (fun e => decide (e.1 = k)) := by
      apply List.filter_congr
      intro e he
      simp only [decide_eq_decide]
      exact ⟨fun h => hinj e he (k, v) hm h, fun h => by rw [h]⟩
    rw [h1]
    clear h1 hinj
    induction E with
    | nil => simp at hm
    | cons x E ih =>
      obtain ⟨k', v'⟩ := x
      have hn' := hn
      simp only [DNodup, dkeys, List.map_cons, List.nodup_cons] at hn'
      rcases List.mem_cons.1 hm with hx | hx
      · cases hx
        rw [List.filter_cons_of_pos (by simp)]
        congr 1
        rw [List.filter_eq_nil_iff]
        intro e he hek
        simp only [decide_eq_true_eq] at hek
        apply hn'.1
        rw [← hek]
        exact List.mem_map.2 ⟨e, he, rfl⟩
      · have hne : k' ≠ k := by
          rintro rfl
          exact hn'.1 (List.mem_map.2 ⟨_, hx, rfl⟩)
        rw [List.filter_cons_of_neg (by simp [hne])]
        exact ih hn'.2 hx
  simp only [cellVals, List.filter_map, List.map_map, Function.comp_def]
  rw [e]
  rfl

omit [DecidableEq α] in
theorem cellVals_none {E : List (Str × PyVal α)} {tgt : Str → Loc × Str} {l : Loc} {n : Str}
    (h : ∀ e ∈ E, tgt e.1 ≠ (l, n)) : cellVals (E.map (fun e => (tgt e.1, e.2))) l n = [] := by
  simp only [cellVals, List.map_eq_nil_iff, List.filter_eq_nil_iff, List.mem_map, decide_eq_true_eq]
  rintro c ⟨e, he, rfl⟩
  exact h e he

theorem eq_of_map_nodup {A B : Type _} {g : A → B} {l : List A} (hn : (l.map g).Nodup) {x y : A} (hx : x ∈ l)
    (hy : y ∈ l) (e : g x = g y) : x = y := by
  obtain ⟨i, hi, rfl⟩ := List.getElem_of_mem hx
  obtain ⟨j, hj, rfl⟩ := List.getElem_of_mem hy
  have : (l.map g)[i]'(by simpa using hi) = (l.map g)[j]'(by simpa using hj) := by simpa using e
  have := (List.getElem_inj hn).1 this
  subst this; rfl

/-- What `merge` produces from the definition and the state entries of the graph at `root` in `h`. -/
structure MergeSpec (h : Heap α) (root : Loc) (w w' : World α) (f : Loc → Loc) : Prop where
  iso : GraphIso h root w'.heap w.heap.length f
  len : w.heap.length ≤ w'.heap.length
  ids : w.nextId ≤ w'.nextId
  jax : w'.jaxTrace = w.jaxTrace
  stack : w'.nnxStack = w.nnxStack
  old : ∀ j : Nat, j < w.heap.length → w'.heap[j]? = w.heap[j]?
  ge : ∀ l, w.heap.length ≤ f l
  surj : ∀ j : Nat, w.heap.length ≤ j → j < w'.heap.length → ∃ l, Reaches h root l ∧ f l = j
  fresh : ∀ (j : Nat) (o : ModObj α), w.heap.length ≤ j → w'.heap[j]? = some o →
    w.nextId < o.uid ∧ o.uid ≤ w'.nextId ∧ o.trace = w.curTrace
  uniq : ∀ (j j' : Nat) (o o' : ModObj α), w.heap.length ≤ j → w.heap.length ≤ j' → w'.heap[j]? = some o →
    w'.heap[j']? = some o' → o.uid = o'.uid → j = j'
  nodup : ∀ (j : Nat) (o : ModObj α), w.heap.length ≤ j → w'.heap[j]? = some o → DNodup o.attrs

omit [DecidableEq α] in
theorem rebuilt_nodup (f : Loc → Loc) (o : ModObj α) (u : Nat) (tr : Trace) : DNodup (rebuilt f o u tr).attrs := by
  simp only [rebuilt]
  exact dnodup_dupdate (dnodup_dupdate (by simp [DNodup]) _) _

theorem runCells_nodup : ∀ (cs : List ((Loc × Str) × PyVal α)) (w w' : World α) (e : Option Err) (P : Loc → Prop),
    runCells cs w = (w', e) → (∀ (l : Loc) (o : ModObj α), P l → w.heap[l]? = some o → DNodup o.attrs) →
    ∀ (l : Loc) (o : ModObj α), P l → w'.heap[l]? = some o → DNodup o.attrs := by
  intro cs
  induction cs with
  | nil => intro w w' e P he; simp only [runCells, Prod.mk.injEq] at he; rw [he.1]; exact id
  | cons c cs ih =>
    intro w w' e P he hn
    rw [runCells] at he
    split at he
    · simp only [Prod.mk.injEq] at he; rw [← he.1]; exact hn
    · next w2 hs =>
      obtain ⟨o, a, ho, ht, hnm, ha, rfl⟩ := setAttr_ok_iff.1 hs
      refine ih _ _ _ P he ?_
      intro l o2 hP ho2
      simp only [World.setAttrs] at ho2
      by_cases hl : c.1.1 = l
      · subst hl
        rw [List.getElem?_set_self (List.getElem?_eq_some_iff.1 ho).1] at ho2
        simp only [Option.some.injEq] at ho2
        subst ho2
        exact dnodup_dset (hn _ _ hP ho) _ _
      · rw [getElem?_set_ne' hl] at ho2
        exact hn _ _ hP ho2

theorem fill_spec {h : Heap α} (wf : WFHeap h) {root : Loc} (hroot : root < h.length) {fuel : Nat}
    {s : State (PyVal α)} (hs : getState fuel h root = some s) {E : List (Str × PyVal α)} (hE : DNodup E)
    (hEs : ∀ k v, (k, v) ∈ E ↔ s.get k = some v) {w w1 : World α} {f : Loc → Loc}
    (b : BuildSpec h root w w1 f)
    (hcwf : ∀ l n c x m, attrAt w.heap l n = some (.val (.cont c x m)) → WFContainer (.cont c x m)) :
    ∃ w', assignAll w.heap.length E w1 = (w', none) ∧ MergeSpec h root w w' f := by
  obtain ⟨vs, S', dfs, hcan, hget⟩ := getState_spec wf hroot hs
  obtain ⟨hn, hr, hw, hF⟩ := dfs.complete wf isOrder_sort hroot
  have hreach : ∀ x ∈ vs, Reaches h root x.1 := fun x hx => ⟨_, hw x hx⟩
  -- the attribute addressed by each path
  have hex : ∀ e : Str × PyVal α, e ∈ E → ∃ c : Loc × Str, ∃ x ∈ vs, c = (f x.1, c.2) ∧
      attrAt h x.1 c.2 = some (.val e.2) ∧ e.2.isNode = true ∧ e.1 = joinSlash (x.2 ++ [c.2]) := by
    rintro ⟨k, v⟩ he
    obtain ⟨x, hx, n, h1, h2, h3⟩ := (hget k v).1 ((hEs k v).1 he)
    exact ⟨(f x.1, n), x, hx, rfl, h1, h2, h3⟩
  classical
  have hex' : ∀ k : Str, ∃ c : Loc × Str, ∀ v, (k, v) ∈ E → ∃ x ∈ vs, c = (f x.1, c.2) ∧
      attrAt h x.1 c.2 = some (.val v) ∧ v.isNode = true ∧ k = joinSlash (x.2 ++ [c.2]) := by
    intro k
    by_cases hk : ∃ v, (k, v) ∈ E
    · obtain ⟨v, hv⟩ := hk
      obtain ⟨c, x, hc⟩ := hex _ hv
      refine ⟨c, fun v' hv' => ?_⟩
      have : v' = v := by
        have a := mem_dget hE hv
        have a' := mem_dget hE hv'
        rw [a] at a'; simpa using a'.symm
      subst this
      exact ⟨x, hc⟩
    · exact ⟨(0, []), fun v hv => absurd ⟨v, hv⟩ hk⟩
  choose tgt htgt using hex'
  have hnoslash : ∀ x ∈ vs, ∀ n a, attrAt h x.1 n = some a → splitSlash (joinSlash (x.2 ++ [n])) = x.2 ++ [n] := by
    intro x hx n a ha
    apply split_join (by simp)
    intro s hs'
    rcases List.mem_append.1 hs' with h' | h'
    · exact (hw x hx).noSlash wf s h'
    · simp at h'; subst h'; exact wf.slash _ _ _ ha
  have hinj : ∀ e ∈ E, ∀ e' ∈ E, tgt e.1 = tgt e'.1 → e.1 = e'.1 := by
    intro e he e' he' heq
    obtain ⟨x, hx, hc, ha, _, hk⟩ := htgt e.1 e.2 he
    obtain ⟨x', hx', hc', ha', _, hk'⟩ := htgt e'.1 e'.2 he'
    rw [hc, hc'] at heq
    simp only [Prod.mk.injEq] at heq
    have h1 := b.inj _ _ (hreach x hx) (hreach x' hx') heq.1
    have h2 : x = x' := eq_of_map_nodup hn hx hx' h1
    rw [hk, hk', ← heq.2, h2]
  -- nothing is at the addressed attributes after building
  have hnone : ∀ e ∈ E, attrAt w1.heap (tgt e.1).1 (tgt e.1).2 = none := by
    intro e he
    obtain ⟨x, hx, hc, ha, hv, hk⟩ := htgt e.1 e.2 he
    have hc1 : (tgt e.1).1 = f x.1 := by rw [hc]
    rw [hc1, b.attr wf (hreach x hx), ha]
    simp [hv]
  have hassign := assignAll_eq_runCells w.heap.length E (E.map (fun e => (tgt e.1, e.2))) w1 (by
    rw [List.forall₂_map_right_iff, List.forall₂_same]
    intro e he
    refine ⟨?_, rfl, ?_⟩
    · obtain ⟨x, hx, hc, ha, hv, hk⟩ := htgt e.1 e.2 he
      refine ⟨x.2, ?_, ?_⟩
      · rw [hk]
        have := hnoslash x hx _ _ ha
        rw [← hk] at this ⊢
        exact this
      · have hc1 : (tgt e.1).1 = f x.1 := by rw [hc]
        rw [hc1, ← b.base]
        exact b.walk wf ⟨[], .here hroot⟩ (hw x hx)
    · intro l; rw [hnone e he]; simp)
  have hcwf1 : ∀ l n c x m, attrAt w1.heap l n = some (.val (.cont c x m)) → WFContainer (.cont c x m) := by
    intro l n c x m hx
    by_cases hl : l < w.heap.length
    · apply hcwf l n
      simp only [attrAt, b.old l hl] at hx ⊢
      exact hx
    · obtain ⟨l', hl', rfl⟩ := b.surj l (Nat.le_of_not_lt hl) (attrAt_some_lt hx)
      rw [b.attr wf hl'] at hx
      split at hx
      · cases hx
      · next v hv =>
        split at hx
        · cases hx; exact wf.conts _ _ _ _ _ hv
        · cases hx
      · cases hx
  have hvals : ∀ c ∈ E.map (fun e => (tgt e.1, e.2)), WFVal c.2 := by
    intro c hc
    obtain ⟨e, he, rfl⟩ := List.mem_map.1 hc
    obtain ⟨x, hx, hc, ha, hv, hk⟩ := htgt e.1 e.2 he
    exact wfVal_of_node wf ha hv
  have hcur : w1.curTrace = w.curTrace := by simp [World.curTrace, b.jax, b.stack]
  have hsucc := runCells_success (E.map (fun e => (tgt e.1, e.2))) w1 hcwf1 hvals (by
    intro c hc
    obtain ⟨e, he, rfl⟩ := List.mem_map.1 hc
    obtain ⟨x, hx, hc, ha, hv, hk⟩ := htgt e.1 e.2 he
    have hc1 : (tgt e.1).1 = f x.1 := by rw [hc]
    have ho : h[x.1]? = some (h[x.1]'(hw x hx).lt) := List.getElem?_eq_getElem (hw x hx).lt
    obtain ⟨u, _, _, hu⟩ := b.new x.1 _ (hreach x hx) ho
    refine ⟨_, by rw [hc1]; exact hu, ?_, ?_⟩
    · simp [World.traceValid, rebuilt, hcur]
    · intro h'
      have := wf.reserved _ _ _ ha
      rw [show (tgt e.1).2 = py! "_module__state" from h'] at this
      exact absurd this (by decide)) (by
    intro l n
    by_cases hc : ∃ e ∈ E, tgt e.1 = (l, n)
    · obtain ⟨⟨k, v⟩, he, hc⟩ := hc
      have := cellVals_single hinj hE he
      simp only [hc] at this
      rw [this]
      have := hnone _ he
      simp only [hc] at this
      rw [this]
      exact ⟨_, .cons (by intro c x m d y n h1; cases h1) .nil⟩
    · have : ∀ e ∈ E, tgt e.1 ≠ (l, n) := fun e he h => hc ⟨e, he, h⟩
      rw [cellVals_none this]
      exact ⟨_, .nil⟩)
  obtain ⟨w', hw'⟩ := hsucc
  refine ⟨w', by rw [hassign, hw'], ?_⟩
  obtain ⟨hso, hass, _⟩ := runCells_effect _ _ _ hcwf1 hvals hw'
  -- attributes afterwards
  have hcell1 : ∀ e ∈ E, attrAt w'.heap (tgt e.1).1 (tgt e.1).2 = some (.val e.2) := by
    rintro ⟨k, v⟩ he
    have := hass (tgt k).1 (tgt k).2
    rw [cellVals_single hinj hE he, hnone _ he] at this
    generalize attrAt w'.heap (tgt k).1 (tgt k).2 = x at this
    cases this with
    | cons _ h2 => cases h2; rfl
  have hcell2 : ∀ l n, (∀ e ∈ E, tgt e.1 ≠ (l, n)) → attrAt w'.heap l n = attrAt w1.heap l n := by
    intro l n hne
    have := hass l n
    rw [cellVals_none hne] at this
    generalize attrAt w'.heap l n = x at this ⊢
    generalize attrAt w1.heap l n = y at this ⊢
    cases this; rfl
  have hrootR : Reaches h root root := ⟨[], .here hroot⟩
  have hge : ∀ e ∈ E, w.heap.length ≤ (tgt e.1).1 := by
    intro e he
    obtain ⟨x, hx, hc, _⟩ := htgt e.1 e.2 he
    rw [hc]; exact b.ge _
  have hrun : ∀ (cs : List ((Loc × Str) × PyVal α)) (w w' : World α) (j : Nat), (∀ c ∈ cs, c.1.1 ≠ j) →
      runCells cs w = (w', none) → w'.heap[j]? = w.heap[j]? := by
    intro cs
    induction cs with
    | nil => intro w w' j _ e; simp [runCells] at e; rw [e]
    | cons c cs ih =>
      intro w w' j hj e
      rw [runCells] at e
      split at e
      · simp at e
      · next w2 hs =>
        obtain ⟨o, a, ho, ht, hn, ha, rfl⟩ := setAttr_ok_iff.1 hs
        rw [ih _ _ j (fun c hc => hj c (List.mem_cons_of_mem _ hc)) e]
        simp only [World.setAttrs]
        exact getElem?_set_ne' (hj c List.mem_cons_self)
  refine ⟨⟨b.base, b.inj, ?_, ?_⟩, ?_, ?_, ?_, ?_, ?_, b.ge, ?_, ?_, ?_, ?_⟩
  · intro a o ha ho
    obtain ⟨u, _, _, hu⟩ := b.new a o ha ho
    have hlt := (List.getElem?_eq_some_iff.1 hu).1
    have hlt' : f a < w'.heap.length := by rw [hso.len]; exact hlt
    refine ⟨_, List.getElem?_eq_getElem hlt', ?_⟩
    obtain ⟨h1, h2, h3, h4⟩ := hso.obj _ _ _ hu (List.getElem?_eq_getElem hlt')
    exact ⟨h1, h3⟩
  · intro a ha n
    by_cases hc : ∃ e ∈ E, tgt e.1 = (f a, n)
    · obtain ⟨e, he, hc⟩ := hc
      have h1 := hcell1 e he
      obtain ⟨x, hx, hc', hat, _, _⟩ := htgt e.1 e.2 he
      rw [hc] at h1 hc' hat
      simp only [Prod.mk.injEq, and_true] at hc'
      have := b.inj _ _ ha (hreach x hx) hc'
      subst this
      rw [h1, hat]; rfl
    · have hne : ∀ e ∈ E, tgt e.1 ≠ (f a, n) := fun e he h => hc ⟨e, he, h⟩
      rw [hcell2 _ _ hne, b.attr wf ha]
      cases hat : attrAt h a n with
      | none => rfl
      | some y =>
        cases y with
        | ref l => rfl
        | val v =>
          by_cases hv : v.isNode = true
          · exfalso
            obtain ⟨x, hx, hxa⟩ := List.mem_map.1 ((hr a).2 ha)
            subst hxa
            have hin : (joinSlash (x.2 ++ [n]), v) ∈ E := (hEs _ _).2 ((hget _ _).2 ⟨x, hx, n, hat, hv, rfl⟩)
            obtain ⟨x', hx', hc', hat', _, hk⟩ := htgt _ _ hin
            have hwx := hw x hx
            have hwx' := hw x' hx'
            obtain ⟨hpp, hnn⟩ := joinSlash_path_inj (hwx.noSlash wf) (wf.slash _ _ _ hat) (hwx'.noSlash wf)
              (wf.slash _ _ _ hat') hk
            have : x.1 = x'.1 := by rw [← hpp] at hwx'; exact hwx.functional hwx'
            apply hne _ hin
            simp only
            rw [hc', ← this, ← hnn]
          · have hres := wf.reserved _ _ _ hat
            simp [hv, hres, Attr.redirect]
  · rw [hso.len]; exact b.len
  · rw [hso.nextId]; exact b.ids
  · rw [hso.jax]; exact b.jax
  · rw [hso.stack]; exact b.stack
  · intro j hj
    rw [hrun _ _ _ j _ hw', b.old j hj]
    intro c hc
    obtain ⟨e, he, rfl⟩ := List.mem_map.1 hc
    have := hge e he
    exact fun e' => Nat.lt_irrefl _ (Nat.lt_of_lt_of_le hj (by rw [← e']; exact this))
  · intro j h1 h2
    exact b.surj j h1 (by rw [← hso.len]; exact h2)
  · intro j o h1 ho
    have hlt := (List.getElem?_eq_some_iff.1 ho).1
    rw [hso.len] at hlt
    obtain ⟨l, hl, rfl⟩ := b.surj j h1 hlt
    obtain ⟨p, hp⟩ := hl
    obtain ⟨u, hu1, hu2, hu⟩ := b.new l _ ⟨p, hp⟩ (List.getElem?_eq_getElem hp.lt)
    obtain ⟨h1, h2, h3, h4⟩ := hso.obj _ _ _ hu ho
    rw [h2, h4, hso.nextId]
    exact ⟨hu1, hu2, rfl⟩
  · intro j j' o o' h1 h1' ho ho' hu
    have hlt := (List.getElem?_eq_some_iff.1 ho).1
    have hlt' := (List.getElem?_eq_some_iff.1 ho').1
    rw [hso.len] at hlt hlt'
    obtain ⟨_, a2, _, _⟩ := hso.obj _ _ _ (List.getElem?_eq_getElem hlt) ho
    obtain ⟨_, b2, _, _⟩ := hso.obj _ _ _ (List.getElem?_eq_getElem hlt') ho'
    exact b.uniq j j' _ _ h1 h1' (List.getElem?_eq_getElem hlt) (List.getElem?_eq_getElem hlt')
      (by rw [← a2, ← b2, hu])
  · refine runCells_nodup _ _ _ _ (fun l => w.heap.length ≤ l) hw' ?_
    intro j o h1 ho
    obtain ⟨l, hl, rfl⟩ := b.surj j h1 (List.getElem?_eq_some_iff.1 ho).1
    obtain ⟨p, hp⟩ := hl
    obtain ⟨u, hu1, hu2, hu⟩ := b.new l _ ⟨p, hp⟩ (List.getElem?_eq_getElem hp.lt)
    rw [hu] at ho
    simp only [Option.some.injEq] at ho
    subst ho
    exact rebuilt_nodup _ _ _ _

end Nnx
