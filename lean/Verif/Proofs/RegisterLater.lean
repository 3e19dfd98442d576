import Verif.Proofs.NodeTypes
/-
Merging when more node types were registered between get_module_def and get_state.
-/
namespace Nnx
variable {α : Type} [DecidableEq α]

/-- Filling in entries for the nodes, and for some values that the definition already put in place. -/
theorem fill_more_spec {h : Heap α} (wf : WFHeap h) {root : Loc} (hroot : root < h.length) {vs : List (Loc × List Str)}
    (hn : (vs.map (·.1)).Nodup) (hr : ∀ a, a ∈ vs.map (·.1) ↔ Reaches h root a) (hw : ∀ x ∈ vs, Walk h root x.2 x.1)
    {Q : PyVal α → Prop} (hQ : ∀ l n v, attrAt h l n = some (.val v) → v.isNode = true → Q v)
    (hQv : ∀ l n v, attrAt h l n = some (.val v) → Q v → WFVal v) {E : List (Str × PyVal α)} (hE : DNodup E)
    (hEs : ∀ k v, (k, v) ∈ E ↔ ∃ x ∈ vs, ∃ n, attrAt h x.1 n = some (.val v) ∧ Q v ∧ k = joinSlash (x.2 ++ [n]))
    {w w1 : World α} {f : Loc → Loc}
    (b : BuildSpec h root w w1 f)
    (hcwf : ∀ l n c x m, attrAt w.heap l n = some (.val (.cont c x m)) → WFContainer (.cont c x m)) :
    ∃ w', assignAll w.heap.length E w1 = (w', none) ∧ MergeSpec h root w w' f := by
  have hreach : ∀ x ∈ vs, Reaches h root x.1 := fun x hx => ⟨_, hw x hx⟩
  -- the attribute addressed by each path
  have hex : ∀ e : Str × PyVal α, e ∈ E → ∃ c : Loc × Str, ∃ x ∈ vs, c = (f x.1, c.2) ∧
      attrAt h x.1 c.2 = some (.val e.2) ∧ Q e.2 ∧ e.1 = joinSlash (x.2 ++ [c.2]) := by
    rintro ⟨k, v⟩ he
    obtain ⟨x, hx, n, h1, h2, h3⟩ := (hEs k v).1 he
    exact ⟨(f x.1, n), x, hx, rfl, h1, h2, h3⟩
  classical
  have hex' : ∀ k : Str, ∃ c : Loc × Str, ∀ v, (k, v) ∈ E → ∃ x ∈ vs, c = (f x.1, c.2) ∧
      attrAt h x.1 c.2 = some (.val v) ∧ Q v ∧ k = joinSlash (x.2 ++ [c.2]) := by
    intro k
    by_cases hk : ∃ v, (k, v) ∈ E
    · obtain ⟨v, hv⟩ := hk
      obtain ⟨c, x, hc⟩ := hex _ hv
      refine ⟨c, fun v' hv' => ?_⟩
      have : v' = v := by
        have a := mem_dget hE hv
        have a' := mem_dget hE hv'
        rw [a] at a'; simpa using a'.symm
      subst this
      exact ⟨x, hc⟩
    · exact ⟨(0, []), fun v hv => absurd ⟨v, hv⟩ hk⟩
  choose tgt htgt using hex'
  have hnoslash : ∀ x ∈ vs, ∀ n a, attrAt h x.1 n = some a → splitSlash (joinSlash (x.2 ++ [n])) = x.2 ++ [n] := by
    intro x hx n a ha
    apply split_join (by simp)
    intro s hs'
    rcases List.mem_append.1 hs' with h' | h'
    · exact (hw x hx).noSlash wf s h'
    · simp at h'; subst h'; exact wf.slash _ _ _ ha
  have hinj : ∀ e ∈ E, ∀ e' ∈ E, tgt e.1 = tgt e'.1 → e.1 = e'.1 := by
    intro e he e' he' heq
    obtain ⟨x, hx, hc, ha, _, hk⟩ := htgt e.1 e.2 he
    obtain ⟨x', hx', hc', ha', _, hk'⟩ := htgt e'.1 e'.2 he'
    rw [hc, hc'] at heq
    simp only [Prod.mk.injEq] at heq
    have h1 := b.inj _ _ (hreach x hx) (hreach x' hx') heq.1
    have h2 : x = x' := eq_of_map_nodup hn hx hx' h1
    rw [hk, hk', ← heq.2, h2]
  -- nothing is at the addressed attributes after building, or the right value
  have hnone : ∀ e ∈ E, attrAt w1.heap (tgt e.1).1 (tgt e.1).2 = none ∨
      attrAt w1.heap (tgt e.1).1 (tgt e.1).2 = some (.val e.2) := by
    intro e he
    obtain ⟨x, hx, hc, ha, hv, hk⟩ := htgt e.1 e.2 he
    have hc1 : (tgt e.1).1 = f x.1 := by rw [hc]
    rw [hc1, b.attr wf (hreach x hx), ha]
    simp only
    split
    · exact .inr rfl
    · exact .inl rfl
  have hsame : ∀ (old : Option (Attr α)) (v : PyVal α), old = none ∨ old = some (.val v) →
      Compatible old v ∧ newValue old v = v := by
    rintro old v (rfl | rfl)
    · exact ⟨fun c x m d y n h => (by cases h), rfl⟩
    · refine ⟨fun c x m d y n h1 h2 => ?_, ?_⟩
      · cases h1; cases h2; exact ⟨rfl, fun _ => rfl⟩
      · cases v <;> rfl
  have hassign := assignAll_eq_runCells w.heap.length E (E.map (fun e => (tgt e.1, e.2))) w1 (by
    rw [List.forall₂_map_right_iff, List.forall₂_same]
    intro e he
    refine ⟨?_, rfl, ?_⟩
    · obtain ⟨x, hx, hc, ha, hv, hk⟩ := htgt e.1 e.2 he
      refine ⟨x.2, ?_, ?_⟩
      · rw [hk]
        have := hnoslash x hx _ _ ha
        rw [← hk] at this ⊢
        exact this
      · have hc1 : (tgt e.1).1 = f x.1 := by rw [hc]
        rw [hc1, ← b.base]
        exact b.walk wf ⟨[], .here hroot⟩ (hw x hx)
    · intro l; rcases hnone e he with h' | h' <;> rw [h'] <;> simp)
  have hcwf1 : ∀ l n c x m, attrAt w1.heap l n = some (.val (.cont c x m)) → WFContainer (.cont c x m) := by
    intro l n c x m hx
    by_cases hl : l < w.heap.length
    · apply hcwf l n
      simp only [attrAt, b.old l hl] at hx ⊢
      exact hx
    · obtain ⟨l', hl', rfl⟩ := b.surj l (Nat.le_of_not_lt hl) (attrAt_some_lt hx)
      rw [b.attr wf hl'] at hx
      split at hx
      · cases hx
      · next v hv =>
        split at hx
        · cases hx; exact wf.conts _ _ _ _ _ hv
        · cases hx
      · cases hx
  have hvals : ∀ c ∈ E.map (fun e => (tgt e.1, e.2)), WFVal c.2 := by
    intro c hc
    obtain ⟨e, he, rfl⟩ := List.mem_map.1 hc
    obtain ⟨x, hx, hc, ha, hv, hk⟩ := htgt e.1 e.2 he
    exact hQv _ _ _ ha hv
  have hcur : w1.curTrace = w.curTrace := by simp [World.curTrace, b.jax, b.stack]
  have hsucc := runCells_success (E.map (fun e => (tgt e.1, e.2))) w1 hcwf1 hvals (by
    intro c hc
    obtain ⟨e, he, rfl⟩ := List.mem_map.1 hc
    obtain ⟨x, hx, hc, ha, hv, hk⟩ := htgt e.1 e.2 he
    have hc1 : (tgt e.1).1 = f x.1 := by rw [hc]
    have ho : h[x.1]? = some (h[x.1]'(hw x hx).lt) := List.getElem?_eq_getElem (hw x hx).lt
    obtain ⟨u, _, _, hu⟩ := b.new x.1 _ (hreach x hx) ho
    refine ⟨_, by rw [hc1]; exact hu, ?_, ?_⟩
    · simp [World.traceValid, rebuilt, hcur]
    · intro h'
      have := wf.reserved _ _ _ ha
      rw [show (tgt e.1).2 = py! "_module__state" from h'] at this
      exact absurd this (by decide)) (by
    intro l n
    by_cases hc : ∃ e ∈ E, tgt e.1 = (l, n)
    · obtain ⟨⟨k, v⟩, he, hc⟩ := hc
      have := cellVals_single hinj hE he
      simp only [hc] at this
      rw [this]
      have := hnone _ he
      simp only [hc] at this
      exact ⟨_, .cons (hsame _ _ this).1 .nil⟩
    · have : ∀ e ∈ E, tgt e.1 ≠ (l, n) := fun e he h => hc ⟨e, he, h⟩
      rw [cellVals_none this]
      exact ⟨_, .nil⟩)
  obtain ⟨w', hw'⟩ := hsucc
  refine ⟨w', by rw [hassign, hw'], ?_⟩
  obtain ⟨hso, hass, _⟩ := runCells_effect _ _ _ hcwf1 hvals hw'
  -- attributes afterwards
  have hcell1 : ∀ e ∈ E, attrAt w'.heap (tgt e.1).1 (tgt e.1).2 = some (.val e.2) := by
    rintro ⟨k, v⟩ he
    have := hass (tgt k).1 (tgt k).2
    rw [cellVals_single hinj hE he] at this
    have hs := hsame _ _ (hnone _ he)
    simp only at hs
    generalize attrAt w'.heap (tgt k).1 (tgt k).2 = x at this
    cases this with
    | cons _ h2 => cases h2; rw [hs.2]
  have hcell2 : ∀ l n, (∀ e ∈ E, tgt e.1 ≠ (l, n)) → attrAt w'.heap l n = attrAt w1.heap l n := by
    intro l n hne
    have := hass l n
    rw [cellVals_none hne] at this
    generalize attrAt w'.heap l n = x at this ⊢
    generalize attrAt w1.heap l n = y at this ⊢
    cases this; rfl
  have hrootR : Reaches h root root := ⟨[], .here hroot⟩
  have hge : ∀ e ∈ E, w.heap.length ≤ (tgt e.1).1 := by
    intro e he
    obtain ⟨x, hx, hc, _⟩ := htgt e.1 e.2 he
    rw [hc]; exact b.ge _
  have hrun : ∀ (cs : List ((Loc × Str) × PyVal α)) (w w' : World α) (j : Nat), (∀ c ∈ cs, c.1.1 ≠ j) →
      runCells cs w = (w', none) → w'.heap[j]? = w.heap[j]? := by
    intro cs
    induction cs with
    | nil => intro w w' j _ e; simp [runCells] at e; rw [e]
    | cons c cs ih =>
      intro w w' j hj e
      rw [runCells] at e
      split at e
      · simp at e
      · next w2 hs =>
        obtain ⟨o, a, ho, ht, hn, ha, rfl⟩ := setAttr_ok_iff.1 hs
        rw [ih _ _ j (fun c hc => hj c (List.mem_cons_of_mem _ hc)) e]
        simp only [World.setAttrs]
        exact getElem?_set_ne' (hj c List.mem_cons_self)
  refine ⟨⟨b.base, b.inj, ?_, ?_⟩, ?_, ?_, ?_, ?_, ?_, b.ge, ?_, ?_, ?_, ?_⟩
  · intro a o ha ho
    obtain ⟨u, _, _, hu⟩ := b.new a o ha ho
    have hlt := (List.getElem?_eq_some_iff.1 hu).1
    have hlt' : f a < w'.heap.length := by rw [hso.len]; exact hlt
    refine ⟨_, List.getElem?_eq_getElem hlt', ?_⟩
    obtain ⟨h1, h2, h3, h4⟩ := hso.obj _ _ _ hu (List.getElem?_eq_getElem hlt')
    exact ⟨h1, h3⟩
  · intro a ha n
    by_cases hc : ∃ e ∈ E, tgt e.1 = (f a, n)
    · obtain ⟨e, he, hc⟩ := hc
      have h1 := hcell1 e he
      obtain ⟨x, hx, hc', hat, _, _⟩ := htgt e.1 e.2 he
      rw [hc] at h1 hc' hat
      simp only [Prod.mk.injEq, and_true] at hc'
      have := b.inj _ _ ha (hreach x hx) hc'
      subst this
      rw [h1, hat]; rfl
    · have hne : ∀ e ∈ E, tgt e.1 ≠ (f a, n) := fun e he h => hc ⟨e, he, h⟩
      rw [hcell2 _ _ hne, b.attr wf ha]
      cases hat : attrAt h a n with
      | none => rfl
      | some y =>
        cases y with
        | ref l => rfl
        | val v =>
          by_cases hv : v.isNode = true
          · exfalso
            obtain ⟨x, hx, hxa⟩ := List.mem_map.1 ((hr a).2 ha)
            subst hxa
            have hin : (joinSlash (x.2 ++ [n]), v) ∈ E := (hEs _ _).2 ⟨x, hx, n, hat, hQ _ _ v hat hv, rfl⟩
            obtain ⟨x', hx', hc', hat', _, hk⟩ := htgt _ _ hin
            have hwx := hw x hx
            have hwx' := hw x' hx'
            obtain ⟨hpp, hnn⟩ := joinSlash_path_inj (hwx.noSlash wf) (wf.slash _ _ _ hat) (hwx'.noSlash wf)
              (wf.slash _ _ _ hat') hk
            have : x.1 = x'.1 := by rw [← hpp] at hwx'; exact hwx.functional hwx'
            apply hne _ hin
            simp only
            rw [hc', ← this, ← hnn]
          · have hres := wf.reserved _ _ _ hat
            simp [hv, hres, Attr.redirect]
  · rw [hso.len]; exact b.len
  · rw [hso.nextId]; exact b.ids
  · rw [hso.jax]; exact b.jax
  · rw [hso.stack]; exact b.stack
  · intro j hj
    rw [hrun _ _ _ j _ hw', b.old j hj]
    intro c hc
    obtain ⟨e, he, rfl⟩ := List.mem_map.1 hc
    have := hge e he
    exact fun e' => Nat.lt_irrefl _ (Nat.lt_of_lt_of_le hj (by rw [← e']; exact this))
  · intro j h1 h2
    exact b.surj j h1 (by rw [← hso.len]; exact h2)
  · intro j o h1 ho
    have hlt := (List.getElem?_eq_some_iff.1 ho).1
    rw [hso.len] at hlt
    obtain ⟨l, hl, rfl⟩ := b.surj j h1 hlt
    obtain ⟨p, hp⟩ := hl
    obtain ⟨u, hu1, hu2, hu⟩ := b.new l _ ⟨p, hp⟩ (List.getElem?_eq_getElem hp.lt)
    obtain ⟨h1, h2, h3, h4⟩ := hso.obj _ _ _ hu ho
    rw [h2, h4, hso.nextId]
    exact ⟨hu1, hu2, rfl⟩
  · intro j j' o o' h1 h1' ho ho' hu
    have hlt := (List.getElem?_eq_some_iff.1 ho).1
    have hlt' := (List.getElem?_eq_some_iff.1 ho').1
    rw [hso.len] at hlt hlt'
    obtain ⟨_, a2, _, _⟩ := hso.obj _ _ _ (List.getElem?_eq_getElem hlt) ho
    obtain ⟨_, b2, _, _⟩ := hso.obj _ _ _ (List.getElem?_eq_getElem hlt') ho'
    exact b.uniq j j' _ _ h1 h1' (List.getElem?_eq_getElem hlt) (List.getElem?_eq_getElem hlt')
      (by rw [← a2, ← b2, hu])
  · refine runCells_nodup _ _ _ _ (fun l => w.heap.length ≤ l) hw' ?_
    intro j o h1 ho
    obtain ⟨l, hl, rfl⟩ := b.surj j h1 (List.getElem?_eq_some_iff.1 ho).1
    obtain ⟨p, hp⟩ := hl
    obtain ⟨u, hu1, hu2, hu⟩ := b.new l _ ⟨p, hp⟩ (List.getElem?_eq_getElem hp.lt)
    rw [hu] at ho
    simp only [Option.some.injEq] at ho
    subst ho
    exact rebuilt_nodup _ _ _ _

/-- Merging a definition with a State that was taken after more types had been registered. -/
theorem mergeMore_spec {types types' : List Cls} (hx : Extends types) (hx' : Extends types') (hm : NoMetaNode types')
    (hsub : ∀ v : PyVal α, isNodeIn types v = true → isNodeIn types' v = true) {h : Heap α} (wf : WFHeap h) {root : Loc}
    (hroot : root < h.length) {f1 f2 : Nat} {d : ModuleDef α} (hd : getModuleDefIn types f1 h root = some d)
    {s : State (PyVal α)} (hs : getStateIn types' f2 h root = some s) {ss : List (State (PyVal α))} (hp : Pieces s ss)
    {w : World α} (hcwf : ContsWF w.heap) :
    ∃ w' f, mergeDef d ss w = (w', .ok w.heap.length) ∧ MergeSpec h root w w' f := by
  have hroot' : root < (relHeap types h).length := by rw [relHeap_length]; exact hroot
  have hd' : getModuleDef f1 (relHeap types h) root = some (relDef types d) := by rw [getModuleDef_rel hx, hd]; rfl
  obtain ⟨vs, S', dfs, hg⟩ := getStateIn_get hx' wf hroot hs
  obtain ⟨hvn, hvr, hvw, _⟩ := dfs.complete (rel_wf wf) isOrder_sort (by rw [relHeap_length]; exact hroot)
  obtain ⟨W1, f, hb, bs⟩ := getModuleDef_build (rel_wf wf) hroot' hd' (relWorld types w)
  rw [buildModule_rel] at hb
  cases hb0 : buildModule d w with
  | error e => rw [hb0] at hb; cases hb
  | ok r =>
    obtain ⟨l, w1⟩ := r
    rw [hb0] at hb
    simp only [Except.map, Except.ok.injEq, Prod.mk.injEq] at hb
    obtain ⟨hl, rfl⟩ := hb
    have hlen : (relWorld types w).heap.length = w.heap.length := relHeap_length _
    rw [hlen] at hl
    -- the containers of the built Modules are those of the original
    have hc1 : ContsWF w1.heap := by
      intro a n c x m ha
      have ha' : attrAt (relWorld types w1).heap a n = some (relAttr types (.val (.cont c x m))) := by
        rw [show attrAt (relWorld types w1).heap a n = _ from attrAt_rel w1.heap a n, ha]; rfl
      by_cases hlt : a < w.heap.length
      · have := bs.old a (by rw [hlen]; exact hlt)
        have e : attrAt (relWorld types w).heap a n = some (relAttr types (.val (.cont c x m))) := by
          simp only [attrAt, ← this]; exact ha'
        rw [show attrAt (relWorld types w).heap a n = _ from attrAt_rel w.heap a n] at e
        cases h4 : attrAt w.heap a n with
        | none => rw [h4] at e; cases e
        | some y =>
          rw [h4] at e
          simp only [Option.map_some, Option.some.injEq] at e
          rw [relAttr_inj e] at h4
          exact hcwf _ _ _ _ _ h4
      · have hlt1 : a < (relWorld types w1).heap.length := by
          unfold attrAt at ha'
          split at ha'
          · next o ho => exact (List.getElem?_eq_some_iff.1 ho).1
          · cases ha'
        obtain ⟨l0, hr, rfl⟩ := bs.surj a (by rw [hlen]; exact Nat.le_of_not_lt hlt) hlt1
        obtain ⟨p, hw⟩ := hr
        obtain ⟨o0, ho⟩ : ∃ o0, (relHeap types h)[l0]? = some o0 := ⟨_, List.getElem?_eq_getElem hw.lt⟩
        obtain ⟨u, _, _, hu⟩ := bs.new l0 _ ⟨p, hw⟩ ho
        simp only [attrAt, hu] at ha'
        rw [rebuilt_get f ((rel_wf wf).nodup _ _ ho)] at ha'
        have hat : attrAt (relHeap types h) l0 n = dget o0.attrs n := by simp only [attrAt, ho]
        rw [← hat, attrAt_rel] at ha'
        cases h4 : attrAt h l0 n with
        | none => rw [h4] at ha'; cases ha'
        | some y =>
          rw [h4] at ha'
          cases y with
          | ref b => cases ha'
          | val v =>
            simp only [Option.map_some, relAttr] at ha'
            split at ha'
            · simp only [Option.some.injEq, Attr.val.injEq] at ha'
              rw [relabel_inj ha'] at h4
              exact wf.conts _ _ _ _ _ h4
            · cases ha'
    obtain ⟨hn, hE⟩ := hp.entries
    have hv : ∀ e ∈ (State.new [] :: ss).foldl (fun d t => dupdate d t.items) ([] : Dict Str (PyVal α)), WFVal e.2 := by
      intro e he
      have := (hE e.1 e.2).1 he
      obtain ⟨y, _, n, h1, h2, _⟩ := (hg _ _).1 this
      cases hev : e.2 with
      | cont c x m => rw [hev] at h1; exact .inr (wf.conts _ _ _ _ _ h1)
      | cmeta x m =>
        rw [hev] at h2
        rw [show isNodeIn types' (PyVal.cmeta x m) = _ from hm] at h2
        cases h2
      | _ => exact .inl trivial
    generalize hEE : (State.new [] :: ss).foldl (fun d t => dupdate d t.items) ([] : Dict Str (PyVal α)) = E at hn hE hv
    have hE' : ∀ k v, (k, v) ∈ relItems types E ↔ ∃ x ∈ vs, ∃ n, attrAt (relHeap types h) x.1 n = some (.val v) ∧
        (∃ u, v = relabel types u ∧ isNodeIn types' u = true) ∧ k = joinSlash (x.2 ++ [n]) := by
      intro k v
      constructor
      · intro hkv
        obtain ⟨⟨k0, v0⟩, h0, e⟩ := List.mem_map.1 hkv
        cases e
        obtain ⟨x, hxm, n, h1, h2, h3⟩ := (hg _ _).1 ((hE _ _).1 h0)
        exact ⟨x, hxm, n, by rw [attrAt_rel, h1]; rfl, ⟨v0, rfl, h2⟩, h3⟩
      · rintro ⟨x, hxm, n, h1, ⟨u, rfl, h2⟩, h3⟩
        rw [attrAt_rel] at h1
        cases h4 : attrAt h x.1 n with
        | none => rw [h4] at h1; cases h1
        | some y =>
          rw [h4] at h1
          simp only [Option.map_some, Option.some.injEq] at h1
          rw [relAttr_inj (b := .val u) h1] at h4
          exact List.mem_map.2 ⟨(k, u), (hE _ _).2 ((hg _ _).2 ⟨x, hxm, n, h4, h2, h3⟩), rfl⟩
    have hn' : DNodup (relItems types E) := by
      simpa [relItems, DNodup, dkeys, List.map_map, Function.comp_def] using hn
    obtain ⟨W', ha, hms⟩ := fill_more_spec (rel_wf wf) hroot' hvn (fun a => (hvr a).trans (reaches_rel.trans reaches_rel.symm))
      (fun x hx => walk_rel.2 (walk_rel.1 (hvw x hx)))
      (Q := fun v => ∃ u, v = relabel types u ∧ isNodeIn types' u = true)
      (by
        intro l n v ha hv
        rw [attrAt_rel] at ha
        cases h4 : attrAt h l n with
        | none => rw [h4] at ha; cases ha
        | some y =>
          rw [h4] at ha
          cases y with
          | ref b => cases ha
          | val u =>
            cases ha
            exact ⟨u, rfl, hsub u (by rw [← relabel_isNode hx]; exact hv)⟩)
      (by
        intro l n v ha ⟨u, hu, h2⟩
        subst hu
        refine relabel_wfval ?_
        rw [attrAt_rel] at ha
        cases h4 : attrAt h l n with
        | none => rw [h4] at ha; cases ha
        | some y =>
          rw [h4] at ha
          simp only [Option.map_some, Option.some.injEq] at ha
          rw [relAttr_inj (b := .val u) ha] at h4
          cases u with
          | cont c x m => exact .inr (wf.conts _ _ _ _ _ h4)
          | cmeta x m =>
            rw [show isNodeIn types' (PyVal.cmeta x m) = _ from hm] at h2
            cases h2
          | _ => exact .inl trivial)
      hn' hE' bs (by
      intro l n c x m e
      rw [show attrAt (relWorld types w).heap l n = _ from attrAt_rel w.heap l n] at e
      cases h4 : attrAt w.heap l n with
      | none => rw [h4] at e; cases e
      | some a =>
        rw [h4] at e
        cases a with
        | ref b => cases e
        | val u =>
          simp only [Option.map_some, relAttr, Option.some.injEq, Attr.val.injEq] at e
          obtain ⟨c0, x0, m0, rfl, rfl, rfl, rfl⟩ := relabel_cont_iff e
          exact relabel_wf (hcwf _ _ _ _ _ h4))
    rw [hlen, assignAll_rel _ _ _ hc1 hv] at ha
    simp only [Prod.mk.injEq] at ha
    obtain ⟨rfl, ha⟩ := ha
    refine ⟨(assignAll w.heap.length E w1).1, f, ?_, hms.of_rel⟩
    simp only [mergeDef, hb0, updateModule, hl, hEE]
    rw [show assignAll w.heap.length E w1 = ((assignAll w.heap.length E w1).1, none) from Prod.ext rfl ha]

end Nnx
