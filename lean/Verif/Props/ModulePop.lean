import Verif.Proofs.Pop
import Verif.Props.ModuleUpdate
/-
Property C17: pop_state.
-/
namespace Nnx
variable {α : Type} [DecidableEq α]

omit [DecidableEq α] in
theorem le_maxUid {h : Heap α} {o : ModObj α} (hm : o ∈ h) : o.uid ≤ h.foldr (fun o m => max o.uid m) 0 := by
  induction h with
  | nil => cases hm
  | cons x h ih =>
    simp only [List.foldr_cons]
    rcases List.mem_cons.1 hm with rfl | hm
    · exact Nat.le_max_left _ _
    · exact Nat.le_trans (ih hm) (Nat.le_max_right _ _)

omit [DecidableEq α] in
/-- The path under which a module is visited. -/
def visitPath (vs : List (Loc × List Str)) (l : Loc) : List Str := ((vs.find? fun x => x.1 == l).map (·.2)).getD []

theorem visitPath_of_mem {vs : List (Loc × List Str)} (hnd : (vs.map (·.1)).Nodup) {x : Loc × List Str} (hx : x ∈ vs) :
    visitPath vs x.1 = x.2 := by
  cases hf : vs.find? (fun y => y.1 == x.1) with
  | none => exact absurd (List.find?_eq_none.1 hf x hx) (by simp)
  | some y =>
    have h1 : y.1 = x.1 := by simpa using List.find?_some hf
    obtain rfl := eq_of_map_nodup hnd (List.mem_of_find?_eq_some hf) hx h1
    simp [visitPath, hf]

omit [DecidableEq α] in
/-- What `pop_state` does, with the paths under which the modules are visited. -/
theorem popState_effect_at {h : Heap α} (wf : WFHeap h) {root : Loc} (hroot : root < h.length) (hac : Acyclic h root)
    {filters : List (Filter α)} (hne : filters ≠ []) (hwf : ∀ f ∈ filters, f.WellFormed) {fuel : Nat}
    (hf : h.length < fuel) :
    let path := visitPath (popVisit h fuel root [] [])
    ∃ (h' : Heap α) (ss : List (State (PyVal α))),
      popState fuel root filters h = (h', .ok ss) ∧ ss.length = filters.length ∧
      (∀ l, Reaches h root l → Walk h root (path l) l) ∧
      (∀ (i : Nat) (t : State (PyVal α)), ss[i]? = some t → ∀ k v, t.get k = some v ↔
        ∃ l n, Reaches h root l ∧ attrAt h l n = some (.val v) ∧ v.isNode = true ∧ k = joinSlash (path l ++ [n]) ∧
          FirstMatch filters k v i) ∧
      (∀ (l : Loc) (o : ModObj α), h[l]? = some o → ∃ o', h'[l]? = some o' ∧ o'.cls = o.cls ∧ o'.uid = o.uid ∧
        o'.isInit = o.isInit ∧ o'.trace = o.trace ∧ DNodup o'.attrs ∧
        (¬ Reaches h root l → o' = o)) ∧
      (∀ l n, Reaches h root l → attrAt h' l n = none ∨ attrAt h' l n = attrAt h l n) ∧
      (∀ l n, Reaches h root l → (attrAt h' l n ≠ attrAt h l n ↔ ∃ v, attrAt h l n = some (.val v) ∧ v.isNode = true ∧
        ∃ f ∈ filters, f.Matches (joinSlash (path l ++ [n])) v)) := by
  intro path
  rcases toPredicates_spec filters with ⟨_, preds, hp, hspec⟩ | ⟨hn, _⟩
  swap
  · exact absurd (AllWellFormed_iff.2 hwf) hn
  have hlen : preds.length = filters.length := (hspec [] .none).2.2.1
  have hAny : ∀ k v, AnyP preds k v = true ↔ ∃ f ∈ filters, f.Matches k v := fun k v => by
    rw [(hspec k v).1, SomeMatches_iff]
  obtain ⟨vs, evs, h', e, hvs, hperm, hnd, hx, hc, hh⟩ := popRec_spec wf preds fuel root [] h [] (List.replicate preds.length [])
    hroot (Nat.lt_of_le_of_lt (rank_le h root) hf) hac ⟨fun a o0 ha => ⟨o0, ha, rfl⟩, by simp⟩ (fun _ _ _ => rfl) (by simp)
  have hw : ∀ x ∈ vs, Walk h root x.2 x.1 := by
    intro x hx'
    obtain ⟨_, q, hq, hw⟩ := hx x hx'
    rw [hq]; simpa using hw
  have hcov : ∀ l, Reaches h root l → ∃ x ∈ vs, x.1 = l := by
    intro l hl
    have := hc l hl
    simp only [List.nil_append] at this
    obtain ⟨x, hx', hu⟩ := List.mem_map.1 this
    obtain ⟨q, hq⟩ := hl
    exact ⟨x, hx', uidAt_inj wf (hw x hx').lt hq.lt hu⟩
  have hpath : ∀ x ∈ vs, path x.1 = x.2 := fun x hx' => by
    simp only [path, ← hvs]; exact visitPath_of_mem hnd hx'
  have hnodup : DNodup evs := by
    apply dnodup_perm (hperm.trans (poppedAll_perm h preds vs)).symm
    exact dnodup_filter (own_nodup wf hnd hw) _
  have hmem : ∀ k v, (k, v) ∈ evs ↔ ∃ x ∈ vs, ∃ n, attrAt h x.1 n = some (.val v) ∧ v.isNode = true ∧
      k = joinSlash (x.2 ++ [n]) ∧ AnyP preds k v = true := by
    intro k v
    rw [(hperm.trans (poppedAll_perm h preds vs)).mem_iff, List.mem_filter, List.mem_flatMap]
    constructor
    · rintro ⟨⟨⟨l, p⟩, hx', hkv⟩, hA⟩
      obtain ⟨n, h1, h2, h3⟩ := (mem_own wf).1 hkv
      exact ⟨_, hx', n, h1, h2, h3, hA⟩
    · rintro ⟨⟨l, p⟩, hx', n, h1, h2, h3, hA⟩
      exact ⟨⟨_, hx', (mem_own wf).2 ⟨n, h1, h2, h3⟩⟩, hA⟩
  have hin : ∀ x ∈ vs, ∀ n, attrAt h' x.1 n = (attrAt h x.1 n).filter (fun a => keepAttr preds x.2 (n, a)) := by
    intro x hx' n
    have hl := List.getElem?_eq_getElem (hw x hx').lt
    have h1 := hh.inside x hx' _ hl
    simp only [attrAt, h1, hl]
    exact dget_filter (wf.nodup _ _ hl) (fun k v => keepAttr preds x.2 (k, v)) n
  refine ⟨h', (insAll preds evs (List.replicate preds.length [])).map .new, ?_, ?_, ?_, ?_, ?_, ?_, ?_⟩
  · have : filters.isEmpty = false := by cases filters with | nil => exact absurd rfl hne | cons _ _ => rfl
    simp only [popState, this, hp, e]
    simp
  · rw [List.length_map, insAll_length, List.length_replicate, hlen]
  · intro l hl
    obtain ⟨x, hx', rfl⟩ := hcov l hl
    rw [hpath x hx']; exact hw x hx'
  · intro i t ht k v
    rw [List.getElem?_map] at ht
    have hfold := split_fold_get preds evs (List.replicate preds.length []) hnodup (by
      intro d hd kv hkv
      simp at hd
      simp [hd]) i
    rw [insAll, hfold, List.getElem?_replicate] at ht
    by_cases hi : i < preds.length
    swap
    · simp [hi] at ht
    rw [if_pos hi] at ht
    simp only [Option.map_some, List.nil_append, Option.some.injEq] at ht
    subst ht
    have hnf : DNodup (evs.filter (fun kv => bucket preds kv.1 kv.2 == i)) := dnodup_filter hnodup _
    rw [State.new_get_nodup hnf, dget_iff_mem hnf, List.mem_filter, hmem]
    simp only [beq_iff_eq]
    rw [bucket_firstMatch hp hi]
    constructor
    · rintro ⟨⟨x, hx', n, h1, h2, h3, h4⟩, hfm⟩
      exact ⟨x.1, n, ⟨_, hw x hx'⟩, h1, h2, by rw [hpath x hx']; exact h3, hfm⟩
    · rintro ⟨l, n, hl, h1, h2, h3, hfm⟩
      obtain ⟨x, hx', rfl⟩ := hcov l hl
      rw [hpath x hx'] at h3
      refine ⟨⟨x, hx', n, h1, h2, h3, ?_⟩, hfm⟩
      obtain ⟨⟨f, hf1, hf2⟩, _⟩ := hfm
      exact (hAny _ _).2 ⟨f, List.mem_of_getElem? hf1, hf2⟩
  · intro l o ho
    by_cases hl : l ∈ vs.map (·.1)
    · obtain ⟨x, hx', rfl⟩ := List.mem_map.1 hl
      refine ⟨_, hh.inside x hx' o ho, rfl, rfl, rfl, rfl, dnodup_filter (wf.nodup _ _ ho) _, ?_⟩
      intro hnr
      exact absurd ⟨_, hw x hx'⟩ hnr
    · exact ⟨o, by rw [hh.outside l hl (by simp)]; exact ho, rfl, rfl, rfl, rfl, wf.nodup _ _ ho, fun _ => rfl⟩
  · intro l n hl
    obtain ⟨x, hx', rfl⟩ := hcov l hl
    rw [hin x hx']
    cases hat : attrAt h x.1 n with
    | none => left; rfl
    | some a =>
      cases hk : keepAttr preds x.2 (n, a) with
      | true => right; simp [Option.filter, hk]
      | false => left; simp [Option.filter, hk]
  · intro l n hl
    obtain ⟨x, hx', rfl⟩ := hcov l hl
    rw [hin x hx', hpath x hx']
    cases hat : attrAt h x.1 n with
    | none => simp
    | some a =>
      cases a with
      | ref b => simp [Option.filter, keepAttr]
      | val v =>
        have : AnyP preds (joinSlash (x.2 ++ [n])) v = true ↔ _ := hAny _ _
        simp only [Option.filter, keepAttr, Option.some.injEq, Attr.val.injEq, exists_eq_left', ← this]
        by_cases hb1 : v.isNode = true <;> by_cases hb2 : AnyP preds (joinSlash (x.2 ++ [n])) v = true <;> simp [hb1, hb2]

omit [DecidableEq α] in
/-- What `pop_state` does, in terms of the visited modules. -/
theorem popState_effect {h : Heap α} (wf : WFHeap h) {root : Loc} (hroot : root < h.length) (hac : Acyclic h root)
    {filters : List (Filter α)} (hne : filters ≠ []) (hwf : ∀ f ∈ filters, f.WellFormed) {fuel : Nat}
    (hf : h.length < fuel) :
    ∃ (h' : Heap α) (ss : List (State (PyVal α))) (path : Loc → List Str),
      popState fuel root filters h = (h', .ok ss) ∧ ss.length = filters.length ∧
      (∀ l, Reaches h root l → Walk h root (path l) l) ∧
      (∀ (i : Nat) (t : State (PyVal α)), ss[i]? = some t → ∀ k v, t.get k = some v ↔
        ∃ l n, Reaches h root l ∧ attrAt h l n = some (.val v) ∧ v.isNode = true ∧ k = joinSlash (path l ++ [n]) ∧
          FirstMatch filters k v i) ∧
      (∀ (l : Loc) (o : ModObj α), h[l]? = some o → ∃ o', h'[l]? = some o' ∧ o'.cls = o.cls ∧ o'.uid = o.uid ∧
        o'.isInit = o.isInit ∧ o'.trace = o.trace ∧ DNodup o'.attrs ∧
        (¬ Reaches h root l → o' = o)) ∧
      (∀ l n, Reaches h root l → attrAt h' l n = none ∨ attrAt h' l n = attrAt h l n) ∧
      (∀ l n, Reaches h root l → (attrAt h' l n ≠ attrAt h l n ↔ ∃ v, attrAt h l n = some (.val v) ∧ v.isNode = true ∧
        ∃ f ∈ filters, f.Matches (joinSlash (path l ++ [n])) v)) := by
  obtain ⟨h', ss, hr⟩ := popState_effect_at wf hroot hac hne hwf hf
  exact ⟨h', ss, _, hr⟩

omit [DecidableEq α] in
/-- **C17** for graphs without reference cycles. (Missing: cyclic graphs, on which the code does not return,
see `C17_returns_only_if_acyclic`.) `m.pop_state(f1..fn)` returns one State per filter. There is one path per
reachable module, leading to it, such that: State `i` holds exactly the node attributes of reachable modules
whose first matching filter is number `i`, under the path of their module; exactly the attributes matched by some
filter are removed; every other attribute, and every module that is not reachable, is unchanged. -/
theorem C17_pop_state_partial {h : Heap α} (wf : WFHeap h) {root : Loc} (hroot : root < h.length)
    (hac : Acyclic h root) {filters : List (Filter α)} (hne : filters ≠ []) (hwf : ∀ f ∈ filters, f.WellFormed)
    {fuel : Nat} (hf : h.length < fuel) :
    ∃ (h' : Heap α) (ss : List (State (PyVal α))) (path : Loc → List Str),
      popState fuel root filters h = (h', .ok ss) ∧ ss.length = filters.length ∧
      (∀ l, Reaches h root l → Walk h root (path l) l) ∧
      (∀ (i : Nat) (t : State (PyVal α)), ss[i]? = some t → ∀ k v, t.get k = some v ↔
        ∃ l n, Reaches h root l ∧ attrAt h l n = some (.val v) ∧ v.isNode = true ∧ k = joinSlash (path l ++ [n]) ∧
          FirstMatch filters k v i) ∧
      (∀ l n v, Reaches h root l → attrAt h l n = some (.val v) → v.isNode = true →
        (∃ f ∈ filters, f.Matches (joinSlash (path l ++ [n])) v) → attrAt h' l n = none) ∧
      (∀ l n, (¬ ∃ v, Reaches h root l ∧ attrAt h l n = some (.val v) ∧ v.isNode = true ∧
        ∃ f ∈ filters, f.Matches (joinSlash (path l ++ [n])) v) → attrAt h' l n = attrAt h l n) ∧
      (∀ (l : Loc) (o : ModObj α), h[l]? = some o → ∃ o', h'[l]? = some o' ∧ o'.cls = o.cls ∧ o'.uid = o.uid ∧
        o'.isInit = o.isInit ∧ o'.trace = o.trace) := by
  obtain ⟨h', ss, path, e, hlen, hpath, hget, hobj, hcase, hiff⟩ := popState_effect wf hroot hac hne hwf hf
  refine ⟨h', ss, path, e, hlen, hpath, hget, ?_, ?_, ?_⟩
  · intro l n v hl hat hv hm
    rcases hcase l n hl with h1 | h1
    · exact h1
    · exact absurd h1 ((hiff l n hl).2 ⟨v, hat, hv, hm⟩)
  · intro l n hno
    by_cases hl : Reaches h root l
    · by_contra hne'
      obtain ⟨v, h1, h2, h3⟩ := (hiff l n hl).1 hne'
      exact hno ⟨v, hl, h1, h2, h3⟩
    · cases ho : h[l]? with
      | some o =>
        obtain ⟨o', ho', _, _, _, _, _, heq⟩ := hobj l o ho
        rw [heq hl] at ho'
        simp only [attrAt, ho, ho']
      | none =>
        have hlen' : h'.length = h.length := by
          have w := confined_popState (A := fun _ => True) (w := ⟨h, h.foldr (fun o m => max o.uid m) 0, 0, []⟩)
            ⟨wf, fun _ o ho => le_maxUid (List.mem_of_getElem? ho)⟩
            (by intro l n l' _ _; trivial) trivial e
          exact w.2
        have : h'[l]? = none := by
          rw [List.getElem?_eq_none_iff] at ho ⊢
          rw [hlen']; exact ho
        simp only [attrAt, ho, this]
  · intro l o ho
    obtain ⟨o', ho', h1, h2, h3, h4, _⟩ := hobj l o ho
    exact ⟨o', ho', h1, h2, h3, h4⟩

omit [DecidableEq α] in
/-- **C17, nothing is left** (for graphs without reference cycles and filters that look at the value only). If
`m.pop_state(f1..fn)` returns, a later `m.get_state()` has no entry that matches one of the filters, and has every
other entry of the earlier state. -/
theorem C17_nothing_left_partial {h h' : Heap α} (wf : WFHeap h) {root : Loc} (hroot : root < h.length)
    (hac : Acyclic h root) {filters : List (Filter α)} {fuel : Nat} (hf : h.length < fuel)
    {ss : List (State (PyVal α))} (e : popState fuel root filters h = (h', .ok ss))
    (hpath : ∀ f ∈ filters, ∀ k k' v, f.Matches k v → f.Matches k' v) :
    ∃ s s', getState fuel h root = some s ∧ getState fuel h' root = some s' ∧
      ∀ k v, s'.get k = some v ↔ s.get k = some v ∧ ∀ f ∈ filters, ¬ f.Matches k v := by
  have hne : filters ≠ [] := by rintro rfl; simp [popState] at e
  have hwf : ∀ f ∈ filters, f.WellFormed := by
    rcases toPredicates_spec filters with ⟨h1, _⟩ | ⟨_, x, hx⟩
    · exact AllWellFormed_iff.1 h1
    · unfold popState at e
      split at e
      · simp at e
      · rw [hx] at e; simp at e
  obtain ⟨h2, ss2, path, e2, hlen, hp, hget, hobj, hcase, hiff⟩ := popState_effect wf hroot hac hne hwf hf
  rw [e] at e2
  simp only [Prod.mk.injEq, Except.ok.injEq] at e2
  obtain ⟨rfl, rfl⟩ := e2
  have hcf := confined_popState (A := fun _ => True) (w := ⟨h, h.foldr (fun o m => max o.uid m) 0, 0, []⟩)
    ⟨wf, fun _ o ho => le_maxUid (List.mem_of_getElem? ho)⟩ (by intro l n l' _ _; trivial) trivial e
  have wf' : WFHeap h' := hcf.1.wf.heap
  have hl' : h'.length = h.length := hcf.2
  obtain ⟨s, hs⟩ := getState_exists wf hroot hf
  obtain ⟨s', hs'⟩ := getState_exists wf' (by rw [hl']; exact hroot) (by rw [hl']; exact hf)
  refine ⟨s, s', hs, hs', ?_⟩
  have hrefs : ∀ l n b, Reaches h root l → (attrAt h' l n = some (.ref b) ↔ attrAt h l n = some (.ref b)) := by
    intro l n b hl
    by_cases hch : attrAt h' l n = attrAt h l n
    · rw [hch]
    · obtain ⟨v, hv, _⟩ := (hiff l n hl).1 hch
      rcases hcase l n hl with h1 | h1
      · rw [h1, hv]; simp
      · exact absurd h1 hch
  -- the two traversals visit the same modules under the same paths
  have hdfs : ∀ f (t : Task α) S vs S', Dfs h sortItems f t S vs S' →
      match t with
      | .visit l p => Reaches h root l → Dfs h' sortItems f (.visit l p) S vs S'
      | .attrs as p => ∀ as', (∀ x ∈ as, ∀ b, x.2 = .ref b → Reaches h root b) →
          as'.filter (fun x => x.2.isModule) = as.filter (fun x => x.2.isModule) → Dfs h' sortItems f (.attrs as' p) S vs S' := by
    have hvals : ∀ (as : List (Str × Attr α)) f p S vs S', Dfs h' sortItems f (.attrs (as.filter (fun x => x.2.isModule)) p) S vs S' →
        Dfs h' sortItems f (.attrs as p) S vs S' := by
      intro as
      induction as with
      | nil => intro f p S vs S' d; exact d
      | cons x as ih =>
        intro f p S vs S' d
        obtain ⟨n, a⟩ := x
        cases a with
        | val v => exact .val (ih _ _ _ _ _ (by simpa [Attr.isModule] using d))
        | ref b =>
          rw [List.filter_cons_of_pos (by rfl)] at d
          cases d with
          | ref d1 d2 => exact .ref d1 (ih _ _ _ _ _ d2)
    intro f t S vs S' d
    induction d with
    | @seen f l p S o ho hu =>
      intro hl
      obtain ⟨o', ho', _, hu', _⟩ := hobj l o ho
      exact .seen ho' (by rw [hu']; exact hu)
    | @visit f l p S S' o vs ho hu d ih =>
      intro hl
      obtain ⟨o', ho', _, hu', _, _, hnd', _⟩ := hobj l o ho
      refine .visit ho' (by rw [hu']; exact hu) ?_
      rw [hu']
      apply ih
      · rintro ⟨n, a⟩ hx b rfl
        exact hl.step wf (attrAt_of_mem wf ho ((sortItems_perm _).mem_iff.1 hx))
      · have hnd := wf.nodup l o ho
        have hkey : StrictSorted ((sortItems o'.attrs).filter (fun x => x.2.isModule)) :=
          StrictSorted.filter (sortItems_strict hnd') _
        have hkey2 : StrictSorted ((sortItems o.attrs).filter (fun x => x.2.isModule)) :=
          StrictSorted.filter (sortItems_strict hnd) _
        apply StrictSorted.ext hkey hkey2
        intro k
        have g1 := dget_filter (dnodup_perm (sortItems_perm o'.attrs).symm hnd') (fun _ (v : Attr α) => v.isModule) k
        have g2 := dget_filter (dnodup_perm (sortItems_perm o.attrs).symm hnd) (fun _ (v : Attr α) => v.isModule) k
        rw [g1, g2, dget_perm (sortItems_perm _) (dnodup_perm (sortItems_perm o'.attrs).symm hnd'),
          dget_perm (sortItems_perm _) (dnodup_perm (sortItems_perm o.attrs).symm hnd)]
        have ha : attrAt h l k = dget o.attrs k := by simp [attrAt, ho]
        have ha' : attrAt h' l k = dget o'.attrs k := by simp [attrAt, ho']
        rw [← ha, ← ha']
        ext a
        cases a with
        | val v => simp [Option.filter_eq_some_iff, Attr.isModule]
        | ref b => simp [Option.filter_eq_some_iff, Attr.isModule, hrefs l k b hl]
    | nil =>
      intro as' _ hfil
      apply hvals
      rw [hfil]; exact .nil
    | val d ih =>
      intro as' hr hfil
      exact ih as' (fun x hx => hr x (List.mem_cons_of_mem _ hx)) (by rw [hfil]; simp [Attr.isModule])
    | @ref f n l rest p S vs S1 ws S2 d1 d2 ih1 ih2 =>
      intro as' hr hfil
      apply hvals
      rw [hfil, List.filter_cons_of_pos (by rfl)]
      exact .ref (ih1 (hr _ List.mem_cons_self _ rfl))
        (ih2 _ (fun x hx => hr x (List.mem_cons_of_mem _ hx)) (by simp [List.filter_filter]))
  obtain ⟨vs, S', d, hcan, hg⟩ := getState_spec wf hroot hs
  obtain ⟨vs2, S2, d2, hcan2, hg2⟩ := getState_spec wf' (by rw [hl']; exact hroot) hs'
  obtain ⟨hn, hr, hw, hF⟩ := d.complete wf isOrder_sort hroot
  have d' := hdfs _ _ _ _ _ d (.refl hroot)
  obtain ⟨rfl, rfl⟩ := d'.functional d2
  intro k v
  rw [hg2, hg]
  have hkey : ∀ x ∈ vs2, ∀ n, attrAt h' x.1 n = some (.val v) ↔
      attrAt h x.1 n = some (.val v) ∧ (v.isNode = true → ∀ f ∈ filters, ¬ f.Matches k v) := by
    intro x hx n
    have hxr : Reaches h root x.1 := ⟨_, hw x hx⟩
    constructor
    · intro ha'
      rcases hcase x.1 n hxr with h1 | h1
      · rw [h1] at ha'; cases ha'
      · have ha := h1.symm.trans ha'
        refine ⟨ha, fun hv f hf' hm => ?_⟩
        exact (hiff x.1 n hxr).2 ⟨v, ha, hv, f, hf', hpath f hf' _ _ _ hm⟩ h1
    · rintro ⟨ha, hno⟩
      by_contra hne'
      have : attrAt h' x.1 n ≠ attrAt h x.1 n := by rw [ha]; exact hne'
      obtain ⟨v', ha', hv', f, hf', hm⟩ := (hiff x.1 n hxr).1 this
      rw [ha] at ha'
      cases ha'
      exact hno hv' f hf' (hpath f hf' _ _ _ hm)
  constructor
  · rintro ⟨x, hx, n, h1, h2, h3⟩
    obtain ⟨h4, h5⟩ := (hkey x hx n).1 h1
    exact ⟨⟨x, hx, n, h4, h2, h3⟩, h5 h2⟩
  · rintro ⟨⟨x, hx, n, h1, h2, h3⟩, h4⟩
    exact ⟨x, hx, n, (hkey x hx n).2 ⟨h1, fun _ => h4⟩, h2, h3⟩

omit [DecidableEq α] in
/-- **C17 fails on cyclic graphs.** `pop_state` returns only if no reachable module is on a reference cycle: with
a cycle every recursion budget is exhausted. -/
theorem C17_returns_only_if_acyclic {h h' : Heap α} (wf : WFHeap h) {root : Loc} (hroot : root < h.length)
    {filters : List (Filter α)} {fuel : Nat} {ss : List (State (PyVal α))}
    (e : popState fuel root filters h = (h', .ok ss)) : Acyclic h root := by
  unfold popState at e
  split at e
  · simp at e
  split at e
  · simp at e
  next preds hp =>
  split at e
  · simp at e
  next h1 idx states er =>
  obtain ⟨_, hacc, hu, _⟩ := popRec_acc wf preds fuel root [] h [] _ h1 idx states hroot
    (fun a o0 ha => ⟨o0, ha, rfl, wf.nodup _ _ ha, fun _ _ => Iff.rfl⟩) (by intro a _ h; simp at h) er
  intro a ha p hp
  obtain ⟨q, hq⟩ := ha
  exact acyclic_of_acc (acc_walk hq (hacc root hroot hu)) p hp

/-- The cyclic example graph is well formed and has attributes to pop, but `pop_state` never returns. -/
theorem C17_cycle_never_returns : WFHeap exHeap ∧ ∀ fuel h' ss, popState fuel 0 [.ofType cParam] exHeap ≠ (h', .ok ss) := by
  refine ⟨exHeap_wf, ?_⟩
  intro fuel h' ss e
  have hac := C17_returns_only_if_acyclic exHeap_wf (root := 0) (by decide) e
  have := hac 0 (.refl (by decide)) [py! "me"] (.step (by decide) (.here (by decide)))
  cases this

/-- An acyclic graph: a block shared under `b` (assigned first) and `a`. -/
def exShared : Heap Nat :=
  [ ⟨exCls (py! "Net"), [(py! "w", .val (exParam 1)), (py! "b", .ref 1), (py! "a", .ref 1)], 7, false, ⟨0, 0⟩⟩,
    ⟨exCls (py! "Block"), [(py! "w", .val (exParam 5)), (py! "s", .val (exStat 6)),
      (py! "k", .val (.data cTuple 3))], 3, true, ⟨0, 0⟩⟩ ]

theorem exShared_wf : WFHeap exShared := by
  apply wfHeap_of_forall (by decide)
  intro o ho
  simp only [exShared, List.mem_cons, List.not_mem_nil, or_false] at ho
  rcases ho with rfl | rfl
  · refine ⟨by decide, ?_⟩
    intro na hna
    simp only [List.mem_cons, List.not_mem_nil, or_false] at hna
    rcases hna with rfl | rfl | rfl <;> refine ⟨by unfold NoSlash; decide, by decide, ?_, ?_⟩ <;>
      intros <;> rename_i h <;> try cases h
    · exact exParam_wf 1
    all_goals (simp [exShared])
  · refine ⟨by decide, ?_⟩
    intro na hna
    simp only [List.mem_cons, List.not_mem_nil, or_false] at hna
    rcases hna with rfl | rfl | rfl <;> refine ⟨by unfold NoSlash; decide, by decide, ?_, ?_⟩ <;>
      intros <;> rename_i h <;> try cases h
    · exact exParam_wf 5
    · exact exStat_wf 6

/-- The hypotheses of the theorems above are met by a graph with sharing: it is acyclic because `pop_state`
returns on it. -/
theorem exShared_acyclic : Acyclic exShared 0 :=
  C17_returns_only_if_acyclic (fuel := 3) (filters := [.ofType cParam]) exShared_wf (by decide) rfl

example : ∃ h', popState 3 0 [.ofType cBatchStat, .ofType cParam] exShared =
    (h', .ok [⟨[(py! "b/s", exStat 6)]⟩, ⟨[(py! "b/w", exParam 5), (py! "w", exParam 1)]⟩]) ∧
    getState 3 h' 0 = some ⟨[]⟩ ∧ (attrAt h' 1 (py! "k")).isSome := ⟨_, rfl, by decide, by decide⟩

/-- Why the filters of `C17_nothing_left_partial` must not look at the path: `pop_state` goes through the attributes
in insertion order and `get_state` in sorted order, so a shared module may have another path in each. Popping
the entry that `get_state` lists as "a/w" pops nothing. -/
theorem C17_path_filter_misses : ∃ h', getState 3 exShared 0 =
      some ⟨[(py! "a/s", exStat 6), (py! "a/w", exParam 5), (py! "w", exParam 1)]⟩ ∧
    popState 3 0 [.pred (fun k _ => k == py! "a/w")] exShared = (h', .ok [⟨[]⟩]) ∧ h' = exShared :=
  ⟨_, by decide, rfl, by decide⟩

end Nnx
