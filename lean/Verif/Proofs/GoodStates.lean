import Verif.Proofs.Corresponding
import Verif.Proofs.ScanNamed
/-
The operations of scan on States keep what makes a State good to be merged into a Module.
-/
namespace Nnx
variable {α : Type}

/-- The values of the State are well formed and none is for a reserved attribute. -/
def GoodState (s : State (PyVal α)) : Prop :=
  ∀ k v, (k, v) ∈ s.items → WFVal v ∧ isReserved ((splitSlash k).getLastD []) = false

theorem goodUpdates_iff {us : List (State (PyVal α))} : GoodUpdates us ↔ ∀ t ∈ us, GoodState t := Iff.rfl

theorem mem_dset_or {V : Type _} {d : Dict Str V} {p : Str} {x : V} {kv : Str × V} (h : kv ∈ dset d p x) : kv = (p, x) ∨ kv ∈ d := by
  induction d with
  | nil => simp only [dset, List.mem_singleton] at h; exact .inl h
  | cons a d ih =>
    obtain ⟨q, y⟩ := a
    simp only [dset] at h
    split at h
    · next e =>
      rcases List.mem_cons.1 h with h | h
      · subst e; exact .inl h
      · exact .inr (List.mem_cons_of_mem _ h)
    · rcases List.mem_cons.1 h with h | h
      · exact .inr (h ▸ List.mem_cons_self)
      · rcases ih h with h | h
        · exact .inl h
        · exact .inr (List.mem_cons_of_mem _ h)

theorem mem_dupdate_or {V : Type _} : ∀ {e : List (Str × V)} {d : Dict Str V} {kv : Str × V}, kv ∈ dupdate d e → kv ∈ e ∨ kv ∈ d := by
  intro e
  induction e with
  | nil => intro d kv h; exact .inr h
  | cons a e ih =>
    intro d kv h
    rcases ih (d := dset d a.1 a.2) h with h | h
    · exact .inl (List.mem_cons_of_mem _ h)
    · rcases mem_dset_or h with h | h
      · exact .inl (h ▸ List.mem_cons_self)
      · exact .inr h

theorem State.new_mem {V : Type _} {input : List (Str × V)} {kv : Str × V} (h : kv ∈ (State.new input).items) : kv ∈ input := by
  rcases mem_dupdate_or (d := []) h with h | h
  · exact (sortItems_perm input).mem_iff.1 h
  · cases h

theorem GoodState.new {input : List (Str × PyVal α)}
    (h : ∀ k v, (k, v) ∈ input → WFVal v ∧ isReserved ((splitSlash k).getLastD []) = false) : GoodState (State.new input) :=
  fun k v hm => h k v (State.new_mem hm)

theorem GoodState.empty : GoodState (⟨[]⟩ : State (PyVal α)) := fun _ _ h => by cases h

theorem GoodState.sub {s : State (PyVal α)} (hs : GoodState s) (t : State (PyVal α)) : GoodState (s.sub t) := by
  intro k v h
  unfold State.sub at h
  split at h
  · exact hs k v h
  · exact hs k v (List.mem_filter.1 h).1

theorem GoodState.merge {s : State (PyVal α)} (hs : GoodState s) {ts : List (State (PyVal α))} (ht : ∀ t ∈ ts, GoodState t) :
    GoodState (s.merge ts) := by
  unfold State.merge
  split
  · exact hs
  · refine .new fun k v h => ?_
    rcases mem_foldl_dupdate _ _ _ _ (by simp [DNodup]) h with h' | ⟨t, h1, h'⟩
    · cases h'
    · rcases List.mem_cons.1 h1 with rfl | h1
      · exact hs k v h'
      · exact ht t h1 k v h'

theorem splitInsert_mem : ∀ (preds : List (Pred α)) (dicts : List (Dict Str (PyVal α))) (p : Str) (x : PyVal α) (d : Dict Str (PyVal α)) kv,
    d ∈ splitInsert preds dicts p x → kv ∈ d → kv = (p, x) ∨ ∃ d' ∈ dicts, kv ∈ d' := by
  intro preds
  induction preds with
  | nil =>
    intro dicts p x d kv hd hkv
    cases dicts with
    | nil => cases hd
    | cons e es =>
      rcases List.mem_cons.1 hd with rfl | hd
      · rcases mem_dset_or hkv with h | h
        · exact .inl h
        · exact .inr ⟨e, List.mem_cons_self, h⟩
      · exact .inr ⟨d, List.mem_cons_of_mem _ hd, hkv⟩
  | cons q qs ih =>
    intro dicts p x d kv hd hkv
    cases dicts with
    | nil => cases hd
    | cons e es =>
      simp only [splitInsert] at hd
      split at hd
      · rcases List.mem_cons.1 hd with rfl | hd
        · rcases mem_dset_or hkv with h | h
          · exact .inl h
          · exact .inr ⟨e, List.mem_cons_self, h⟩
        · exact .inr ⟨d, List.mem_cons_of_mem _ hd, hkv⟩
      · rcases List.mem_cons.1 hd with rfl | hd
        · exact .inr ⟨d, List.mem_cons_self, hkv⟩
        · rcases ih es p x d kv hd hkv with h | ⟨d', h1, h2⟩
          · exact .inl h
          · exact .inr ⟨d', List.mem_cons_of_mem _ h1, h2⟩

theorem splitFold_mem (preds : List (Pred α)) : ∀ (items : List (Str × PyVal α)) (dicts : List (Dict Str (PyVal α))) d kv,
    d ∈ items.foldl (fun ds kv => splitInsert preds ds kv.1 kv.2) dicts → kv ∈ d → kv ∈ items ∨ ∃ d' ∈ dicts, kv ∈ d' := by
  intro items
  induction items with
  | nil => intro dicts d kv hd hkv; exact .inr ⟨d, hd, hkv⟩
  | cons a items ih =>
    intro dicts d kv hd hkv
    rcases ih _ d kv hd hkv with h | ⟨d', h1, h2⟩
    · exact .inl (List.mem_cons_of_mem _ h)
    · rcases splitInsert_mem _ _ _ _ _ _ h1 h2 with h | h
      · exact .inl (h ▸ List.mem_cons_self)
      · exact .inr h

theorem GoodState.partition {s : State (PyVal α)} (hs : GoodState s) {fs : List (Filter α)} {ss : List (State (PyVal α))}
    (h : s.partition fs = .ok ss) : ∀ t ∈ ss, GoodState t := by
  unfold State.partition splitState at h
  by_cases he : ellipsisMisplaced fs = true
  · simp [he] at h
  · simp only [he] at h
    cases hp : toPredicates fs with
    | error e => simp [hp] at h
    | ok preds =>
      simp only [hp, Bool.false_eq_true, if_false] at h
      split at h
      · cases h
      · simp only [Except.ok.injEq] at h
        subst h
        intro t ht
        obtain ⟨d, hd, rfl⟩ := List.mem_map.1 ht
        refine .new fun k v hkv => ?_
        rcases splitFold_mem _ _ _ _ _ (List.dropLast_subset _ hd) hkv with h | ⟨d', h1, h2⟩
        · exact hs k v h
        · rw [(List.mem_replicate.1 h1).2] at h2; cases h2

theorem mapExcept_zip {X Y K : Type} {f : X → Except Err Y} : ∀ {xs : List X} {ys : List Y} (ks : List K), mapExcept f xs = .ok ys →
    ∀ k y, (k, y) ∈ ks.zip ys → ∃ x, (k, x) ∈ ks.zip xs ∧ f x = .ok y := by
  intro xs
  induction xs with
  | nil => intro ys ks h k y hm; cases h; simp at hm
  | cons x xs ih =>
    intro ys ks h k y hm
    simp only [mapExcept] at h
    cases hf : f x with
    | error e => simp [hf] at h
    | ok z =>
      simp only [hf] at h
      cases hr : mapExcept f xs with
      | error e => simp [hr] at h
      | ok zs =>
        simp only [hr, Except.ok.injEq] at h
        subst h
        cases ks with
        | nil => simp at hm
        | cons c ks =>
          simp only [List.zip_cons_cons] at hm ⊢
          rcases List.mem_cons.1 hm with h | h
          · cases h; exact ⟨x, List.mem_cons_self, hf⟩
          · obtain ⟨x', h1, h2⟩ := ih ks hr k y h
            exact ⟨x', List.mem_cons_of_mem _ h1, h2⟩

theorem mapExcept_mem {X Y : Type} {f : X → Except Err Y} {xs : List X} {ys : List Y} (h : mapExcept f xs = .ok ys) {y : Y} (hy : y ∈ ys) :
    ∃ x ∈ xs, f x = .ok y := by
  induction xs generalizing ys with
  | nil => cases h; cases hy
  | cons x xs ih =>
    simp only [mapExcept] at h
    cases hf : f x with
    | error e => simp [hf] at h
    | ok z =>
      simp only [hf] at h
      cases hr : mapExcept f xs with
      | error e => simp [hr] at h
      | ok zs =>
        simp only [hr, Except.ok.injEq] at h
        subst h
        rcases List.mem_cons.1 hy with rfl | hy
        · exact ⟨x, List.mem_cons_self, hf⟩
        · obtain ⟨x', h1, h2⟩ := ih hr hy
          exact ⟨x', List.mem_cons_of_mem _ h1, h2⟩

theorem zip_keys_values {V : Type _} (d : Dict Str V) : (dkeys d).zip (d.map (·.2)) = d := by
  induction d with
  | nil => rfl
  | cons a d ih => simp only [dkeys, List.map_cons, List.zip_cons_cons] at ih ⊢; rw [ih]

theorem GoodState.treeMap {s t : State (PyVal α)} (hs : GoodState s) {f : PyVal α → Except Err (PyVal α)}
    (hf : ∀ x y, WFVal x → f x = .ok y → WFVal y) (h : s.treeMapExcept f = .ok t) : GoodState t := by
  unfold State.treeMapExcept at h
  cases hm : mapExcept f s.flatten.1 with
  | error e => simp [hm] at h
  | ok ys =>
    simp only [hm, Except.ok.injEq] at h
    subst h
    intro k y hk
    rcases mem_dupdate_or (d := []) hk with hk | hk
    · obtain ⟨x, h1, h2⟩ := mapExcept_zip _ hm k y hk
      have h1 : (k, x) ∈ s.items := by
        have := zip_keys_values s.mapping
        simp only [State.flatten, State.items, State.keys] at h1 ⊢
        rwa [this] at h1
      exact ⟨hf x y (hs k x h1).1 h2, (hs k x h1).2⟩
    · cases hk

theorem mem_of_allSome {X Y : Type} {f : X → Option Y} {xs : List X} {ys : List Y} (h : allSome (xs.map f) = some ys) {y : Y} (hy : y ∈ ys) :
    ∃ x ∈ xs, f x = some y := by
  obtain ⟨hlen, hs⟩ := allSome_map_spec _ _ h
  obtain ⟨i, hi, rfl⟩ := List.getElem_of_mem hy
  have hi' : i < xs.length := hlen ▸ hi
  obtain ⟨y, h1, h2⟩ := hs i _ (List.getElem?_eq_getElem hi')
  rw [List.getElem?_eq_getElem hi] at h2
  cases h2
  exact ⟨_, List.getElem_mem hi', h1⟩

theorem GoodState.mapVals {s t : State (PyVal α)} (hs : GoodState s) {g : PyVal α → Option (PyVal α)}
    (hg : ∀ x y, WFVal x → g x = some y → WFVal y) (h : s.mapVals g = some t) : GoodState t := by
  simp only [State.mapVals, Option.map_eq_some_iff] at h
  obtain ⟨m, hm, rfl⟩ := h
  intro k v hk
  obtain ⟨kv, hmem, h1⟩ := mem_of_allSome hm hk
  simp only [Option.map_eq_some_iff] at h1
  obtain ⟨z, h1, h3⟩ := h1
  cases h3
  exact ⟨hg _ _ (hs kv.1 kv.2 hmem).1 h1, (hs kv.1 kv.2 hmem).2⟩

theorem GoodState.slice {R : Arrays α} {axis : Int} {i : Nat} {s t : State (PyVal α)} (hs : GoodState s)
    (h : sliceState R axis i s = some t) : GoodState t :=
  hs.mapVals (fun _ _ hx e => mapLeaves_wf e hx) h

variable [DecidableEq α]

theorem GoodState.addAxis {s t : State (PyVal α)} (hs : GoodState s) {i : Int} {md : Md α} (h : Nnx.addAxis s i md = .ok t) :
    GoodState t := by
  unfold Nnx.addAxis at h
  split at h
  · cases h
  · refine hs.treeMap (fun x y hx e => ?_) h
    unfold addAxisLeaf at e
    split at e
    · next xs hsh =>
      obtain ⟨c, v, m, rfl, _⟩ := shardingOf_some hsh
      rw [replace_sharding (wfVal_container hx) hsh] at e
      cases e
      exact .inr (withSharding_wf (wfVal_container hx) hsh _)
    · cases e; exact hx

theorem GoodState.removeAxis {s t : State (PyVal α)} (hs : GoodState s) {i : Int} {md : Md α} (h : Nnx.removeAxis s i md = .ok t) :
    GoodState t := by
  unfold Nnx.removeAxis at h
  split at h
  · cases h
  · refine hs.treeMap (fun x y hx e => ?_) h
    unfold removeAxisLeaf at e
    split at e
    · next xs hsh =>
      split at e
      · cases e
      · split at e
        · obtain ⟨c, v, m, rfl, _⟩ := shardingOf_some hsh
          rw [replace_sharding (wfVal_container hx) hsh] at e
          cases e
          exact .inr (withSharding_wf (wfVal_container hx) hsh _)
        · cases e
    · cases e; exact hx

omit [DecidableEq α] in
theorem goodStates_onAxes {g : State (PyVal α) → Int → Md α → Except Err (State (PyVal α))}
    (hg : ∀ s t i md, GoodState s → g s i md = .ok t → GoodState t) {o : ScanOptions α} {ss ts : List (State (PyVal α))}
    (hs : ∀ t ∈ ss, GoodState t) (h : onAxes g o ss = .ok ts) : ∀ t ∈ ts, GoodState t := by
  unfold onAxes at h
  split at h
  · intro t ht
    obtain ⟨sa, h1, h2⟩ := mapExcept_mem h ht
    exact hg _ _ _ _ (hs _ (List.of_mem_zip h1).1) h2
  · cases h; exact hs

theorem goodState_stack {R : Arrays α} {axis : Int} {ss : List (State (PyVal α))} {t : State (PyVal α)} (hs : ∀ t ∈ ss, GoodState t)
    (h : stackStates R axis ss = some t) : GoodState t := by
  unfold stackStates at h
  split at h
  · cases h; exact .empty
  · next s ss =>
    split at h
    · simp only [Option.map_eq_some_iff] at h
      obtain ⟨m, hm, rfl⟩ := h
      intro k v hk
      obtain ⟨kv, hmem, h1⟩ := mem_of_allSome hm hk
      simp only [Option.map_eq_some_iff] at h1
      obtain ⟨z, h1, h3⟩ := h1
      cases h3
      refine ⟨?_, (hs s List.mem_cons_self kv.1 kv.2 hmem).2⟩
      generalize hl : ((s :: ss).filterMap fun t => t.get kv.1) = l at h1
      cases l with
      | nil => cases h1
      | cons x l =>
        refine zipLeaves_wf h1 ?_
        have : x ∈ (s :: ss).filterMap fun t => t.get kv.1 := by rw [hl]; exact List.mem_cons_self
        obtain ⟨t, ht, hx⟩ := List.mem_filterMap.1 this
        exact (hs t ht _ _ (dget_mem hx)).1
    · cases h

end Nnx
