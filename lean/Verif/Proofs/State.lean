import Verif.Spec.Filters
/-
Lemmas about filters and States.
-/
namespace Nnx

variable {α : Type} {V : Type _}

/-! ### filters -/

mutual
theorem toPredicate_spec : ∀ (f : Filter α),
    (f.WellFormed ∧ ∃ p, toPredicate f = .ok p ∧ ∀ k v, p k v = true ↔ f.Matches k v) ∨
    (¬ f.WellFormed ∧ ∃ e, toPredicate f = .error e)
  | .ofType c => by
    left; exact ⟨trivial, _, rfl, fun k v => Iff.rfl⟩
  | .str s => by right; exact ⟨fun h => h, _, rfl⟩
  | .ellipsis => by left; refine ⟨trivial, _, rfl, fun k v => ?_⟩; simp [Everything, Filter.Matches]
  | .none => by left; refine ⟨trivial, _, rfl, fun k v => ?_⟩; simp [Nothing, Filter.Matches]
  | .pred p => by left; exact ⟨trivial, _, rfl, fun k v => Iff.rfl⟩
  | .tup fs => by
    rcases toPredicates_spec fs with ⟨h, ps, e, hp⟩ | ⟨h, e, he⟩
    · left; refine ⟨h, _, by simp [toPredicate, e, Except.map], fun k v => (hp k v).1⟩
    · right; exact ⟨h, e, by simp [toPredicate, he, Except.map]⟩
  | .any fs => by
    rcases toPredicates_spec fs with ⟨h, ps, e, hp⟩ | ⟨h, e, he⟩
    · left; refine ⟨h, _, by simp [toPredicate, e, Except.map], fun k v => (hp k v).1⟩
    · right; exact ⟨h, e, by simp [toPredicate, he, Except.map]⟩
  | .all fs => by
    rcases toPredicates_spec fs with ⟨h, ps, e, hp⟩ | ⟨h, e, he⟩
    · left; refine ⟨h, _, by simp [toPredicate, e, Except.map], fun k v => (hp k v).2.1⟩
    · right; exact ⟨h, e, by simp [toPredicate, he, Except.map]⟩
  | .not f => by
    rcases toPredicate_spec f with ⟨h, p, e, hp⟩ | ⟨h, e, he⟩
    · left
      refine ⟨h, _, by simp [toPredicate, e, Except.map]; rfl, fun k v => ?_⟩
      simp only [NotP, Filter.Matches, ← hp k v]
      cases p k v <;> simp
    · right; exact ⟨h, e, by simp [toPredicate, he, Except.map]⟩
  | .invalid e => by right; exact ⟨fun h => h, _, rfl⟩
theorem toPredicates_spec : ∀ (fs : List (Filter α)),
    (AllWellFormed fs ∧ ∃ ps, toPredicates fs = .ok ps ∧ ∀ k v,
      (AnyP ps k v = true ↔ SomeMatches fs k v) ∧ (AllP ps k v = true ↔ AllMatch fs k v) ∧
      ps.length = fs.length ∧
      ∀ i : Nat, (∃ p : Pred α, ps[i]? = some p ∧ p k v = true) ↔
        ∃ f : Filter α, fs[i]? = some f ∧ f.Matches k v) ∨
    (¬ AllWellFormed fs ∧ ∃ e, toPredicates fs = .error e)
  | [] => by
    left
    refine ⟨trivial, [], rfl, fun k v => ?_⟩
    simp [AnyP, AllP, SomeMatches, AllMatch]
  | f :: fs => by
    rcases toPredicate_spec f with ⟨h, p, e, hp⟩ | ⟨h, e, he⟩
    · rcases toPredicates_spec fs with ⟨h', ps, e', hp'⟩ | ⟨h', e', he'⟩
      · left
        refine ⟨⟨h, h'⟩, p :: ps, by simp [toPredicates, e, e'], fun k v => ⟨?_, ?_, ?_, ?_⟩⟩
        · have := (hp' k v).1
          simp only [AnyP, SomeMatches, List.any_cons, Bool.or_eq_true, hp k v] at this ⊢
          rw [this]
        · have := (hp' k v).2.1
          simp only [AllP, AllMatch, List.all_cons, Bool.and_eq_true, hp k v] at this ⊢
          rw [this]
        · simp [(hp' k v).2.2.1]
        · intro i
          cases i with
          | zero => simp [hp k v]
          | succ i => simpa using (hp' k v).2.2.2 i
      · right
        exact ⟨fun hh => h' hh.2, e', by simp [toPredicates, e, he']⟩
    · right
      exact ⟨fun hh => h hh.1, e, by simp [toPredicates, he]⟩
end

/-! ### splitting -/

/-- The bucket of an entry: the index of the first matching predicate, or `preds.length`. -/
def bucket (preds : List (Pred α)) (k : Str) (v : PyVal α) : Nat := preds.findIdx (fun p => p k v)

theorem splitInsert_length (preds : List (Pred α)) (dicts : List (Dict Str (PyVal α))) (k : Str) (v : PyVal α) :
    (splitInsert preds dicts k v).length = dicts.length := by
  induction preds generalizing dicts with
  | nil => cases dicts <;> simp [splitInsert]
  | cons p ps ih =>
    cases dicts with
    | nil => simp [splitInsert]
    | cons d ds =>
      simp only [splitInsert]
      split <;> simp [ih]

theorem splitInsert_get (preds : List (Pred α)) (dicts : List (Dict Str (PyVal α))) (k : Str) (v : PyVal α)
    (i : Nat) : (splitInsert preds dicts k v)[i]? =
      dicts[i]?.map (fun d => if i = bucket preds k v then dset d k v else d) := by
  induction preds generalizing dicts i with
  | nil =>
    cases dicts with
    | nil => simp [splitInsert]
    | cons d ds =>
      cases i with
      | zero => simp [splitInsert, bucket]
      | succ i =>
        simp only [splitInsert, bucket, List.findIdx_nil, List.getElem?_cons_succ]
        cases ds[i]? <;> simp
  | cons p ps ih =>
    cases dicts with
    | nil => simp [splitInsert]
    | cons d ds =>
      simp only [splitInsert]
      by_cases hp : p k v = true
      · rw [if_pos hp]
        cases i with
        | zero => simp [bucket, List.findIdx_cons, hp]
        | succ i =>
          simp only [bucket, List.findIdx_cons, hp, List.getElem?_cons_succ]
          cases ds[i]? <;> simp
      · rw [if_neg hp]
        have hp' : p k v = false := by simpa using hp
        cases i with
        | zero => simp [bucket, List.findIdx_cons, hp']
        | succ i =>
          simp only [List.getElem?_cons_succ, ih]
          have e : bucket (p :: ps) k v = bucket ps k v + 1 := by simp [bucket, List.findIdx_cons, hp']
          rw [e]
          cases ds[i]? <;> simp

theorem split_fold_get (preds : List (Pred α)) (items : List (Str × PyVal α))
    (dicts : List (Dict Str (PyVal α))) (hn : DNodup items)
    (hdisj : ∀ d ∈ dicts, ∀ kv ∈ items, kv.1 ∉ dkeys d) (i : Nat) :
    (items.foldl (fun ds kv => splitInsert preds ds kv.1 kv.2) dicts)[i]? =
      dicts[i]?.map (fun d => d ++ items.filter (fun kv => bucket preds kv.1 kv.2 == i)) := by
  induction items generalizing dicts with
  | nil => simp
  | cons kv items ih =>
    obtain ⟨k, v⟩ := kv
    simp only [DNodup, dkeys, List.map_cons, List.nodup_cons] at hn
    rw [List.foldl_cons, ih _ hn.2]
    · rw [splitInsert_get]
      cases hd : dicts[i]? with
      | none => simp
      | some d =>
        have hdm : d ∈ dicts := List.mem_of_getElem? hd
        simp only [Option.map_some, Option.some.injEq]
        by_cases hb : i = bucket preds k v
        · rw [if_pos hb, dset_of_not_mem (hdisj d hdm (k, v) (by simp))]
          simp [hb]
        · rw [if_neg hb]
          have : ¬ bucket preds k v = i := fun e => hb e.symm
          simp [this]
    · intro d' hd' kv hkv hm
      obtain ⟨j, hj⟩ := List.getElem?_of_mem hd'
      rw [splitInsert_get] at hj
      cases hdj : dicts[j]? with
      | none => simp [hdj] at hj
      | some d =>
        have hdm : d ∈ dicts := List.mem_of_getElem? hdj
        simp only [hdj, Option.map_some, Option.some.injEq] at hj
        split at hj
        · subst hj
          rw [mem_dkeys_dset] at hm
          rcases hm with hm | hm
          · exact hn.1 (hm ▸ List.mem_map.2 ⟨kv, hkv, rfl⟩)
          · exact hdisj d hdm kv (by simp [hkv]) hm
        · subst hj
          exact hdisj d hdm kv (by simp [hkv]) hm

theorem split_fold_length (preds : List (Pred α)) (items : List (Str × PyVal α))
    (dicts : List (Dict Str (PyVal α))) :
    (items.foldl (fun ds kv => splitInsert preds ds kv.1 kv.2) dicts).length = dicts.length := by
  induction items generalizing dicts with
  | nil => rfl
  | cons kv items ih => rw [List.foldl_cons, ih, splitInsert_length]

/-- The dicts computed by `_split_state`. -/
theorem splitState_ok {items : List (Str × PyVal α)} (hn : DNodup items) {filters : List (Filter α)}
    {preds : List (Pred α)} (he : ellipsisMisplaced filters = false)
    (hp : toPredicates filters = .ok preds) :
    ∃ dicts, splitState items filters = .ok dicts ∧ dicts.length = preds.length + 1 ∧
      ∀ i, i ≤ preds.length →
        dicts[i]? = some (items.filter (fun kv => bucket preds kv.1 kv.2 == i)) := by
  refine ⟨items.foldl (fun ds kv => splitInsert preds ds kv.1 kv.2)
        (List.replicate (preds.length + 1) []), by simp [splitState, he, hp], ?_, ?_⟩
  · rw [split_fold_length]; simp
  · intro i hi
    rw [split_fold_get preds items _ hn]
    · rw [List.getElem?_replicate]
      rw [if_pos (by omega)]
      simp
    · intro d hd kv hkv
      simp at hd
      simp [hd]

theorem bucket_le (preds : List (Pred α)) (k : Str) (v : PyVal α) : bucket preds k v ≤ preds.length :=
  List.findIdx_le_length

theorem bucket_eq_iff {preds : List (Pred α)} {k : Str} {v : PyVal α} {i : Nat} (hi : i < preds.length) :
    bucket preds k v = i ↔ (∃ p : Pred α, preds[i]? = some p ∧ p k v = true) ∧
      ∀ j < i, ∀ p : Pred α, preds[j]? = some p → p k v = false := by
  unfold bucket
  rw [List.findIdx_eq hi]
  constructor
  · rintro ⟨h1, h2⟩
    refine ⟨⟨preds[i], by simp [List.getElem?_eq_getElem hi], h1⟩, ?_⟩
    intro j hj p hp
    have hjl : j < preds.length := by omega
    rw [List.getElem?_eq_getElem hjl] at hp
    simp at hp; subst hp
    exact h2 j hj
  · rintro ⟨⟨p, hp, hpt⟩, h2⟩
    rw [List.getElem?_eq_getElem hi] at hp
    simp at hp; subst hp
    refine ⟨hpt, ?_⟩
    intro j hj
    exact h2 j hj _ (List.getElem?_eq_getElem (by omega))

theorem bucket_eq_length {preds : List (Pred α)} {k : Str} {v : PyVal α} :
    bucket preds k v = preds.length ↔ ∀ (i : Nat) (p : Pred α), preds[i]? = some p → p k v = false := by
  unfold bucket
  rw [List.findIdx_eq_length]
  constructor
  · intro h i p hp
    exact h p (List.mem_of_getElem? hp)
  · intro h p hp
    obtain ⟨i, hi⟩ := List.getElem?_of_mem hp
    exact h i p hi

/-! ### States -/

theorem State.new_of_strict {d : List (Str × V)} (h : StrictSorted d) : State.new d = ⟨d⟩ := by
  simp [State.new, sortItems_of_strict h, dofList_of_nodup h.nodup]

theorem State.new_strict (input : List (Str × V)) : StrictSorted (State.new input).mapping :=
  (sortItems_weakSorted input).dofList_strict

theorem State.new_get (input : List (Str × V)) (k : Str) : (State.new input).get k = lastOf input k := by
  simp only [State.new, State.get, dofList, dget_dupdate, lastOf_sortItems, dget]
  cases lastOf input k <;> rfl

theorem State.new_get_nodup {d : List (Str × V)} (h : DNodup d) (k : Str) : (State.new d).get k = dget d k := by
  rw [State.new_get, lastOf_eq_dget h]

/-- The canonical form of a State. -/
def State.Canonical (s : State V) : Prop := StrictSorted s.mapping

theorem State.Canonical.ext {s t : State V} (hs : s.Canonical) (ht : t.Canonical)
    (h : ∀ k, s.get k = t.get k) : s = t := by
  cases s; cases t
  congr 1
  exact StrictSorted.ext hs ht h

theorem foldl_dupdate_get (ss : List (State V)) (d : Dict Str V) (hn : ∀ t ∈ ss, DNodup t.mapping) (k : Str) :
    dget (ss.foldl (fun d t => dupdate d t.items) d) k =
      ((ss.reverse.findSome? (fun t => t.get k)).orElse fun _ => dget d k) := by
  induction ss generalizing d with
  | nil => simp
  | cons t ss ih =>
    rw [List.foldl_cons, ih _ (fun u hu => hn u (by simp [hu])), dget_dupdate]
    rw [State.items, lastOf_eq_dget (hn t (by simp))]
    simp only [List.reverse_cons, List.findSome?_append, List.findSome?_cons, List.findSome?_nil, State.get]
    cases List.findSome? (fun t => dget t.mapping k) ss.reverse with
    | some w => simp
    | none => cases dget t.mapping k <;> simp

theorem foldl_dupdate_nodup (ss : List (State V)) (d : Dict Str V) (h : DNodup d) :
    DNodup (ss.foldl (fun d t => dupdate d t.items) d) := by
  induction ss generalizing d with
  | nil => exact h
  | cons t ss ih => exact ih _ (dnodup_dupdate h _)

theorem State.merge_canonical {s : State V} {ss : List (State V)} (hs : s.Canonical) :
    (s.merge ss).Canonical := by
  unfold State.merge
  split
  · exact hs
  · exact State.new_strict _

theorem State.merge_get {s : State V} {ss : List (State V)} (hs : s.Canonical)
    (hss : ∀ t ∈ ss, t.Canonical) (k : Str) :
    (s.merge ss).get k = (s :: ss).reverse.findSome? (fun t => t.get k) := by
  unfold State.merge
  split
  · simp
  · rw [State.new_get_nodup (foldl_dupdate_nodup _ _ (by simp [DNodup]))]
    rw [foldl_dupdate_get]
    · simp only [dget]
      cases (List.findSome? (fun t => t.get k) (s :: ss).reverse) <;> rfl
    · intro t ht
      simp at ht
      rcases ht with rfl | ht
      · exact hs.nodup
      · exact (hss t ht).nodup

theorem State.get_of_len_zero {t : State V} (h : t.len = 0) (k : Str) : t.get k = none := by
  have : t.mapping = [] := List.length_eq_zero_iff.1 h
  simp [State.get, this, dget]

theorem State.or_get {s t : State V} (hs : s.Canonical) (ht : t.Canonical) (k : Str) :
    (s.or t).get k = (t.get k).orElse (fun _ => s.get k) := by
  unfold State.or
  split
  · next h => simp [State.get_of_len_zero h]
  · rw [State.merge_get hs (by simpa using ht)]
    simp only [List.reverse_cons, List.reverse_nil, List.nil_append, List.cons_append,
      List.findSome?_cons, List.findSome?_nil]
    cases t.get k with
    | some w => simp
    | none => cases s.get k <;> simp

theorem State.sub_get {s t : State V} (k : Str) :
    (s.sub t).get k = if (t.get k).isSome then none else s.get k := by
  unfold State.sub
  split
  · next h => simp [State.get_of_len_zero h]
  · simp only [State.get, State.items]
    rw [dget_filter_key (fun x => !dhas t.mapping x)]
    simp only [dhas]
    by_cases h : (dget t.mapping k).isSome = true <;> simp [h]

theorem State.or_canonical {s t : State V} (hs : s.Canonical) : (s.or t).Canonical := by
  unfold State.or
  split
  · exact hs
  · exact State.merge_canonical hs

theorem State.sub_canonical {s t : State V} (hs : s.Canonical) : (s.sub t).Canonical := by
  unfold State.sub
  split
  · exact hs
  · exact StrictSorted.filter hs _

theorem dkeys_zip_map {s : Dict Str V} {W : Type _} {leaves : List W} (h : leaves.length = s.length) :
    dkeys ((dkeys s).zip leaves) = dkeys s := by
  simp only [dkeys]
  rw [List.map_fst_zip]
  simp [h]

theorem State.unflatten_canonical {s : State V} {W : Type _} (hs : s.Canonical) {leaves : List W}
    (h : leaves.length = s.flatten.1.length) : (State.unflatten s.flatten.2 leaves).Canonical ∧
      (State.unflatten s.flatten.2 leaves).mapping = s.keys.zip leaves := by
  have hlen : leaves.length = s.mapping.length := by simpa [State.flatten, State.items] using h
  have hk := dkeys_zip_map (s := s.mapping) hlen
  have hsz : StrictSorted (s.keys.zip leaves) := by
    have e1 : (dkeys s.mapping).Pairwise (fun a b => strLe a b = true ∧ a ≠ b) := List.pairwise_map.2 hs
    rw [← hk] at e1
    exact List.pairwise_map.1 e1
  have e : State.unflatten s.flatten.2 leaves = ⟨s.keys.zip leaves⟩ := by
    simp only [State.unflatten, State.flatten]
    rw [dofList_of_nodup hsz.nodup]
  rw [e]
  exact ⟨hsz, rfl⟩

theorem splitState_error {items : List (Str × PyVal α)} {filters : List (Filter α)}
    {dicts} (h : splitState items filters = .ok dicts) :
    ellipsisMisplaced filters = false ∧ ∃ preds, toPredicates filters = .ok preds := by
  unfold splitState at h
  split at h
  · simp at h
  · next he =>
    split at h
    · simp at h
    · next preds hp => exact ⟨by simpa using he, preds, hp⟩

theorem Obtainable.canonical {s : State (PyVal α)} (h : Obtainable s) : s.Canonical := by
  induction h with
  | new input => exact State.new_strict _
  | partition hs hp ht _ =>
    unfold State.partition at hp
    split at hp
    · simp at hp
    · split at hp
      · simp at hp
      · simp only [Except.ok.injEq] at hp
        subst hp
        obtain ⟨d, _, rfl⟩ := List.mem_map.1 ht
        exact State.new_strict _
  | filter hs hp ht _ =>
    unfold State.filter at hp
    split at hp
    · simp at hp
    · simp only [Except.ok.injEq] at hp
      subst hp
      obtain ⟨d, _, rfl⟩ := List.mem_map.1 ht
      exact State.new_strict _
  | merge _ _ ih _ => exact State.merge_canonical ih
  | or _ _ ih _ => exact State.or_canonical ih
  | sub _ _ ih _ => exact State.sub_canonical ih
  | unflatten leaves _ hl ih => exact (State.unflatten_canonical ih hl).1

/-- What `partition`/`filter` return, in terms of buckets. -/
theorem State.split_spec {s : State (PyVal α)} (hs : s.Canonical) {filters : List (Filter α)}
    {preds : List (Pred α)} (he : ellipsisMisplaced filters = false)
    (hp : toPredicates filters = .ok preds) :
    (s.filter filters = .ok ((List.range preds.length).map
      (fun i => ⟨s.items.filter (fun kv => bucket preds kv.1 kv.2 == i)⟩))) ∧
    (s.partition filters = if (s.items.filter (fun kv => bucket preds kv.1 kv.2 == preds.length)).length ≠ 0
      then .error .valueError else s.filter filters) := by
  obtain ⟨dicts, hd, hlen, hget⟩ := splitState_ok hs.nodup he hp
  have hne : dicts ≠ [] := by intro e; simp [e] at hlen
  have hlast : dicts.getLastD [] = s.items.filter (fun kv => bucket preds kv.1 kv.2 == preds.length) := by
    have := hget preds.length (Nat.le_refl _)
    rw [List.getLastD_eq_getLast?, List.getLast?_eq_getElem?]
    rw [hlen]
    simp only [Nat.add_sub_cancel]
    rw [State.items, this]; rfl
  have hdrop : dicts.dropLast.map State.new = (List.range preds.length).map
      (fun i => ⟨s.items.filter (fun kv => bucket preds kv.1 kv.2 == i)⟩) := by
    apply List.ext_getElem?
    intro i
    simp only [List.getElem?_map, List.getElem?_dropLast]
    by_cases hi : i < preds.length
    · rw [if_pos (by omega), hget i (by omega)]
      rw [List.getElem?_range hi]
      simp only [Option.map_some, Option.some.injEq]
      exact State.new_of_strict (StrictSorted.filter hs _)
    · rw [if_neg (by omega)]
      rw [List.getElem?_eq_none (by simp; omega)]
      rfl
  have hfil : s.filter filters = .ok ((List.range preds.length).map
      (fun i => ⟨s.items.filter (fun kv => bucket preds kv.1 kv.2 == i)⟩)) := by
    have hd' : splitState s.items filters = .ok dicts := hd
    unfold State.filter
    rw [hd']
    simp only [hdrop]
  refine ⟨hfil, ?_⟩
  rw [hfil]
  have hd' : splitState s.items filters = .ok dicts := hd
  unfold State.partition
  rw [hd']
  simp only [hlast, hdrop]

end Nnx
