import Verif.Proofs.State
/-
Properties C01 - C09: State and filters.
-/
namespace Nnx

variable {α : Type}

/-! ### A concrete State and filters used to show that hypotheses are satisfiable -/

/-- `Param(n)` -/
def exParam (n : Nat) : PyVal Nat := .cont cParam (.data cArray n) [(py! "sharding", .none)]
/-- `BatchStat(n)` -/
def exStat (n : Nat) : PyVal Nat := .cont cBatchStat (.data cArray n) [(py! "sharding", .none)]

/-- Built in unsorted order, with a repeated path. -/
def exState : State (PyVal Nat) :=
  .new [(py! "b/w", exParam 1), (py! "a", exStat 2), (py! "b/w", exParam 3), (py! "c", exParam 4)]

def exFilters : List (Filter Nat) :=
  [.all [.ofType cParam, .not (.pred (fun k _ => k == py! "c"))], .ofType cBatchStat, .ellipsis]

theorem exState_obtainable : Obtainable exState := .new _

/-! ### C01 -/

/-- **C01.** If `state.partition(f1..fn)` returns, it returns one State per filter, and State `i` holds
exactly the entries of the original whose first matching filter is number `i`, with the same values. -/
theorem C01_partition_first_match {s : State (PyVal α)} (hs : Obtainable s) {filters : List (Filter α)}
    {ss : List (State (PyVal α))} (h : s.partition filters = .ok ss) :
    ss.length = filters.length ∧
    ∀ (i : Nat) (t : State (PyVal α)), ss[i]? = some t →
      ∀ k v, t.get k = some v ↔ s.get k = some v ∧ FirstMatch filters k v i := by
  have hc := hs.canonical
  have hsplit : ∃ dicts, splitState s.items filters = .ok dicts := by
    unfold State.partition at h
    split at h
    · simp at h
    · next d hd => exact ⟨d, hd⟩
  obtain ⟨dicts, hd⟩ := hsplit
  obtain ⟨he, preds, hp⟩ := splitState_error hd
  obtain ⟨hf, hpart⟩ := State.split_spec hc he hp
  rw [hpart] at h
  split at h
  · simp at h
  · rw [hf] at h
    simp only [Except.ok.injEq] at h
    rcases toPredicates_spec filters with ⟨hw, ps, hps, hspec⟩ | ⟨_, e, he'⟩
    swap
    · rw [hp] at he'; simp at he'
    rw [hp] at hps
    simp only [Except.ok.injEq] at hps
    subst hps
    have hlen := (hspec [] .none).2.2.1
    subst h
    refine ⟨by simp [hlen], ?_⟩
    intro i t ht k v
    simp only [List.getElem?_map] at ht
    by_cases hi : i < preds.length
    swap
    · rw [List.getElem?_eq_none (by simp; omega)] at ht; simp at ht
    rw [List.getElem?_range hi] at ht
    simp only [Option.map_some, Option.some.injEq] at ht
    subst ht
    simp only [State.get, State.items]
    rw [dget_filter hc.nodup (fun k v => bucket preds k v == i)]
    have hb := bucket_eq_iff (preds := preds) (k := k) (v := v) hi
    have hfm : bucket preds k v = i ↔ FirstMatch filters k v i := by
      rw [hb, FirstMatch, (hspec k v).2.2.2 i]
      constructor
      · rintro ⟨h1, h2⟩
        refine ⟨h1, fun j hj g hg hgm => ?_⟩
        obtain ⟨p, hp1, hp2⟩ := ((hspec k v).2.2.2 j).2 ⟨g, hg, hgm⟩
        rw [h2 j hj p hp1] at hp2
        simp at hp2
      · rintro ⟨h1, h2⟩
        refine ⟨h1, fun j hj p hp1 => ?_⟩
        cases hpv : p k v with
        | false => rfl
        | true =>
          obtain ⟨g, hg, hgm⟩ := ((hspec k v).2.2.2 j).1 ⟨p, hp1, hpv⟩
          exact absurd hgm (h2 j hj g hg)
    rw [← hfm, Option.filter_eq_some_iff]
    simp

/-- **C01, no loss and no duplication.** Every entry of the State is in exactly one of the pieces. -/
theorem C01_partition_exactly_one {s : State (PyVal α)} (hs : Obtainable s) {filters : List (Filter α)}
    {ss : List (State (PyVal α))} (h : s.partition filters = .ok ss) {k : Str} {v : PyVal α}
    (hk : s.get k = some v) :
    ∃ i : Nat, (∃ t : State (PyVal α), ss[i]? = some t ∧ t.get k = some v) ∧
      ∀ j : Nat, (∃ t : State (PyVal α), ss[j]? = some t ∧ (t.get k).isSome) → j = i := by
  have hc := hs.canonical
  have hC01 := C01_partition_first_match hs h
  have hsplit : ∃ dicts, splitState s.items filters = .ok dicts := by
    unfold State.partition at h
    split at h
    · simp at h
    · next d hd => exact ⟨d, hd⟩
  obtain ⟨dicts, hd⟩ := hsplit
  obtain ⟨he, preds, hp⟩ := splitState_error hd
  obtain ⟨hf, hpart⟩ := State.split_spec hc he hp
  rw [hpart] at h
  split at h
  · simp at h
  · next hrest =>
    rw [hf] at h
    simp only [Except.ok.injEq] at h
    have hlt : bucket preds k v < preds.length := by
      rcases Nat.lt_or_ge (bucket preds k v) preds.length with h1 | h1
      · exact h1
      · exfalso
        apply hrest
        have h2 : bucket preds k v = preds.length := Nat.le_antisymm (bucket_le _ _ _) h1
        have hm : (k, v) ∈ s.items.filter (fun kv => bucket preds kv.1 kv.2 == preds.length) := by
          rw [List.mem_filter]
          exact ⟨dget_mem hk, by simp [h2]⟩
        exact Nat.ne_of_gt (List.length_pos_of_mem hm)
    have hss : ∀ j, j < preds.length →
        ss[j]? = some ⟨s.items.filter (fun kv => bucket preds kv.1 kv.2 == j)⟩ := by
      intro j hj
      rw [← h, List.getElem?_map, List.getElem?_range hj]; rfl
    refine ⟨bucket preds k v, ⟨_, hss _ hlt, ?_⟩, ?_⟩
    · simp only [State.get, State.items]
      rw [dget_filter hc.nodup (fun a b => bucket preds a b == bucket preds k v)]
      have : dget s.mapping k = some v := hk
      rw [this]; simp
    · rintro j ⟨t, ht, hsome⟩
      have hj : j < preds.length := by
        rcases Nat.lt_or_ge j preds.length with h1 | h1
        · exact h1
        · rw [← h] at ht
          rw [List.getElem?_eq_none (by simp; omega)] at ht; simp at ht
      rw [hss j hj] at ht
      simp only [Option.some.injEq] at ht
      subst ht
      simp only [State.get, State.items] at hsome
      rw [dget_filter hc.nodup (fun a b => bucket preds a b == j)] at hsome
      have : dget s.mapping k = some v := hk
      rw [this, Option.filter_some] at hsome
      split at hsome
      · next hh => simpa using (beq_iff_eq.1 hh).symm
      · simp at hsome

/-- Non-vacuity for C01/C03: a concrete successful three-way partition with overlapping filters. -/
example : ∃ ss, exState.partition exFilters = .ok ss ∧ ss =
    [⟨[(py! "b/w", exParam 3)]⟩, ⟨[(py! "a", exStat 2)]⟩, ⟨[(py! "c", exParam 4)]⟩] :=
  ⟨_, by decide, rfl⟩

/-! ### C02 -/

/-- `...` occurs before the last position. -/
def MisplacedEllipsis (filters : List (Filter α)) : Prop :=
  ∃ i, i + 1 < filters.length ∧ filters[i]? = some .ellipsis

theorem ellipsisMisplaced_iff : ∀ (filters : List (Filter α)),
    ellipsisMisplaced filters = true ↔ MisplacedEllipsis filters
  | [] => by simp [ellipsisMisplaced, MisplacedEllipsis]
  | [f] => by simp [ellipsisMisplaced, MisplacedEllipsis]
  | f :: g :: fs => by
    have ih := ellipsisMisplaced_iff (g :: fs)
    simp only [ellipsisMisplaced, Bool.or_eq_true, ih, MisplacedEllipsis]
    constructor
    · rintro (h | ⟨i, h1, h2⟩)
      · refine ⟨0, by simp, ?_⟩
        cases f <;> simp_all [Filter.isEllipsis]
      · exact ⟨i + 1, by simpa using h1, by simpa using h2⟩
    · rintro ⟨i, h1, h2⟩
      cases i with
      | zero => left; simp at h2; subst h2; rfl
      | succ i => right; exact ⟨i, by simpa using h1, by simpa using h2⟩

/-- **C02, part 1.** A misplaced `...` is always a ValueError, for `partition` and `filter`. -/
theorem C02_misplaced_ellipsis (s : State (PyVal α)) {filters : List (Filter α)}
    (h : MisplacedEllipsis filters) :
    s.partition filters = .error .valueError ∧ s.filter filters = .error .valueError := by
  have h' := (ellipsisMisplaced_iff filters).2 h
  simp [State.partition, State.filter, splitState, h']

/-- **C02, part 2.** With well-formed filters and `...` at most last, `partition` raises exactly when some
entry matches no filter, the exception is ValueError, and otherwise it returns `len(filters)` States. -/
theorem C02_partition_fails_iff {s : State (PyVal α)} (hs : Obtainable s) {filters : List (Filter α)}
    (hwf : ∀ f ∈ filters, f.WellFormed) (hell : ¬ MisplacedEllipsis filters) :
    (s.partition filters = .error .valueError ↔
      ∃ k v, s.get k = some v ∧ ∀ f ∈ filters, ¬ f.Matches k v) ∧
    (∀ e, s.partition filters = .error e → e = .valueError) ∧
    (∀ ss, s.partition filters = .ok ss → ss.length = filters.length) := by
  have hc := hs.canonical
  have he : ellipsisMisplaced filters = false := by
    cases h : ellipsisMisplaced filters with
    | false => rfl
    | true => exact absurd ((ellipsisMisplaced_iff filters).1 h) hell
  rcases toPredicates_spec filters with ⟨hw, preds, hp, hspec⟩ | ⟨h, _⟩
  swap
  · exact absurd (AllWellFormed_iff.2 hwf) h
  obtain ⟨hf, hpart⟩ := State.split_spec hc he hp
  have hb : ∀ k v, bucket preds k v = preds.length ↔ ∀ f ∈ filters, ¬ f.Matches k v := by
    intro k v
    rw [bucket_eq_length]
    constructor
    · intro h f hfm hfk
      obtain ⟨i, hi⟩ := List.getElem?_of_mem hfm
      obtain ⟨p, hp1, hp2⟩ := ((hspec k v).2.2.2 i).2 ⟨f, hi, hfk⟩
      rw [h i p hp1] at hp2; simp at hp2
    · intro h i p hpi
      cases hpv : p k v with
      | false => rfl
      | true =>
        obtain ⟨f, hf1, hf2⟩ := ((hspec k v).2.2.2 i).1 ⟨p, hpi, hpv⟩
        exact absurd hf2 (h f (List.mem_of_getElem? hf1))
  refine ⟨?_, ?_, fun ss h => (C01_partition_first_match hs h).1⟩
  · rw [hpart, hf]
    constructor
    · intro h
      split at h
      · next hne =>
        obtain ⟨⟨k, v⟩, hm⟩ := List.exists_mem_of_length_pos (Nat.pos_of_ne_zero hne)
        rw [List.mem_filter] at hm
        exact ⟨k, v, mem_dget hc.nodup hm.1, (hb k v).1 (by simpa using hm.2)⟩
      · simp at h
    · rintro ⟨k, v, hk, hno⟩
      rw [if_pos]
      have hm : (k, v) ∈ s.items.filter (fun kv => bucket preds kv.1 kv.2 == preds.length) := by
        rw [List.mem_filter]
        exact ⟨dget_mem hk, by simp [(hb k v).2 hno]⟩
      exact Nat.ne_of_gt (List.length_pos_of_mem hm)
  · intro e h
    rw [hpart, hf] at h
    split at h
    · simpa using h.symm
    · simp at h

/-- **C02, part 3.** `filter` fails only for a misplaced `...` or a malformed filter, never because an
entry is unmatched; and with a malformed filter both operations fail. -/
theorem C02_filter_total {s : State (PyVal α)} (hs : Obtainable s) (filters : List (Filter α)) :
    ((∃ ss, s.filter filters = .ok ss ∧ ss.length = filters.length) ↔
      ¬ MisplacedEllipsis filters ∧ ∀ f ∈ filters, f.WellFormed) ∧
    (¬ (∀ f ∈ filters, f.WellFormed) → ∃ e, s.partition filters = .error e) := by
  have hc := hs.canonical
  constructor
  · constructor
    · rintro ⟨ss, h, _⟩
      have hsplit : ∃ dicts, splitState s.items filters = .ok dicts := by
        unfold State.filter at h
        split at h
        · simp at h
        · next d hd => exact ⟨d, hd⟩
      obtain ⟨dicts, hd⟩ := hsplit
      obtain ⟨he, preds, hp⟩ := splitState_error hd
      refine ⟨fun hm => ?_, ?_⟩
      · rw [(ellipsisMisplaced_iff filters).2 hm] at he; simp at he
      · rcases toPredicates_spec filters with ⟨hw, _⟩ | ⟨_, e, he'⟩
        · exact AllWellFormed_iff.1 hw
        · rw [hp] at he'; simp at he'
    · rintro ⟨hell, hwf⟩
      have he : ellipsisMisplaced filters = false := by
        cases h : ellipsisMisplaced filters with
        | false => rfl
        | true => exact absurd ((ellipsisMisplaced_iff filters).1 h) hell
      rcases toPredicates_spec filters with ⟨hw, preds, hp, hspec⟩ | ⟨h, _⟩
      · obtain ⟨hf, _⟩ := State.split_spec hc he hp
        exact ⟨_, hf, by simp [(hspec [] .none).2.2.1]⟩
      · exact absurd (AllWellFormed_iff.2 hwf) h
  · intro hn
    rcases toPredicates_spec filters with ⟨hw, _⟩ | ⟨_, e, he'⟩
    · exact absurd (AllWellFormed_iff.1 hw) hn
    · unfold State.partition splitState
      split
      · exact ⟨_, rfl⟩
      · next h =>
        split at h
        · simp at h
        · rw [he'] at h; simp at h

/-- Non-vacuity for C02: a concrete non-exhaustive partition with well-formed filters, and a concrete
misplaced `...`. -/
example : exState.partition [.ofType cParam] = .error .valueError := by decide
example : MisplacedEllipsis ([.ellipsis, .none] : List (Filter Nat)) := ⟨0, by decide, rfl⟩
example : ∀ f ∈ exFilters, f.WellFormed := by
  simp [exFilters, Filter.WellFormed, AllWellFormed]

/-! ### C03 -/

/-- **C03.** Merging the pieces of a successful partition, in any order, gives back the original State
(the same mapping in the same iteration order). -/
theorem C03_merge_partition {s : State (PyVal α)} (hs : Obtainable s) {filters : List (Filter α)}
    {ss : List (State (PyVal α))} (h : s.partition filters = .ok ss)
    {t : State (PyVal α)} {ts : List (State (PyVal α))} (hperm : (t :: ts).Perm ss) :
    t.merge ts = s := by
  have hc := hs.canonical
  have hcan : ∀ u ∈ t :: ts, u.Canonical := fun u hu =>
    (Obtainable.partition hs h (hperm.mem_iff.1 hu)).canonical
  apply State.Canonical.ext (State.merge_canonical (hcan t (by simp))) hc
  intro k
  rw [State.merge_get (hcan t (by simp)) (fun u hu => hcan u (by simp [hu]))]
  have hC01 := (C01_partition_first_match hs h).2
  cases hk : s.get k with
  | none =>
    rw [List.findSome?_eq_none_iff]
    intro u hu
    rw [List.mem_reverse] at hu
    obtain ⟨i, hi⟩ := List.getElem?_of_mem (hperm.mem_iff.1 hu)
    cases hu' : u.get k with
    | none => rfl
    | some w =>
      have := ((hC01 i u hi k w).1 hu').1
      rw [hk] at this; simp at this
  | some v =>
    obtain ⟨i, ⟨u, hu1, hu2⟩, _⟩ := C01_partition_exactly_one hs h hk
    have hum : u ∈ (t :: ts).reverse := by
      rw [List.mem_reverse]; exact hperm.mem_iff.2 (List.mem_of_getElem? hu1)
    cases hfs : List.findSome? (fun t => t.get k) (t :: ts).reverse with
    | none =>
      rw [List.findSome?_eq_none_iff] at hfs
      rw [hfs u hum] at hu2; simp at hu2
    | some w =>
      obtain ⟨u', hu'1, hu'2⟩ := List.exists_of_findSome?_eq_some hfs
      rw [List.mem_reverse] at hu'1
      obtain ⟨j, hj⟩ := List.getElem?_of_mem (hperm.mem_iff.1 hu'1)
      have := ((hC01 j u' hj k w).1 hu'2).1
      rw [hk] at this
      exact this.symm

/-- Non-vacuity for C03: the pieces of the concrete partition, in another order. -/
example : State.merge ⟨[(py! "c", exParam 4)]⟩ [⟨[(py! "b/w", exParam 3)]⟩, ⟨[(py! "a", exStat 2)]⟩] = exState := by
  decide

/-! ### C04 -/

/-- **C04.** `state.filter(f1..fn)` returns, for each `i`, exactly the entries of `state` whose first
matching filter is number `i`, with the same values. -/
theorem C04_filter_restricts {s : State (PyVal α)} (hs : Obtainable s) {filters : List (Filter α)}
    {ss : List (State (PyVal α))} (h : s.filter filters = .ok ss) :
    ss.length = filters.length ∧
    ∀ (i : Nat) (t : State (PyVal α)), ss[i]? = some t →
      ∀ k v, t.get k = some v ↔ s.get k = some v ∧ FirstMatch filters k v i := by
  -- restrict to the matched entries, where `partition` agrees with `filter`
  have hc := hs.canonical
  have hsplit : ∃ dicts, splitState s.items filters = .ok dicts := by
    unfold State.filter at h
    split at h
    · simp at h
    · next d hd => exact ⟨d, hd⟩
  obtain ⟨dicts, hd⟩ := hsplit
  obtain ⟨he, preds, hp⟩ := splitState_error hd
  obtain ⟨hf, _⟩ := State.split_spec hc he hp
  rw [hf] at h
  simp only [Except.ok.injEq] at h
  rcases toPredicates_spec filters with ⟨hw, ps, hps, hspec⟩ | ⟨_, e, he'⟩
  swap
  · rw [hp] at he'; simp at he'
  rw [hp] at hps
  simp only [Except.ok.injEq] at hps
  subst hps
  have hlen := (hspec [] .none).2.2.1
  subst h
  refine ⟨by simp [hlen], ?_⟩
  intro i t ht k v
  simp only [List.getElem?_map] at ht
  by_cases hi : i < preds.length
  swap
  · rw [List.getElem?_eq_none (by simp; omega)] at ht; simp at ht
  rw [List.getElem?_range hi] at ht
  simp only [Option.map_some, Option.some.injEq] at ht
  subst ht
  simp only [State.get, State.items]
  rw [dget_filter hc.nodup (fun k v => bucket preds k v == i)]
  have hb := bucket_eq_iff (preds := preds) (k := k) (v := v) hi
  have hfm : bucket preds k v = i ↔ FirstMatch filters k v i := by
    rw [hb, FirstMatch, (hspec k v).2.2.2 i]
    constructor
    · rintro ⟨h1, h2⟩
      refine ⟨h1, fun j hj g hg hgm => ?_⟩
      obtain ⟨p, hp1, hp2⟩ := ((hspec k v).2.2.2 j).2 ⟨g, hg, hgm⟩
      rw [h2 j hj p hp1] at hp2
      simp at hp2
    · rintro ⟨h1, h2⟩
      refine ⟨h1, fun j hj p hp1 => ?_⟩
      cases hpv : p k v with
      | false => rfl
      | true =>
        obtain ⟨g, hg, hgm⟩ := ((hspec k v).2.2.2 j).1 ⟨p, hp1, hpv⟩
        exact absurd hgm (h2 j hj g hg)
  rw [← hfm, Option.filter_eq_some_iff]
  simp

/-- **C04, one filter.** `state.filter(f)` contains precisely the entries matching `f`. -/
theorem C04_filter_single {s : State (PyVal α)} (hs : Obtainable s) {f : Filter α} {t : State (PyVal α)}
    (h : s.filter [f] = .ok [t]) (k : Str) (v : PyVal α) :
    t.get k = some v ↔ s.get k = some v ∧ f.Matches k v := by
  rw [(C04_filter_restricts hs h).2 0 t rfl k v]
  simp [FirstMatch]

example : exState.filter [.ofType cParam] = .ok [⟨[(py! "b/w", exParam 3), (py! "c", exParam 4)]⟩] := by decide

/-! ### C05 -/

/-- **C05, order.** Every State a program can obtain iterates over strictly increasing paths. -/
theorem C05_strictly_sorted {s : State (PyVal α)} (hs : Obtainable s) :
    s.keys.Pairwise (fun a b => strLe a b = true ∧ a ≠ b) :=
  List.pairwise_map.2 hs.canonical

/-- **C05, canonicity.** Two obtainable States that hold the same mapping are identical: same iteration
order, same pytree structure, same leaf order, however they were built. -/
theorem C05_canonical {s t : State (PyVal α)} (hs : Obtainable s) (ht : Obtainable t)
    (h : ∀ k, s.get k = t.get k) : s = t ∧ s.flatten = t.flatten := by
  have e := State.Canonical.ext hs.canonical ht.canonical h
  exact ⟨e, by rw [e]⟩

/-- **C05, construction.** The value at a path is the last one supplied for it, and permuting the input of
a State built from a mapping changes nothing. -/
theorem C05_last_wins (input : List (Str × PyVal α)) (k : Str) :
    (State.new input).get k = (input.reverse.find? (fun kv => kv.1 == k)).map (·.2) := by
  rw [State.new_get]
  induction input with
  | nil => rfl
  | cons kv input ih =>
    obtain ⟨a, b⟩ := kv
    simp only [lastOf, ih, List.reverse_cons, List.find?_append]
    cases h : List.find? (fun kv => kv.1 == k) input.reverse with
    | some w => simp
    | none =>
      simp only [Option.map_none, Option.none_or, List.find?_cons, List.find?_nil]
      by_cases hk : a = k
      · simp [hk]
      · have : (a == k) = false := by simpa using hk
        simp [hk, this]

theorem C05_insertion_order_irrelevant {i j : List (Str × PyVal α)} (hn : (i.map (·.1)).Nodup)
    (h : i.Perm j) : State.new i = State.new j := by
  apply State.Canonical.ext (State.new_strict _) (State.new_strict _)
  intro k
  rw [State.new_get_nodup (d := i) hn, State.new_get_nodup (d := j) (dnodup_perm h hn), dget_perm h hn]

example : exState.keys = [py! "a", py! "b/w", py! "c"] ∧ exState.get (py! "b/w") = some (exParam 3) := by decide

/-! ### C06 -/

/-- **C06, last writer wins.** -/
theorem C06_merge_last_wins {s : State (PyVal α)} {ss : List (State (PyVal α))} (hs : Obtainable s)
    (hss : ∀ t ∈ ss, Obtainable t) (k : Str) :
    (s.merge ss).get k = (s :: ss).reverse.findSome? (fun t => t.get k) :=
  State.merge_get hs.canonical (fun t ht => (hss t ht).canonical) k

/-- **C06, associativity and n-ary merge.** -/
theorem C06_merge_assoc {a b c : State (PyVal α)} (ha : Obtainable a) (hb : Obtainable b) (hc : Obtainable c) :
    (a.merge [b]).merge [c] = a.merge [b.merge [c]] ∧ (a.merge [b]).merge [c] = a.merge [b, c] := by
  have hab : Obtainable (a.merge [b]) := .merge ha (by simpa using hb)
  have hbc : Obtainable (b.merge [c]) := .merge hb (by simpa using hc)
  have h1 : Obtainable ((a.merge [b]).merge [c]) := .merge hab (by simpa using hc)
  have h2 : Obtainable (a.merge [b.merge [c]]) := .merge ha (by simpa using hbc)
  have h3 : Obtainable (a.merge [b, c]) := .merge ha (by simp [hb, hc])
  constructor
  · apply State.Canonical.ext h1.canonical h2.canonical
    intro k
    rw [C06_merge_last_wins hab (by simpa using hc), C06_merge_last_wins ha (by simpa using hbc)]
    simp only [List.reverse_cons, List.reverse_nil, List.nil_append, List.cons_append,
      List.findSome?_cons, List.findSome?_nil]
    rw [C06_merge_last_wins ha (by simpa using hb), C06_merge_last_wins hb (by simpa using hc)]
    simp only [List.reverse_cons, List.reverse_nil, List.nil_append, List.cons_append,
      List.findSome?_cons, List.findSome?_nil]
    cases c.get k <;> cases b.get k <;> cases a.get k <;> rfl
  · apply State.Canonical.ext h1.canonical h3.canonical
    intro k
    rw [C06_merge_last_wins hab (by simpa using hc), C06_merge_last_wins ha (by simp [hb, hc])]
    simp only [List.reverse_cons, List.reverse_nil, List.nil_append, List.cons_append,
      List.findSome?_cons, List.findSome?_nil]
    rw [C06_merge_last_wins ha (by simpa using hb)]
    simp only [List.reverse_cons, List.reverse_nil, List.nil_append, List.cons_append,
      List.findSome?_cons, List.findSome?_nil]
    cases c.get k <;> cases b.get k <;> cases a.get k <;> rfl

/-- **C06, identity, idempotence, commutativity of disjoint States.** -/
theorem C06_merge_laws {a b : State (PyVal α)} (ha : Obtainable a) (hb : Obtainable b) :
    a.merge [State.new []] = a ∧ (State.new []).merge [a] = a ∧ a.merge [a] = a ∧ a.merge [] = a ∧
    ((∀ k, a.get k = none ∨ b.get k = none) → a.merge [b] = b.merge [a]) := by
  have he : Obtainable (State.new [] : State (PyVal α)) := .new []
  have h1 : Obtainable (a.merge [State.new []]) := .merge ha (by simpa using he)
  have h2 : Obtainable ((State.new []).merge [a]) := .merge he (by simpa using ha)
  have h3 : Obtainable (a.merge [a]) := .merge ha (by simpa using ha)
  have h4 : Obtainable (a.merge [b]) := .merge ha (by simpa using hb)
  have h5 : Obtainable (b.merge [a]) := .merge hb (by simpa using ha)
  refine ⟨?_, ?_, ?_, rfl, fun hd => ?_⟩
  · apply State.Canonical.ext h1.canonical ha.canonical
    intro k
    rw [C06_merge_last_wins ha (by simpa using he)]
    simp [List.findSome?_cons, State.new_get, lastOf]
    cases a.get k <;> rfl
  · apply State.Canonical.ext h2.canonical ha.canonical
    intro k
    rw [C06_merge_last_wins he (by simpa using ha)]
    simp [List.findSome?_cons, State.new_get, lastOf]
    cases a.get k <;> rfl
  · apply State.Canonical.ext h3.canonical ha.canonical
    intro k
    rw [C06_merge_last_wins ha (by simpa using ha)]
    simp only [List.reverse_cons, List.reverse_nil, List.nil_append, List.cons_append,
      List.findSome?_cons, List.findSome?_nil]
    cases a.get k <;> rfl
  · apply State.Canonical.ext h4.canonical h5.canonical
    intro k
    rw [C06_merge_last_wins ha (by simpa using hb), C06_merge_last_wins hb (by simpa using ha)]
    simp only [List.reverse_cons, List.reverse_nil, List.nil_append, List.cons_append,
      List.findSome?_cons, List.findSome?_nil]
    rcases hd k with h | h <;> rw [h]

example : exState.merge [.new [(py! "a", exParam 9)]] =
    ⟨[(py! "a", exParam 9), (py! "b/w", exParam 3), (py! "c", exParam 4)]⟩ := by decide

/-! ### C07 -/

/-- **C07, meaning of `-` and `|`.** -/
theorem C07_lookup {a b : State (PyVal α)} (ha : Obtainable a) (hb : Obtainable b) (k : Str) :
    ((a.sub b).get k = if (b.get k).isSome then none else a.get k) ∧
    ((a.or b).get k = if (b.get k).isSome then b.get k else a.get k) := by
  refine ⟨State.sub_get k, ?_⟩
  rw [State.or_get ha.canonical hb.canonical]
  cases b.get k <;> simp

/-- **C07, algebra.** -/
theorem C07_algebra {a b c : State (PyVal α)} (ha : Obtainable a) (hb : Obtainable b) (hc : Obtainable c) :
    (a.sub b).or b = a.or b ∧ (a.or (b.sub a)) = b.or a ∧ (a.sub b).sub c = a.sub (b.or c) ∧
    a.sub a = State.new [] ∧ a.sub (State.new []) = a ∧ (State.new []).sub a = State.new [] := by
  have he : Obtainable (State.new [] : State (PyVal α)) := .new []
  have hget : ∀ k, (State.new [] : State (PyVal α)).get k = none := by
    intro k; rw [State.new_get]; rfl
  refine ⟨?_, ?_, ?_, ?_, ?_, ?_⟩
  · apply State.Canonical.ext (Obtainable.or (.sub ha hb) hb).canonical (Obtainable.or ha hb).canonical
    intro k
    rw [(C07_lookup (.sub ha hb) hb k).2, (C07_lookup ha hb k).2, (C07_lookup ha hb k).1]
    cases b.get k <;> simp
  · apply State.Canonical.ext (Obtainable.or ha (.sub hb ha)).canonical (Obtainable.or hb ha).canonical
    intro k
    rw [(C07_lookup ha (.sub hb ha) k).2, (C07_lookup hb ha k).2, (C07_lookup hb ha k).1]
    cases a.get k <;> cases b.get k <;> simp
  · apply State.Canonical.ext (Obtainable.sub (.sub ha hb) hc).canonical (Obtainable.sub ha (.or hb hc)).canonical
    intro k
    rw [(C07_lookup (.sub ha hb) hc k).1, (C07_lookup ha (.or hb hc) k).1, (C07_lookup ha hb k).1,
      (C07_lookup hb hc k).2]
    cases c.get k <;> cases b.get k <;> simp
  · apply State.Canonical.ext (Obtainable.sub ha ha).canonical he.canonical
    intro k
    rw [(C07_lookup ha ha k).1, hget]
    cases a.get k <;> simp
  · apply State.Canonical.ext (Obtainable.sub ha he).canonical ha.canonical
    intro k
    rw [(C07_lookup ha he k).1, hget]
    simp
  · apply State.Canonical.ext (Obtainable.sub he ha).canonical he.canonical
    intro k
    rw [(C07_lookup he ha k).1, hget]
    simp

example : exState.sub (.new [(py! "a", exParam 9)]) = ⟨[(py! "b/w", exParam 3), (py! "c", exParam 4)]⟩ := by decide

/-! ### C08 -/

/-- **C08, round trip.** -/
theorem C08_unflatten_flatten {s : State (PyVal α)} (hs : Obtainable s) :
    State.unflatten s.flatten.2 s.flatten.1 = s := by
  obtain ⟨_, h⟩ := State.unflatten_canonical hs.canonical (leaves := s.flatten.1) rfl
  cases hu : State.unflatten s.flatten.2 s.flatten.1 with
  | mk m =>
    rw [hu] at h
    simp only [] at h
    cases s with
    | mk d =>
      congr 1
      simp only [h, State.keys, State.flatten, State.items]
      have : ∀ d : List (Str × PyVal α), (d.map Prod.fst).zip (d.map Prod.snd) = d := by
        intro d
        induction d with
        | nil => rfl
        | cons x xs ih => simp [ih]
      exact this d

/-- **C08, tree_map.** Mapping over the leaves changes every value and keeps every path. -/
theorem C08_treeMap {s : State (PyVal α)} (hs : Obtainable s) (f : PyVal α → PyVal α) (k : Str) :
    (s.treeMap f).get k = (s.get k).map f ∧ (s.treeMap f).keys = s.keys := by
  obtain ⟨_, h⟩ := State.unflatten_canonical hs.canonical (leaves := s.flatten.1.map f) (by simp)
  have e : (s.treeMap f).mapping = s.mapping.map (fun kv => (kv.1, f kv.2)) := by
    rw [State.treeMap, h]
    simp only [State.keys, State.flatten, State.items]
    generalize s.mapping = d
    induction d with
    | nil => rfl
    | cons x xs ih => simpa using ih
  constructor
  · rw [State.get, e]
    exact dget_map_val (fun _ v => f v) s.mapping k
  · rw [State.keys, e]
    simp [State.keys]

/-- **C08, treedef.** The auxiliary data of two obtainable States are equal iff the States have the same
paths; and rebuilding with leaves gives the leaves back. -/
theorem C08_treedef {s t : State (PyVal α)} (hs : Obtainable s) (ht : Obtainable t) :
    (s.flatten.2 = t.flatten.2 ↔ ∀ k, (s.get k).isSome = (t.get k).isSome) ∧
    (∀ leaves : List (PyVal α), leaves.length = s.flatten.1.length →
      (State.unflatten s.flatten.2 leaves).flatten = (leaves, s.flatten.2)) := by
  constructor
  · constructor
    · intro h k
      have e1 : (s.get k).isSome = true ↔ k ∈ s.flatten.2 := dget_isSome
      have e2 : (t.get k).isSome = true ↔ k ∈ t.flatten.2 := dget_isSome
      rw [Bool.eq_iff_iff, e1, e2, h]
    · intro h
      -- compare the states with all values erased
      have key : ∀ (d e : List (Str × PyVal α)), StrictSorted d → StrictSorted e →
          (∀ k, (dget d k).isSome = (dget e k).isSome) → dkeys d = dkeys e := by
        intro d e hd he hk
        have hd' : StrictSorted (d.map (fun kv => (kv.1, ()))) := List.pairwise_map.2 hd
        have he' : StrictSorted (e.map (fun kv => (kv.1, ()))) := List.pairwise_map.2 he
        have : d.map (fun kv => (kv.1, ())) = e.map (fun kv => (kv.1, ())) := by
          apply hd'.ext he'
          intro k
          rw [dget_map_val (fun _ _ => ()), dget_map_val (fun _ _ => ())]
          have := hk k
          cases h1 : dget d k <;> cases h2 : dget e k <;> simp_all
        have := congrArg (List.map Prod.fst) this
        rw [List.map_map, List.map_map] at this
        exact this
      exact key s.mapping t.mapping hs.canonical ht.canonical h
  · intro leaves hl
    obtain ⟨_, h⟩ := State.unflatten_canonical hs.canonical hl
    have hlen : leaves.length = s.mapping.length := by simpa [State.flatten, State.items] using hl
    rw [State.flatten, State.items, State.keys, h]
    simp only [State.flatten, State.keys, dkeys]
    rw [List.map_snd_zip (by simp [hlen]), List.map_fst_zip (by simp [hlen])]

example : (exState.treeMap (fun _ => exParam 0)).get (py! "a") = some (exParam 0) := by decide

/-! ### C09 -/

/-- **C09.** Converting a filter fails iff a string or another non-filter occurs in it; otherwise the
predicate obtained is the documented meaning of the filter. -/
theorem C09_filter_meaning (f : Filter α) :
    ((∃ p, toPredicate f = .ok p) ↔ f.WellFormed) ∧
    (∀ p, toPredicate f = .ok p → ∀ k v, p k v = true ↔ f.Matches k v) := by
  rcases toPredicate_spec f with ⟨h, p, e, hp⟩ | ⟨h, e, he⟩
  · refine ⟨⟨fun _ => h, fun _ => ⟨p, e⟩⟩, ?_⟩
    intro p' hp' k v
    rw [e] at hp'
    simp only [Except.ok.injEq] at hp'
    subst hp'
    exact hp k v
  · refine ⟨⟨?_, fun hh => absurd hh h⟩, ?_⟩
    · rintro ⟨p, hp⟩; rw [he] at hp; simp at hp
    · intro p hp; rw [he] at hp; simp at hp

/-- **C09, arrays.** `nnx.buffers` matches the JAX arrays and the NumPy arrays. -/
theorem C09_buffers (k : Str) (v : PyVal α) :
    (buffers : Filter α).WellFormed ∧ ((buffers : Filter α).Matches k v ↔ v.isInstance cArray = true ∨ v.isInstance cNdarray = true) := by
  simp [buffers, Filter.WellFormed, AllWellFormed, Filter.Matches, SomeMatches]

/-- **C09, classes.** A class matches a Variable by the class of the Variable, not by what it holds, and any other value by its own
class: the class itself and its subclasses match. -/
theorem C09_class_filter (c d : Cls) (k : Str) (v : PyVal α) (md fields : List (Str × PyVal α)) (a : α) :
    ((Filter.ofType d).test k (.cont c v md) = some true ↔ d.name = c.name ∨ d.name ∈ c.ancestors) ∧
    ((Filter.ofType d).test k (.data c a) = some true ↔ d.name = c.name ∨ d.name ∈ c.ancestors) ∧
    ((Filter.ofType d).test k (.tree c fields) = some true ↔ d.name = c.name ∨ d.name ∈ c.ancestors) ∧
    ((Filter.ofType d).test k (.none : PyVal α) = some true ↔ d.name = py! "NoneType") := by
  refine ⟨?_, ?_, ?_, ?_⟩ <;>
    simp only [Filter.test, toPredicate, OfType, PyVal.isInstance, PyVal.cls, Cls.isSub, cNoneType, Option.some.injEq,
      Bool.or_eq_true]
  · exact or_congr decide_eq_true_iff decide_eq_true_iff
  · exact or_congr decide_eq_true_iff decide_eq_true_iff
  · exact or_congr decide_eq_true_iff decide_eq_true_iff
  · exact (or_congr decide_eq_true_iff decide_eq_true_iff).trans (by simp)

/-- **C09, boolean algebra.** De Morgan, double negation, units, commutativity, tuples as unions,
for the truth values the code computes (including agreement on which sides raise). -/
theorem C09_boolean_algebra (f g : Filter α) (fs : List (Filter α)) (k : Str) (v : PyVal α) :
    (Filter.not (.not f)).test k v = f.test k v ∧
    (Filter.not (.any [f, g])).test k v = (Filter.all [.not f, .not g]).test k v ∧
    (Filter.not (.all [f, g])).test k v = (Filter.any [.not f, .not g]).test k v ∧
    (Filter.any [f, g]).test k v = (Filter.any [g, f]).test k v ∧
    (Filter.all [f, g]).test k v = (Filter.all [g, f]).test k v ∧
    (Filter.tup fs).test k v = (Filter.any fs).test k v ∧
    (Filter.any [f, .none]).test k v = f.test k v ∧
    (Filter.all [f, .ellipsis]).test k v = f.test k v ∧
    (f.WellFormed → (Filter.all [f, .not f]).test k v = some false ∧
      (Filter.any [f, .not f]).test k v = some true) := by
  classical
  have h : ∀ f : Filter α, f.test k v =
      if f.WellFormed then some (decide (f.Matches k v)) else none := by
    intro f
    unfold Filter.test
    rcases toPredicate_spec f with ⟨h, p, e, hp⟩ | ⟨h, e, he⟩
    · rw [e, if_pos h]
      show some (p k v) = some (decide (f.Matches k v))
      rw [Option.some.injEq, Bool.eq_iff_iff, hp k v, decide_eq_true_eq]
    · rw [he, if_neg h]
  by_cases hf : f.WellFormed <;> by_cases hg : g.WellFormed <;>
  by_cases mf : f.Matches k v <;> by_cases mg : g.Matches k v <;>
  simp [h, Filter.WellFormed, AllWellFormed, Filter.Matches, SomeMatches, AllMatch, hf, hg, mf, mg] <;> rfl

example : (Filter.tup [.ofType cParam, .not (.str (py! "x"))] : Filter Nat).WellFormed → False := by
  simp [Filter.WellFormed, AllWellFormed]

end Nnx
