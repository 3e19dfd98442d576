import Verif.Proofs.Evolve
/-
Slicing and stacking States, and the collections of nnx.scan.
-/
namespace Nnx
variable {α : Type}

/-! ### Values -/

theorem mapLeaves_like {g : α → Option α} {x y : PyVal α} (h : x.mapLeaves g = some y) :
    (∀ c, y.isInstance c = x.isInstance c) ∧ (x.Plain → y.Plain) ∧ SameKind x y := by
  cases x with
  | none => simp only [PyVal.mapLeaves, Option.some.injEq] at h; subst h; exact ⟨fun _ => rfl, id, .refl _⟩
  | data c a =>
    simp only [PyVal.mapLeaves, Option.map_eq_some_iff] at h
    obtain ⟨b, _, rfl⟩ := h
    exact ⟨fun _ => rfl, id, nofun, nofun⟩
  | tup xs =>
    simp only [PyVal.mapLeaves, Option.map_eq_some_iff] at h
    obtain ⟨b, _, rfl⟩ := h
    exact ⟨fun _ => rfl, id, nofun, nofun⟩
  | dict xs =>
    simp only [PyVal.mapLeaves, Option.map_eq_some_iff] at h
    obtain ⟨b, _, rfl⟩ := h
    exact ⟨fun _ => rfl, id, nofun, nofun⟩
  | cont c v m =>
    simp only [PyVal.mapLeaves, Option.map_eq_some_iff] at h
    obtain ⟨b, _, rfl⟩ := h
    refine ⟨fun _ => rfl, id, ?_, ?_⟩
    · rintro c' x' m' e; cases e; exact ⟨b, rfl⟩
    · rintro c' x' m' e; cases e; exact ⟨v, rfl⟩
  | str _ => cases h
  | cmeta _ _ => cases h
  | tree _ _ => cases h

theorem mapLeaves_wf {g : α → Option α} {x y : PyVal α} (h : x.mapLeaves g = some y) (hx : WFVal x) : WFVal y := by
  rcases hx with hp | hc
  · exact .inl ((mapLeaves_like h).2.1 hp)
  · cases hc with
    | mk hp h1 h2 h3 h4 =>
      simp only [PyVal.mapLeaves, Option.map_eq_some_iff] at h
      obtain ⟨b, hb, rfl⟩ := h
      exact .inr (.mk ((mapLeaves_like hb).2.1 hp) h1 h2 h3 h4)

theorem mapLeaves_node {g : α → Option α} {x y : PyVal α} (h : x.mapLeaves g = some y) : y.isNode = x.isNode := by
  simp only [PyVal.isNode, (mapLeaves_like h).1]

theorem mapLeaves_likeVal {g : α → Option α} {x y : PyVal α} (h : x.mapLeaves g = some y) (hx : WFVal x) (hn : x.isNode = true) :
    LikeVal x y :=
  ⟨mapLeaves_wf h hx, by rw [mapLeaves_node h, hn], (mapLeaves_like h).2.2.1⟩

variable [DecidableEq α]

theorem zipLeaves_like {g : List α → Option α} {x y : PyVal α} {us : List (PyVal α)} (h : x.zipLeaves g us = some y) :
    (∀ c, y.isInstance c = x.isInstance c) ∧ (x.Plain → y.Plain) ∧ SameKind x y := by
  cases x with
  | none =>
    simp only [PyVal.zipLeaves, Option.map_eq_some_iff] at h
    obtain ⟨_, _, rfl⟩ := h; exact ⟨fun _ => rfl, id, .refl _⟩
  | data c a =>
    simp only [PyVal.zipLeaves] at h
    split at h
    · cases h
    · simp only [Option.map_eq_some_iff] at h
      obtain ⟨b, _, rfl⟩ := h
      exact ⟨fun _ => rfl, id, nofun, nofun⟩
  | tup xs =>
    simp only [PyVal.zipLeaves] at h
    split at h
    · cases h
    · simp only [Option.map_eq_some_iff] at h
      obtain ⟨b, _, rfl⟩ := h
      exact ⟨fun _ => rfl, id, nofun, nofun⟩
  | dict xs =>
    simp only [PyVal.zipLeaves] at h
    split at h
    · cases h
    · simp only [Option.map_eq_some_iff] at h
      obtain ⟨b, _, rfl⟩ := h
      exact ⟨fun _ => rfl, id, nofun, nofun⟩
  | cont c v m =>
    simp only [PyVal.zipLeaves] at h
    split at h
    · cases h
    · simp only [Option.map_eq_some_iff] at h
      obtain ⟨b, _, rfl⟩ := h
      refine ⟨fun _ => rfl, id, ?_, ?_⟩
      · rintro c' x' m' e; cases e; exact ⟨b, rfl⟩
      · rintro c' x' m' e; cases e; exact ⟨v, rfl⟩
  | str _ => cases h
  | cmeta _ _ => cases h
  | tree _ _ => cases h

theorem zipLeaves_wf {g : List α → Option α} {x y : PyVal α} {us : List (PyVal α)} (h : x.zipLeaves g us = some y) (hx : WFVal x) :
    WFVal y := by
  rcases hx with hp | hc
  · exact .inl ((zipLeaves_like h).2.1 hp)
  · cases hc with
    | mk hp h1 h2 h3 h4 =>
      simp only [PyVal.zipLeaves] at h
      split at h
      · cases h
      · simp only [Option.map_eq_some_iff] at h
        obtain ⟨b, hb, rfl⟩ := h
        exact .inr (.mk ((zipLeaves_like hb).2.1 hp) h1 h2 h3 h4)

theorem stackVals_like {R : Arrays α} {a : Int} {x y : PyVal α} {us : List (PyVal α)} (h : stackVals R a (x :: us) = some y)
    (hx : WFVal x) (hn : x.isNode = true) : WFVal y ∧ y.isNode = true ∧ SameKind x y := by
  obtain ⟨h1, _, h3⟩ := zipLeaves_like h
  refine ⟨zipLeaves_wf h hx, ?_, h3⟩
  rw [← hn]; simp only [PyVal.isNode, h1]

/-! ### Lists -/

omit [DecidableEq α] in
theorem allSome_map_spec {X Y : Type} (f : X → Option Y) : ∀ (xs : List X) {ys : List Y}, allSome (xs.map f) = some ys →
    ys.length = xs.length ∧ ∀ (i : Nat) x, xs[i]? = some x → ∃ y, f x = some y ∧ ys[i]? = some y := by
  intro xs
  induction xs with
  | nil => intro ys h; cases h; exact ⟨rfl, fun i x hx => by simp at hx⟩
  | cons x xs ih =>
    intro ys h
    simp only [List.map_cons] at h
    cases hf : f x with
    | none => rw [hf] at h; cases h
    | some y =>
      rw [hf] at h
      simp only [allSome, Option.map_eq_some_iff] at h
      obtain ⟨zs, hz, rfl⟩ := h
      obtain ⟨h1, h2⟩ := ih hz
      refine ⟨by simp [h1], ?_⟩
      intro i x' hx'
      cases i with
      | zero => simp only [List.getElem?_cons_zero, Option.some.injEq] at hx'; subst hx'; exact ⟨y, hf, rfl⟩
      | succ i => simp only [List.getElem?_cons_succ] at hx' ⊢; exact h2 i x' hx'

omit [DecidableEq α] in
theorem allSome_exists {X Y : Type} (f : X → Option Y) : ∀ (xs : List X), (∀ x ∈ xs, (f x).isSome) → ∃ ys, allSome (xs.map f) = some ys := by
  intro xs
  induction xs with
  | nil => intro _; exact ⟨[], rfl⟩
  | cons x xs ih =>
    intro h
    obtain ⟨ys, hy⟩ := ih fun x hx => h x (List.mem_cons_of_mem _ hx)
    obtain ⟨y, hf⟩ := Option.isSome_iff_exists.1 (h x List.mem_cons_self)
    exact ⟨y :: ys, by simp only [List.map_cons, hf, allSome, hy, Option.map_some]⟩

omit [DecidableEq α] in
/-- The dict with the same keys and other values. -/
theorem allSome_dict {V W : Type} (g : Str × V → Option W) : ∀ (d : List (Str × V)) {e : List (Str × W)},
    allSome (d.map fun kv => (g kv).map fun v => (kv.1, v)) = some e →
    dkeys e = dkeys d ∧ ∀ k, DNodup d → dget e k = (dget d k).bind fun v => g (k, v) := by
  intro d
  induction d with
  | nil => intro e h; cases h; exact ⟨rfl, fun _ _ => rfl⟩
  | cons x d ih =>
    intro e h
    obtain ⟨n, v⟩ := x
    simp only [List.map_cons] at h
    cases hg : g (n, v) with
    | none => rw [hg] at h; cases h
    | some y =>
      rw [hg] at h
      simp only [Option.map_some, allSome, Option.map_eq_some_iff] at h
      obtain ⟨e', he, rfl⟩ := h
      obtain ⟨h1, h2⟩ := ih he
      refine ⟨by simp only [dkeys, List.map_cons] at h1 ⊢; rw [h1], ?_⟩
      intro k hn
      simp only [dget]
      by_cases hk : n = k
      · subst hk; simp [hg]
      · simp only [hk, if_false]
        exact h2 k (List.nodup_cons.1 hn).2

omit [DecidableEq α] in
theorem strictSorted_of_keys {V W : Type} {d : List (Str × V)} {e : List (Str × W)} (h : dkeys e = dkeys d) (hd : StrictSorted d) :
    StrictSorted e := by
  have h1 : List.Pairwise (fun a b => strLe a b = true ∧ a ≠ b) (dkeys d) := List.pairwise_map.2 hd
  rw [← h] at h1
  exact List.pairwise_map.1 h1

/-! ### States -/

omit [DecidableEq α] in
theorem mapVals_spec {g : PyVal α → Option (PyVal α)} {s t : State (PyVal α)} (hs : s.Canonical) (h : s.mapVals g = some t) :
    t.Canonical ∧ ∀ k, t.get k = (s.get k).bind g := by
  simp only [State.mapVals, Option.map_eq_some_iff] at h
  obtain ⟨e, he, rfl⟩ := h
  obtain ⟨h1, h2⟩ := allSome_dict (fun kv => g kv.2) _ he
  exact ⟨strictSorted_of_keys h1 hs, fun k => h2 k hs.nodup⟩

omit [DecidableEq α] in
theorem mapVals_keys {g : PyVal α → Option (PyVal α)} {s t : State (PyVal α)} (hs : s.Canonical) (h : s.mapVals g = some t) (k : Str) :
    (t.get k).isSome = (s.get k).isSome := by
  simp only [State.mapVals, Option.map_eq_some_iff] at h
  obtain ⟨e, he, rfl⟩ := h
  obtain ⟨h1, _⟩ := allSome_dict (fun kv => g kv.2) _ he
  rw [Bool.eq_iff_iff]
  simp only [State.get, dget_isSome, h1]

omit [DecidableEq α] in
theorem mapVals_exists {g : PyVal α → Option (PyVal α)} {s : State (PyVal α)} (hs : s.Canonical)
    (h : ∀ k x, s.get k = some x → (g x).isSome) : ∃ t, s.mapVals g = some t := by
  obtain ⟨e, he⟩ := allSome_exists (fun kv : Str × PyVal α => (g kv.2).map fun v => (kv.1, v)) s.mapping (by
    rintro ⟨k, x⟩ hm
    rw [Option.isSome_map]
    exact h k x (mem_dget hs.nodup hm))
  exact ⟨⟨e⟩, by simp only [State.mapVals, he, Option.map_some]⟩

omit [DecidableEq α] in
theorem keys_of_gets {s t : State (PyVal α)} (hs : s.Canonical) (ht : t.Canonical) (h : ∀ k, (s.get k).isSome = (t.get k).isSome) :
    s.keys = t.keys := by
  have hs' : List.Pairwise (fun a b => strLe a b = true ∧ a ≠ b) s.keys := List.pairwise_map.2 hs
  have ht' : List.Pairwise (fun a b => strLe a b = true ∧ a ≠ b) t.keys := List.pairwise_map.2 ht
  have key : ∀ (s : State (PyVal α)) k, k ∈ s.keys ↔ (s.get k).isSome := by
    intro s k
    exact dget_isSome.symm
  have hm : ∀ k, k ∈ s.keys ↔ k ∈ t.keys := fun k => by rw [key, key, h]
  let d : List (Str × Unit) := s.keys.map fun k => (k, ())
  let e : List (Str × Unit) := t.keys.map fun k => (k, ())
  have hde : d = e := by
    refine StrictSorted.ext_mem (List.pairwise_map.2 hs') (List.pairwise_map.2 ht') ?_
    rintro ⟨k, _⟩
    simp only [d, e, List.mem_map, Prod.mk.injEq, and_true, exists_eq_right]
    exact hm k
  have := congrArg (List.map Prod.fst) hde
  simpa only [d, e, List.map_map, Function.comp_def, List.map_id'] using this

omit [DecidableEq α] in
theorem zip_same_keys : ∀ {d e : List (Str × PyVal α)}, d.map (·.1) = e.map (·.1) → ∀ x y, (x, y) ∈ d.zip e → x.1 = y.1 := by
  intro d
  induction d with
  | nil => intro e _ x y h; simp at h
  | cons a d ih =>
    intro e h x y hm
    cases e with
    | nil => simp at hm
    | cons b e =>
      simp only [List.map_cons, List.cons.injEq] at h
      simp only [List.zip_cons_cons, List.mem_cons, Prod.mk.injEq] at hm
      rcases hm with ⟨rfl, rfl⟩ | hm
      · exact h.1
      · exact ih h.2 x y hm

theorem sameTrees_of {s t : State (PyVal α)} (hs : s.Canonical) (ht : t.Canonical) (h : ∀ k, (s.get k).isSome = (t.get k).isSome)
    (hv : ∀ k x y, s.get k = some x → t.get k = some y → x.sameTree y = true) : sameTrees s t = true := by
  have hk := keys_of_gets hs ht h
  simp only [sameTrees, Bool.and_eq_true, decide_eq_true_eq, List.all_eq_true]
  refine ⟨hk, ?_⟩
  rintro ⟨⟨k, x⟩, ⟨k', y⟩⟩ hm
  have hkk : k = k' := zip_same_keys hk _ _ hm
  subst hkk
  obtain ⟨h1, h2⟩ := List.of_mem_zip hm
  exact hv k x y (mem_dget hs.nodup h1) (mem_dget ht.nodup h2)

/-- Stacking States with the same paths. -/
theorem stackStates_spec {R : Arrays α} {axis : Int} {s : State (PyVal α)} {ss : List (State (PyVal α))}
    (hc : ∀ t ∈ s :: ss, t.Canonical) (hk : ∀ t ∈ ss, ∀ k, (t.get k).isSome = (s.get k).isSome)
    (hv : ∀ k, (s.get k).isSome → (stackVals R axis ((s :: ss).filterMap fun t => t.get k)).isSome) :
    ∃ u, stackStates R axis (s :: ss) = some u ∧ u.Canonical ∧
      ∀ k, u.get k = if (s.get k).isSome then stackVals R axis ((s :: ss).filterMap fun t => t.get k) else none := by
  have hs := hc s List.mem_cons_self
  obtain ⟨e, he⟩ := allSome_exists (fun kv : Str × PyVal α =>
      (stackVals R axis ((s :: ss).filterMap fun t => t.get kv.1)).map fun v => (kv.1, v)) s.mapping (by
    rintro ⟨k, x⟩ hm
    rw [Option.isSome_map]
    refine hv k ?_
    have : s.get k = some x := mem_dget hs.nodup hm
    rw [this]; rfl)
  obtain ⟨h1, h2⟩ := allSome_dict (fun kv : Str × PyVal α => stackVals R axis ((s :: ss).filterMap fun t => t.get kv.1)) _ he
  refine ⟨⟨e⟩, ?_, strictSorted_of_keys h1 hs, ?_⟩
  · have hall : ((s :: ss).all fun t => decide (t.keys = s.keys)) = true := by
      simp only [List.all_eq_true, decide_eq_true_eq]
      intro t ht
      rcases List.mem_cons.1 ht with rfl | ht'
      · rfl
      · exact keys_of_gets (hc t ht) hs (hk t ht')
    rw [stackStates, if_pos hall, he]
    rfl
  · intro k
    have h3 := h2 k hs.nodup
    have : (State.mk e).get k = dget e k := rfl
    rw [this, h3]
    have : dget s.mapping k = s.get k := rfl
    rw [this]
    cases s.get k <;> rfl

/-- Stacking States without entries. -/
theorem stackStates_empty {R : Arrays α} {axis : Int} {ss : List (State (PyVal α))} (h : ∀ t ∈ ss, t = ⟨[]⟩) :
    stackStates R axis ss = some ⟨[]⟩ := by
  cases ss with
  | nil => rfl
  | cons s ss =>
    have hs := h s List.mem_cons_self
    subst hs
    have hall : ((⟨[]⟩ :: ss : List (State (PyVal α))).all fun t => decide (t.keys = (State.mk (V := PyVal α) []).keys)) = true := by
      simp only [List.all_eq_true, decide_eq_true_eq]
      intro t ht
      rw [h t ht]
    rw [stackStates, if_pos hall]
    rfl

omit [DecidableEq α] in
theorem State.empty_of_gets {s : State (PyVal α)} (h : ∀ k, s.get k = none) : s = ⟨[]⟩ := by
  cases s with
  | mk d =>
    cases d with
    | nil => rfl
    | cons x d =>
      have := h x.1
      simp only [State.get, dget, if_true] at this
      cases this

/-! ### First matching filters -/

omit [DecidableEq α] in
theorem FirstMatch.unique {fs : List (Filter α)} {k : Str} {v : PyVal α} {i j : Nat} (hi : FirstMatch fs k v i) (hj : FirstMatch fs k v j) :
    i = j := by
  obtain ⟨⟨f, hf, hm⟩, hn⟩ := hi
  obtain ⟨⟨g, hg, hm'⟩, hn'⟩ := hj
  rcases Nat.lt_trichotomy i j with h | h | h
  · exact absurd hm (hn' i h f hf)
  · exact h
  · exact absurd hm' (hn j h g hg)

omit [DecidableEq α] in
theorem FirstMatch.lt {fs : List (Filter α)} {k : Str} {v : PyVal α} {i : Nat} (hi : FirstMatch fs k v i) : i < fs.length := by
  obtain ⟨⟨f, hf, _⟩, _⟩ := hi
  exact (List.getElem?_eq_some_iff.1 hf).1

omit [DecidableEq α] in
/-- A partition into the collections exists if every entry is in one. -/
theorem partition_of_matches {s0 s : State (PyVal α)} (h0 : Obtainable s0) (hs : Obtainable s) {fs : List (Filter α)}
    {ss : List (State (PyVal α))} (hp : s0.partition fs = .ok ss) (hm : ∀ k v, s.get k = some v → ∃ g, FirstMatch fs k v g) :
    ∃ ts, s.partition fs = .ok ts := by
  have hell : ¬ MisplacedEllipsis fs := by
    intro h
    rw [(C02_misplaced_ellipsis s0 h).1] at hp
    cases hp
  have hwf : ∀ f ∈ fs, f.WellFormed := by
    by_contra h
    obtain ⟨e, he⟩ := (C02_filter_total h0 fs).2 h
    rw [hp] at he; cases he
  obtain ⟨h1, h2, _⟩ := C02_partition_fails_iff hs hwf hell
  cases hpart : s.partition fs with
  | ok ts => exact ⟨ts, rfl⟩
  | error e =>
    have := h2 e hpart
    subst this
    obtain ⟨k, v, hk, hno⟩ := h1.1 hpart
    obtain ⟨g, ⟨f, hf, hmm⟩, _⟩ := hm k v hk
    exact absurd hmm (hno f (List.mem_of_getElem? hf))

end Nnx
