import Verif.Proofs.ScanRun
import Verif.Props.Jit
/-
From nnx.scan's arguments to the slices.
-/
namespace Nnx
variable {α κ A B C : Type}

/-! ### The length -/

theorem leafSizes_spec {R : Arrays α} {a : Int} {s : State (PyVal α)} (hc : s.Canonical)
    (h : ∀ k x, s.get k = some x → ∃ ls, x.leaves = some ls ∧ ∀ y ∈ ls, (R.size a y).isSome) :
    ∃ sz, leafSizes R a s = some sz ∧
      ∀ m, m ∈ sz ↔ ∃ k x ls y, s.get k = some x ∧ x.leaves = some ls ∧ y ∈ ls ∧ R.size a y = some m := by
  obtain ⟨ls, hls⟩ := allSome_exists (fun kv : Str × PyVal α => kv.2.leaves) s.mapping (by
    rintro ⟨k, x⟩ hm
    obtain ⟨l, hl, _⟩ := h k x (mem_dget hc.nodup hm)
    simp only [hl, Option.isSome_some])
  obtain ⟨hlen, hat⟩ := allSome_map_spec _ _ hls
  have hmem : ∀ l, l ∈ ls ↔ ∃ k x, s.get k = some x ∧ x.leaves = some l := by
    intro l
    constructor
    · intro hl
      obtain ⟨i, hi, hi'⟩ := List.getElem_of_mem hl
      obtain ⟨l', h1, h2⟩ := hat i (s.mapping[i]'(by omega)) (List.getElem?_eq_getElem _)
      rw [List.getElem?_eq_getElem hi, hi'] at h2
      cases h2
      exact ⟨_, _, mem_dget hc.nodup (List.getElem_mem (by omega)), h1⟩
    · rintro ⟨k, x, hk, hx⟩
      obtain ⟨i, hi, hi'⟩ := List.getElem_of_mem (dget_mem hk)
      obtain ⟨l', h1, h2⟩ := hat i (k, x) (by rw [List.getElem?_eq_getElem hi, hi'])
      rw [hx] at h1
      cases h1
      exact List.mem_of_getElem? h2
  obtain ⟨sz, hsz⟩ := allSome_exists (R.size a) ls.flatten (by
    intro y hy
    obtain ⟨l, hl, hyl⟩ := List.mem_flatten.1 hy
    obtain ⟨k, x, hk, hx⟩ := (hmem l).1 hl
    obtain ⟨l', hx', hs⟩ := h k x hk
    rw [hx] at hx'
    cases hx'
    exact hs y hyl)
  obtain ⟨hlen2, hat2⟩ := allSome_map_spec _ _ hsz
  refine ⟨sz, by simp only [leafSizes, hls, hsz], ?_⟩
  intro m
  constructor
  · intro hm
    obtain ⟨i, hi, hi'⟩ := List.getElem_of_mem hm
    obtain ⟨m', h1, h2⟩ := hat2 i (ls.flatten[i]'(by omega)) (List.getElem?_eq_getElem _)
    rw [List.getElem?_eq_getElem hi, hi'] at h2
    cases h2
    obtain ⟨l, hl, hyl⟩ := List.mem_flatten.1 (List.getElem_mem (l := ls.flatten) (n := i) (by omega))
    obtain ⟨k, x, hk, hx⟩ := (hmem l).1 hl
    exact ⟨k, x, l, _, hk, hx, hyl, h1⟩
  · rintro ⟨k, x, l, y, hk, hx, hy, hs⟩
    have : y ∈ ls.flatten := List.mem_flatten.2 ⟨l, (hmem l).2 ⟨k, x, hk, hx⟩, hy⟩
    obtain ⟨i, hi, hi'⟩ := List.getElem_of_mem this
    obtain ⟨m', h1, h2⟩ := hat2 i y (by rw [List.getElem?_eq_getElem hi, hi'])
    rw [hs] at h1
    cases h1
    exact List.mem_of_getElem? h2

/-- Every leaf of the axes states is an array with an axis to scan over. -/
def AxesArrays (R : Arrays α) (o : ScanOptions α) (s : State (PyVal α)) : Prop :=
  ∀ k x (g : Nat) f a, s.get k = some x → o.variableAxes[g]? = some (f, a) → FirstMatch o.filters k x g →
    ∃ ls, x.leaves = some ls ∧ ∀ y ∈ ls, (R.size a y).isSome

theorem scanLength_iff (o : ScanOptions α) (L : List Nat) (n : Nat) :
    scanLength o L = .ok n ↔ (∀ m ∈ L, m = n) ∧ (∀ m, o.length = some m → m = n) ∧ (o.length = some n ∨ L ≠ []) := by
  cases L with
  | nil =>
    cases ho : o.length with
    | none => simp [scanLength, ho]
    | some m => simp [scanLength, ho]
  | cons x L =>
    simp only [scanLength]
    by_cases hall : L.all (fun m => decide (m = x)) = true
    · rw [if_pos hall]
      have hall' : ∀ m ∈ L, m = x := by simpa using hall
      cases ho : o.length with
      | none =>
        simp only [Except.ok.injEq, reduceCtorEq, false_implies, implies_true, true_and, ne_eq, not_false_eq_true, or_true, and_true, List.mem_cons, forall_eq_or_imp]
        exact ⟨fun h => ⟨h, fun m hm => (hall' m hm).trans h⟩, fun h => h.1⟩
      | some k =>
        dsimp only
        by_cases hk : k = x
        · subst hk
          simp only [if_true, Except.ok.injEq, Option.some.injEq, List.mem_cons, forall_eq_or_imp]
          constructor
          · rintro rfl; exact ⟨⟨rfl, hall'⟩, fun m hm => hm.symm, .inl rfl⟩
          · rintro ⟨⟨h, _⟩, _⟩; exact h
        · rw [if_neg hk]
          simp only [reduceCtorEq, false_iff]
          rintro ⟨h1, h2, _⟩
          exact hk ((h2 k rfl).trans (h1 x List.mem_cons_self).symm)
    · rw [if_neg hall]
      simp only [reduceCtorEq, false_iff]
      rintro ⟨h1, _, _⟩
      apply hall
      simp only [List.all_eq_true, decide_eq_true_eq]
      intro m hm
      rw [h1 m (List.mem_cons_of_mem _ hm), h1 x List.mem_cons_self]

theorem scanLength_error (o : ScanOptions α) {L : List Nat} {e : Err} (h : scanLength o L = .error e) : e = .valueError := by
  simp only [scanLength] at h
  split at h
  · split at h <;> cases h; rfl
  · split at h
    · split at h
      · cases h
      · split at h <;> cases h; rfl
    · cases h; rfl

variable [DecidableEq α] {w : World α} {l : Loc} {o : ScanOptions α} {s0 : State (PyVal α)} {d : ModuleDef α} {ss0 : List (State (PyVal α))}
  {b c0 : State (PyVal α)} {R : Arrays α}

omit [DecidableEq α] in
theorem Setup.axis (S : Setup w l o s0 d ss0 b c0) {g : Nat} (hg : g < o.variableAxes.length) : ∃ t, ss0[g]? = some t := by
  have := (C01_partition_first_match S.obtainable S.part).1
  rw [filters_length] at this
  exact ⟨_, List.getElem?_eq_getElem (by omega)⟩

omit [DecidableEq α] in
/-- The axes states paired with their axes. -/
theorem zip_axes (S : Setup w l o s0 d ss0 b c0) {t : State (PyVal α)} {a : Int} {g : Nat} :
    ((ss0.take o.variableAxes.length).zip (o.variableAxes.map (·.2)))[g]? = some (t, a) ↔
      ss0[g]? = some t ∧ ∃ f, o.variableAxes[g]? = some (f, a) := by
  rw [List.getElem?_zip_eq_some, List.getElem?_map]
  simp only [Option.map_eq_some_iff, Prod.exists, exists_eq_right]
  constructor
  · rintro ⟨h1, f, h2⟩
    rw [List.getElem?_take] at h1
    split at h1
    · exact ⟨h1, f, h2⟩
    · cases h1
  · rintro ⟨h1, f, h2⟩
    refine ⟨?_, f, h2⟩
    rw [List.getElem?_take, if_pos (List.getElem?_eq_some_iff.1 h2).1, h1]

omit [DecidableEq α] in
/-- The sizes that `scan_apply` collects. -/
theorem sizes_spec (S : Setup w l o s0 d ss0 b c0) (h : AxesArrays R o s0) :
    ∃ sizes, allSome (((ss0.take o.variableAxes.length).zip (o.variableAxes.map (·.2))).map fun sa => leafSizes R sa.2 sa.1) = some sizes ∧
      ∀ m, m ∈ sizes.flatten ↔ ∃ k x g f a ls y, s0.get k = some x ∧ o.variableAxes[(g : Nat)]? = some (f, a) ∧ FirstMatch o.filters k x g ∧
        x.leaves = some ls ∧ y ∈ ls ∧ R.size a y = some m := by
  have key : ∀ (g : Nat) t a, ((ss0.take o.variableAxes.length).zip (o.variableAxes.map (·.2)))[g]? = some (t, a) →
      ∃ sz, leafSizes R a t = some sz ∧ ∀ m, m ∈ sz ↔ ∃ k x ls y, t.get k = some x ∧ x.leaves = some ls ∧ y ∈ ls ∧ R.size a y = some m := by
    intro g t a hg
    obtain ⟨ht, f, hf⟩ := (zip_axes S).1 hg
    have hgr := S.group ht
    exact leafSizes_spec hgr.1 fun k x hk => h k x g f a ((hgr.2 k x).1 hk).1 hf ((hgr.2 k x).1 hk).2
  obtain ⟨sizes, hs⟩ := allSome_exists (fun sa : State (PyVal α) × Int => leafSizes R sa.2 sa.1)
    ((ss0.take o.variableAxes.length).zip (o.variableAxes.map (·.2))) (by
      rintro ⟨t, a⟩ hm
      obtain ⟨i, hi⟩ := List.getElem?_of_mem hm
      obtain ⟨sz, h1, _⟩ := key i t a hi
      simp only [h1, Option.isSome_some])
  obtain ⟨hlen, hat⟩ := allSome_map_spec _ _ hs
  refine ⟨sizes, hs, ?_⟩
  intro m
  rw [List.mem_flatten]
  constructor
  · rintro ⟨sz, hsz, hm⟩
    obtain ⟨i, hi, hi'⟩ := List.getElem_of_mem hsz
    rw [hlen] at hi
    obtain ⟨sz', h1, h2⟩ := hat i _ (List.getElem?_eq_getElem hi)
    rw [List.getElem?_eq_getElem (by omega), hi'] at h2
    cases h2
    have hz := List.getElem?_eq_getElem hi
    generalize ((ss0.take o.variableAxes.length).zip (o.variableAxes.map (·.2)))[i] = ta at *
    obtain ⟨t, a⟩ := ta
    obtain ⟨sz', h3, h4⟩ := key i t a hz
    dsimp only at h1
    rw [h1] at h3
    cases h3
    obtain ⟨k, x, ls, y, hk, hx, hy, hsy⟩ := (h4 m).1 hm
    obtain ⟨ht, f, hf⟩ := (zip_axes S).1 hz
    obtain ⟨hk1, hk2⟩ := ((S.group ht).2 k x).1 hk
    exact ⟨k, x, i, f, a, ls, y, hk1, hf, hk2, hx, hy, hsy⟩
  · rintro ⟨k, x, g, f, a, ls, y, hk, hf, hfm, hx, hy, hsy⟩
    obtain ⟨t, ht⟩ := S.axis (List.getElem?_eq_some_iff.1 hf).1
    have hz := (zip_axes S).2 ⟨ht, f, hf⟩
    obtain ⟨sz, h1, h2⟩ := hat g _ hz
    obtain ⟨sz', h3, h4⟩ := key g t a hz
    dsimp only at h1
    rw [h1] at h3
    cases h3
    exact ⟨sz, List.mem_of_getElem? h2, (h4 m).2 ⟨k, x, ls, y, ((S.group ht).2 k x).2 ⟨hk, hfm⟩, hx, hy, hsy⟩⟩

omit [DecidableEq α] in
/-- The length that `scan_apply` infers is the one of the specification. -/
theorem length_iff (S : Setup w l o s0 d ss0 b c0) (h : AxesArrays R o s0) (xs : Option (List A)) :
    ∃ sizes, allSome (((ss0.take o.variableAxes.length).zip (o.variableAxes.map (·.2))).map fun sa => leafSizes R sa.2 sa.1) = some sizes ∧
      ∀ n, scanLength o (sizes.flatten ++ (xs.map List.length).toList) = .ok n ↔ HasLength R o s0 xs n := by
  obtain ⟨sizes, hs, hm⟩ := sizes_spec S h
  refine ⟨sizes, hs, ?_⟩
  intro n
  rw [scanLength_iff]
  constructor
  · rintro ⟨h1, h2, h3⟩
    refine .of_leaves ?_ ?_ h2 ?_
    · intro k x g f a hk hf hfm
      obtain ⟨ls, hx, hsz⟩ := h k x g f a hk hf hfm
      refine ⟨ls, hx, ?_⟩
      intro y hy
      obtain ⟨m, hm'⟩ := Option.isSome_iff_exists.1 (hsz y hy)
      rw [hm', h1 m (List.mem_append_left _ ((hm m).2 ⟨k, x, g, f, a, ls, y, hk, hf, hfm, hx, hy, hm'⟩))]
    · rintro as rfl
      exact h1 _ (by simp)
    · rcases h3 with h3 | h3
      · exact .inl h3
      · right
        cases xs with
        | some as => left; simp
        | none =>
          right
          cases hfl : sizes.flatten with
          | nil => rw [hfl] at h3; simp at h3
          | cons m ms =>
            obtain ⟨k, x, g, f, a, ls, y, hk, hf, hfm, hx, hy, _⟩ := (hm m).1 (by rw [hfl]; exact List.mem_cons_self)
            cases ls with
            | nil => cases hy
            | cons y' ls => exact ⟨k, x, g, f, a, y', ls, hk, hf, hfm, hx⟩
  · intro H
    refine ⟨?_, H.option, ?_⟩
    · intro m hmm
      rcases List.mem_append.1 hmm with hmm | hmm
      · obtain ⟨k, x, g, f, a, ls, y, hk, hf, hfm, hx, hy, hsy⟩ := (hm m).1 hmm
        obtain ⟨ls', hx', hn⟩ := H.leaves' k x g f a hk hf hfm
        rw [hx] at hx'
        cases hx'
        rw [hn y hy] at hsy
        cases hsy; rfl
      · cases xs with
        | none => simp at hmm
        | some as =>
          simp only [Option.map_some, Option.toList_some, List.mem_singleton] at hmm
          rw [hmm]; exact H.arg as rfl
    · rcases H.known' with h3 | h3 | ⟨k, x, g, f, a, y, ls, hk, hf, hfm, hx⟩
      · exact .inl h3
      · right
        cases xs with
        | none => exact absurd rfl h3
        | some as => simp
      · right
        obtain ⟨ls', hx', hn⟩ := H.leaves' k x g f a hk hf hfm
        rw [hx] at hx'
        cases hx'
        have := (hm n).2 ⟨k, x, g, f, a, y :: ls, y, hk, hf, hfm, hx, List.mem_cons_self, hn y List.mem_cons_self⟩
        intro hnil
        rw [List.append_eq_nil_iff] at hnil
        rw [hnil.1] at this
        cases this

/-! ### The slices -/

omit [DecidableEq α] in
theorem slices_exist (S : Setup w l o s0 d ss0 b c0) {xs : Option (List A)} {ctxs : Nat → Option (PureContext κ)} {n : Nat}
    {ins : List (State (PyVal α) × (Option (PureContext κ) × Option A))} (hlen : ∀ as, xs = some as → as.length = n)
    (hins : LoopInputs R o s0 xs ctxs n ins) :
    ∃ xsS, allSome ((List.range n).map (stepIn R o (ss0.take o.variableAxes.length) xs ctxs)) = some xsS ∧
      List.Forall₂ (Matched R o s0 ss0) ins xsS := by
  have one : ∀ i inp, ∀ x, ins[i]? = some (inp, x) →
      ∃ y, stepIn R o (ss0.take o.variableAxes.length) xs ctxs i = some y ∧ Matched R o s0 ss0 (inp, x) y := by
    intro i inp x hi
    obtain ⟨hsl, rfl⟩ := hins.2 i inp x hi
    have hlt : i < n := by rw [← hins.1]; exact (List.getElem?_eq_some_iff.1 hi).1
    have key : ∀ (g : Nat) t a, ((ss0.take o.variableAxes.length).zip (o.variableAxes.map (·.2)))[g]? = some (t, a) →
        ∃ t', sliceState R a i t = some t' := by
      intro g t a hg
      obtain ⟨ht, f, hf⟩ := (zip_axes S).1 hg
      refine mapVals_exists (S.group ht).1 ?_
      intro k x hk
      obtain ⟨hk1, hk2⟩ := ((S.group ht).2 k x).1 hk
      obtain ⟨y, hy, _⟩ := hsl.axes' k x g f a hk1 hf hk2
      rw [hy]; rfl
    obtain ⟨axes, hax⟩ := allSome_exists (fun sa : State (PyVal α) × Int => sliceState R sa.2 i sa.1)
      ((ss0.take o.variableAxes.length).zip (o.variableAxes.map (·.2))) (by
        rintro ⟨t, a⟩ hm
        obtain ⟨g, hg⟩ := List.getElem?_of_mem hm
        obtain ⟨t', h1⟩ := key g t a hg
        simp only [h1, Option.isSome_some])
    obtain ⟨hal, hat⟩ := allSome_map_spec _ _ hax
    have hsl' : IsAxes R o ss0 i axes := by
      refine ⟨?_, ?_⟩
      · rw [hal, List.length_zip, List.length_map, List.length_take]
        have := (C01_partition_first_match S.obtainable S.part).1
        rw [filters_length] at this
        omega
      · intro g f a s hf hs
        obtain ⟨t', h1, h2⟩ := hat g (s, a) ((zip_axes S).2 ⟨hs, f, hf⟩)
        exact ⟨t', h1, h2⟩
    cases xs with
    | none => exact ⟨⟨ctxs i, axes, none⟩, by simp only [stepIn, hax], i, hsl, hsl', rfl⟩
    | some as =>
      have hi2 : i < as.length := by rw [hlen as rfl]; exact hlt
      refine ⟨⟨ctxs i, axes, some as[i]⟩, by simp only [stepIn, hax, List.getElem?_eq_getElem hi2, Option.map_some], i, hsl, hsl', ?_⟩
      simp only [Option.bind_some, List.getElem?_eq_getElem hi2]
  obtain ⟨xsS, hxs⟩ := allSome_exists (stepIn R o (ss0.take o.variableAxes.length) xs ctxs) (List.range n) (by
    intro i hi
    have hi' : i < ins.length := by rw [hins.1]; exact List.mem_range.1 hi
    obtain ⟨y, hy, _⟩ := one i _ _ (List.getElem?_eq_getElem hi')
    rw [hy]; rfl)
  obtain ⟨hl, hat⟩ := allSome_map_spec _ _ hxs
  refine ⟨xsS, hxs, ?_⟩
  rw [List.length_range] at hl
  rw [List.forall₂_iff_get]
  refine ⟨by rw [hl, hins.1], ?_⟩
  intro i h1 h2
  obtain ⟨y, hy, hm⟩ := one i _ _ (List.getElem?_eq_getElem h1)
  obtain ⟨y', hy', hx⟩ := hat i i (by rw [List.getElem?_range (by rw [← hins.1]; exact h1)])
  rw [hy] at hy'
  cases hy'
  rw [List.getElem?_eq_getElem h2] at hx
  cases hx
  exact hm

/-! ### scanApply -/

/-- What a call of a scanned function starts from. -/
theorem scan_setup {w : World α} (wf : WFWorld w) {l : Loc} (hl : l < w.heap.length) (hv : AllValid w l) {o : ScanOptions α}
    {k : Nat} {s0 : State (PyVal α)} (hs : getState k w.heap l = some s0) {ss0} (hp : s0.partition o.filters = .ok ss0)
    (hname : dhas o.metadata kPartitionName = false) :
    ∃ d b c0, Setup w l o s0 d ss0 b c0 ∧ splitGroups o.variableAxes.length ss0 = some (ss0.take o.variableAxes.length, b, c0) ∧
      ∀ fuel, getState fuel w.heap l = some s0 → partitionModule fuel w.heap l o.filters = .ok (ss0, d) := by
  obtain ⟨s, d, hpart⟩ := partition_budget wf hl
  obtain ⟨_, hd, hs'⟩ := hpart _ (Nat.lt_succ_self _)
  have := getState_det wf.heap hl hs' hs
  subst this
  replace hs := hs'
  have hlen := (C01_partition_first_match (getState_obtainable hs) hp).1
  rw [filters_length] at hlen
  have hb : ss0[o.variableAxes.length]? = some (ss0[o.variableAxes.length]'(by omega)) := List.getElem?_eq_getElem _
  have hc : ss0[o.variableAxes.length + 1]? = some (ss0[o.variableAxes.length + 1]'(by omega)) := List.getElem?_eq_getElem _
  refine ⟨d, _, _, ⟨wf, hl, hv, hs, hd, hp, hb, hc, hname⟩, by simp only [splitGroups, hb, hc], ?_⟩
  intro fuel hf
  obtain ⟨d', hd'⟩ := getModuleDef_of_getState hf
  have := getModuleDef_det wf.heap hl hd' hd
  subst this
  simp only [partitionModule, hd', hf]
  split
  · next h => exact absurd (congrArg List.length h) (by rw [filters_length]; simp)
  · rw [hp]

/-- A call of a scanned function, once the length is known. -/
theorem scanApply_eq (S : Setup w l o s0 d ss0 b c0)
    (hsplit : splitGroups o.variableAxes.length ss0 = some (ss0.take o.variableAxes.length, b, c0))
    (hpart : ∀ fuel, getState fuel w.heap l = some s0 → partitionModule fuel w.heap l o.filters = .ok (ss0, d))
    {xs : Option (List A)} {n : Nat} (hlen : HasLength R o s0 xs n) {split : κ → Nat → Nat → κ} {p : Str → Bool} {ctx : Option (PureContext κ)}
    (hsel : ctx.isSome = true → toRngPredicate o.splitRngs = .ok p)
    {ins : List (State (PyVal α) × (Option (PureContext κ) × Option A))}
    (hins : LoopInputs R o s0 xs (fun i => ctx.map (stepCtx split p n i)) n ins) :
    ∃ xsS, List.Forall₂ (Matched R o s0 ss0) ins xsS ∧ ∀ (fuel j : Nat) f (c : C), getState fuel w.heap l = some s0 →
      scanApply (B := B) R split fuel o j l f c xs ctx w = scanRun R fuel o j d b l f (c0, c) xsS w := by
  have haa : AxesArrays R o s0 := by
    intro k x g f a hk hf hfm
    obtain ⟨ls, hx, hn⟩ := hlen.leaves' k x g f a hk hf hfm
    exact ⟨ls, hx, fun y hy => by rw [hn y hy]; rfl⟩
  obtain ⟨sizes, hsz, hn⟩ := length_iff S haa xs
  obtain ⟨xsS, hxs, hm⟩ := slices_exist S hlen.arg hins
  refine ⟨xsS, hm, ?_⟩
  intro fuel j f c hf
  cases ctx with
  | none =>
    simp only [scanApply, hpart fuel hf, hsplit, hsz, (hn n).2 hlen, Option.isSome_none, Bool.false_eq_true, if_false]
    simp only [Option.map_none] at hxs ⊢
    rw [hxs]
  | some cx =>
    simp only [scanApply, hpart fuel hf, hsplit, hsz, (hn n).2 hlen, Option.isSome_some, if_true, hsel rfl, hxs]

end Nnx
