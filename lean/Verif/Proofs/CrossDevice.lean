import Verif.Spec.CrossDevice
import Verif.Proofs.BatchNorm

/-! The statistics that `lax.pmean` gives. -/

namespace Nnx

theorem mapExcept_all {X Y : Type} {f : X → Except Err Y} : ∀ {xs : List X}, (∀ x ∈ xs, ∃ y, f x = .ok y) →
    ∃ ys, mapExcept f xs = .ok ys ∧ ys.length = xs.length ∧
      ∀ (i : Nat) x, xs[i]? = some x → ∃ y, ys[i]? = some y ∧ f x = .ok y
  | [], _ => ⟨[], rfl, rfl, by simp⟩
  | x :: xs, h => by
    obtain ⟨y, hy⟩ := h x (by simp)
    obtain ⟨ys, h1, h2, h3⟩ := mapExcept_all (xs := xs) (fun x' hx' => h x' (by simp [hx']))
    refine ⟨y :: ys, by rw [mapExcept, hy, h1], by simp [h2], fun i x' hi => ?_⟩
    cases i with
    | zero =>
      simp only [List.getElem?_cons_zero, Option.some.injEq] at hi
      subst hi
      exact ⟨y, by simp, hy⟩
    | succ i =>
      simp only [List.getElem?_cons_succ] at hi ⊢
      exact h3 i x' hi

variable {𝕜 : Type}

theorem concat0_spec {a b : Tensor 𝕜} {d : Nat} {s : List Nat} (ha : a.shape = d :: s) (hb : b.shape = d :: s) :
    ∃ c, concat0 a b = .ok c ∧ c.shape = (d + d) :: s ∧
      ∀ i r, i < d → c.val (i :: r) = a.val (i :: r) ∧ c.val ((i + d) :: r) = b.val (i :: r) := by
  refine ⟨⟨(d + d) :: s, concatVal d a.val b.val⟩, by rw [concat0, ha, hb]; simp only [if_true], rfl,
    fun i r hi => ⟨by simp [concatVal, hi], ?_⟩⟩
  simp [concatVal, show ¬ i + d < d by omega]

theorem split2_spec {t : Tensor 𝕜} {d : Nat} {s : List Nat} (h : t.shape = (d + d) :: s) :
    ∃ a b, split2 t = .ok (a, b) ∧ a.shape = d :: s ∧ b.shape = d :: s ∧
      ∀ i r, a.val (i :: r) = t.val (i :: r) ∧ b.val (i :: r) = t.val ((i + d) :: r) := by
  have hd : (d + d) / 2 = d := by omega
  refine ⟨⟨d :: s, t.val⟩, ⟨d :: s, shiftVal d t.val⟩,
    ?_, rfl, rfl, fun i r => ⟨rfl, rfl⟩⟩
  rw [split2, h]
  simp only [hd, if_pos (show (d + d) % 2 = 0 by omega)]

theorem groupOf_eq {groups : Option (List (List Nat))} {n d : Nat} {g : List Nat} (h : Involves groups n d g) :
    groupOf groups n d = g := by
  cases groups with
  | none => exact h.symm
  | some gs =>
    obtain ⟨h1, h2, h3, -⟩ := h
    show (gs.find? fun g => g.contains d).getD [] = g
    cases hf : gs.find? fun g => g.contains d with
    | none =>
      rw [List.find?_eq_none] at hf
      exact (hf g h1 (by simpa using h2)).elim
    | some g' =>
      have m1 := List.mem_of_find?_eq_some hf
      have m2 := List.find?_some hf
      exact h3 g' m1 (by simpa using m2)

theorem involves_lt {groups : Option (List (List Nat))} {n d : Nat} {g : List Nat} (h : Involves groups n d g) :
    ∀ e ∈ g, e < n := by
  cases groups with
  | none => intro e he; rw [show g = List.range n from h] at he; exact List.mem_range.1 he
  | some gs => exact h.2.2.2

theorem involves_ne_nil {groups : Option (List (List Nat))} {n d : Nat} {g : List Nat} (hd : d < n)
    (h : Involves groups n d g) : g ≠ [] := by
  cases groups with
  | none =>
    rw [show g = List.range n from h]
    intro e
    have := List.length_range (n := n)
    rw [e] at this
    simp at this; omega
  | some gs => exact List.ne_nil_of_mem h.2.1

/-- The elements of a list at positions within it. -/
theorem filterMap_getElem?_length {X : Type} (xs : List X) : ∀ {g : List Nat}, (∀ e ∈ g, e < xs.length) →
    (g.filterMap fun e => xs[e]?).length = g.length
  | [], _ => rfl
  | e :: g, h => by
    rw [List.filterMap_cons, List.getElem?_eq_getElem (h e (by simp))]
    simp [filterMap_getElem?_length xs (g := g) (fun e he => h e (by simp [he]))]

theorem filterMap_map_getElem? {X Y Z : Type} {xs : List X} {ys : List Y} {f : X → Z} {h : Y → Z} : ∀ {g : List Nat},
    (∀ e ∈ g, ∃ x y, xs[e]? = some x ∧ ys[e]? = some y ∧ h y = f x) →
    (g.filterMap fun e => ys[e]?).map h = (g.filterMap fun e => xs[e]?).map f
  | [], _ => rfl
  | e :: g, hg => by
    obtain ⟨x, y, h1, h2, h3⟩ := hg e (by simp)
    rw [List.filterMap_cons, List.filterMap_cons, h1, h2]
    simp only [List.map_cons, h3]
    rw [filterMap_map_getElem? (fun e he => hg e (by simp [he]))]

variable [Field 𝕜]

/-- The average of samples of one size is the average of their averages. -/
theorem avg_flatten [CharZero 𝕜] {L : Nat} (hL : L ≠ 0) : ∀ {ls : List (List 𝕜)}, (∀ l ∈ ls, l.length = L) →
    avg ls.flatten = (ls.map avg).sum / (ls.length : 𝕜) := by
  intro ls h
  have hs : (ls.map avg).sum = ls.flatten.sum / (L : 𝕜) ∧ ls.flatten.length = ls.length * L := by
    induction ls with
    | nil => simp
    | cons l ls ih =>
      obtain ⟨i1, i2⟩ := ih (fun l' hl' => h l' (by simp [hl']))
      simp only [List.map_cons, List.sum_cons, List.flatten_cons, List.sum_append, List.length_append, i2,
        List.length_cons]
      refine ⟨?_, by rw [h l (by simp)]; ring⟩
      rw [i1, avg, h l (by simp)]
      ring
  have hL' : (L : 𝕜) ≠ 0 := by exact_mod_cast hL
  rw [avg, hs.1, hs.2, Nat.cast_mul, div_div, mul_comm]

theorem pmean_get {groups : Option (List (List Nat))} {ts : List (Tensor 𝕜)} {d : Nat} {t : Tensor 𝕜}
    (h : ts[d]? = some t) {g : List Nat} (hg : Involves groups ts.length d g) :
    (pmean groups ts)[d]? =
      some ⟨t.shape, fun idx => ((g.filterMap fun e => ts[e]?).map fun u => u.val idx).sum / (g.length : 𝕜)⟩ := by
  rw [pmean, List.getElem?_mapIdx, h]
  simp only [Option.map_some, groupOf_eq hg]

theorem pmean_shape {groups : Option (List (List Nat))} {ts : List (Tensor 𝕜)} {s : List Nat}
    (h : ∀ t ∈ ts, t.shape = s) : ∀ t ∈ pmean groups ts, t.shape = s := by
  intro t ht
  rw [pmean, List.mem_mapIdx] at ht
  obtain ⟨i, hi, rfl⟩ := ht
  exact h ts[i] (List.getElem_mem hi)

variable [LinearOrder 𝕜]

theorem splitStats_spec {c : Tensor 𝕜} {d : Nat} {s : List Nat} (h : c.shape = (d + d) :: s) :
    ∃ m v, splitStats c = .ok (m, v) ∧ m.shape = d :: s ∧ v.shape = d :: s ∧
      ∀ i r, Within (i :: r) (d :: s) → m.val (i :: r) = c.val (i :: r) ∧
        v.val (i :: r) = max 0 (c.val ((i + d) :: r) - c.val (i :: r) * c.val (i :: r)) := by
  obtain ⟨a, b, h1, h2, h3, h4⟩ := split2_spec h
  obtain ⟨v, v1, v2, v3⟩ := statsOf_spec (h3.trans h2.symm)
  refine ⟨a, v, by rw [splitStats, h1]; exact v1, h2, v2.trans h2, fun i r hw => ⟨(h4 i r).1, ?_⟩⟩
  rw [v3 _ (by rw [h2]; exact hw), (h4 i r).1, (h4 i r).2]

/-- The statistics of device `d`: the averages over the devices of its group. -/
theorem deviceStats_spec {groups : Option (List (List Nat))} {xs : List (Tensor 𝕜)} {shape : List Nat}
    (hx : ∀ x ∈ xs, x.shape = shape) {axes : List Int} (h : ValidAxes shape.length axes) (kept : Nat → Prop)
    [DecidablePred kept]
    (hk : ∀ a, a < shape.length → (kept a ↔ (a : Int) ∉ canonicalizeAxes shape.length axes))
    {d0 : Nat} {s0 : List Nat}
    (hs : pick false (axisMask shape.length (canonicalizeAxes shape.length axes)) shape = d0 :: s0)
    {d : Nat} (hd : d < xs.length) {g : List Nat} (hg : Involves groups xs.length d g) :
    ∃ m v, deviceStats groups xs d axes = .ok (m, v) ∧ m.shape = d0 :: s0 ∧ v.shape = d0 :: s0 ∧
      ∀ idx, Within idx shape →
        let pos := pick false (axisMask shape.length (canonicalizeAxes shape.length axes)) idx
        let means := (g.filterMap fun e => xs[e]?).map fun x => avg ((cell shape kept idx).map x.val)
        let mean2s := (g.filterMap fun e => xs[e]?).map fun x => avg (((cell shape kept idx).map x.val).map fun u => u * u)
        m.val pos = means.sum / (g.length : 𝕜) ∧
        v.val pos = max 0 (mean2s.sum / (g.length : 𝕜) - (means.sum / (g.length : 𝕜)) * (means.sum / (g.length : 𝕜))) := by
  have loc : ∀ x ∈ xs, ∃ m m2, localMeans x axes = .ok (m, m2) ∧ m.shape = d0 :: s0 ∧ m2.shape = d0 :: s0 ∧
      ∀ idx, Within idx shape →
        m.val (pick false (axisMask shape.length (canonicalizeAxes shape.length axes)) idx) =
          avg ((cell shape kept idx).map x.val) ∧
        m2.val (pick false (axisMask shape.length (canonicalizeAxes shape.length axes)) idx) =
          avg (((cell shape kept idx).map x.val).map fun u => u * u) := by
    intro x hxm
    have e := hx x hxm
    obtain ⟨m, m2, h1, h2, h3, h4⟩ := localMeans_spec (x := x) (axes := axes) (by rw [e]; exact h) kept
      (by rw [e]; exact hk)
    rw [e] at h2 h4
    exact ⟨m, m2, h1, h2.trans hs, h3.trans (h2.trans hs), h4⟩
  obtain ⟨ms, hms, lms, gms⟩ := mapExcept_all (f := fun x => localMeans x axes) (xs := xs) (by
    intro x hxm
    obtain ⟨m, m2, h1, -⟩ := loc x hxm
    exact ⟨_, h1⟩)
  -- the arrays before the collective
  have cat : ∀ (i : Nat) x p, xs[i]? = some x → ms[i]? = some p → ∃ c, concat0 p.1 p.2 = .ok c ∧
      c.shape = (d0 + d0) :: s0 ∧ ∀ idx, Within idx shape → ∃ j r,
        pick false (axisMask shape.length (canonicalizeAxes shape.length axes)) idx = j :: r ∧
        c.val (j :: r) = avg ((cell shape kept idx).map x.val) ∧
        c.val ((j + d0) :: r) = avg (((cell shape kept idx).map x.val).map fun u => u * u) := by
    intro i x p hi hp
    obtain ⟨m, m2, h1, h2, h3, h4⟩ := loc x (List.mem_of_getElem? hi)
    obtain ⟨p', hp', hl⟩ := gms i x hi
    rw [hp] at hp'; cases hp'
    rw [h1] at hl; cases hl
    obtain ⟨c, c1, c2, c3⟩ := concat0_spec h2 h3
    refine ⟨c, c1, c2, fun idx hw => ?_⟩
    have hwp := within_pick (b := false) (m := axisMask shape.length (canonicalizeAxes shape.length axes)) hw
    rw [hs] at hwp
    obtain ⟨q1, q2⟩ := h4 idx hw
    cases hpos : pick false (axisMask shape.length (canonicalizeAxes shape.length axes)) idx with
    | nil => rw [hpos] at hwp; cases hwp
    | cons j r =>
      rw [hpos] at hwp q1 q2
      have hj : j < d0 := by cases hwp with | cons h _ => exact h
      obtain ⟨e1, e2⟩ := c3 j r hj
      exact ⟨j, r, rfl, by rw [e1, q1], by rw [e2, q2]⟩
  obtain ⟨cs, hcs, lcs, gcs⟩ := mapExcept_all (f := fun p : Tensor 𝕜 × Tensor 𝕜 => concat0 p.1 p.2) (xs := ms) (by
    intro p hp
    obtain ⟨i, hi⟩ := List.getElem?_of_mem hp
    have hlt : i < xs.length := by rw [← lms]; exact (List.getElem?_eq_some_iff.1 hi).1
    obtain ⟨c, h1, -⟩ := cat i _ p (List.getElem?_eq_getElem hlt) hi
    exact ⟨c, h1⟩)
  have lcs' : cs.length = xs.length := lcs.trans lms
  have dev : ∀ (i : Nat), i < xs.length → ∃ x c, xs[i]? = some x ∧ cs[i]? = some c ∧ c.shape = (d0 + d0) :: s0 ∧
      ∀ idx, Within idx shape → ∃ j r,
        pick false (axisMask shape.length (canonicalizeAxes shape.length axes)) idx = j :: r ∧
        c.val (j :: r) = avg ((cell shape kept idx).map x.val) ∧
        c.val ((j + d0) :: r) = avg (((cell shape kept idx).map x.val).map fun u => u * u) := by
    intro i hi
    obtain ⟨p, hp, -⟩ := gms i _ (List.getElem?_eq_getElem hi)
    obtain ⟨c, c1, c2, c3⟩ := cat i _ p (List.getElem?_eq_getElem hi) hp
    obtain ⟨c', hc', hl⟩ := gcs i p hp
    rw [c1] at hl; cases hl
    exact ⟨_, c, List.getElem?_eq_getElem hi, hc', c2, c3⟩
  have shapes : ∀ c ∈ cs, c.shape = (d0 + d0) :: s0 := by
    intro c hc
    obtain ⟨i, hi⟩ := List.getElem?_of_mem hc
    obtain ⟨x, c', -, h2, h3, -⟩ := dev i (by rw [← lcs']; exact (List.getElem?_eq_some_iff.1 hi).1)
    rw [hi] at h2; cases h2
    exact h3
  obtain ⟨ps, hps, lps, gps⟩ := mapExcept_all (f := splitStats) (xs := pmean groups cs) (by
    intro c hc
    obtain ⟨m, v, h1, -⟩ := splitStats_spec (pmean_shape shapes c hc)
    exact ⟨_, h1⟩)
  obtain ⟨x, c, hxd, hcd, hcs', hcv⟩ := dev d hd
  have hpm := pmean_get hcd (g := g) (groups := groups) (by rw [lcs']; exact hg)
  obtain ⟨p, hp1, hp2⟩ := gps d _ hpm
  obtain ⟨m, v, s1, s2, s3, s4⟩ := splitStats_spec (c := ⟨c.shape, fun idx =>
    ((g.filterMap fun e => cs[e]?).map fun u => u.val idx).sum / (g.length : 𝕜)⟩) hcs'
  rw [s1] at hp2; cases hp2
  refine ⟨m, v, ?_, s2, s3, fun idx hw => ?_⟩
  · rw [deviceStats, statsAcross, hms]
    simp only [hcs, hps, hp1]
  · obtain ⟨j, r, hpos, -, -⟩ := hcv idx hw
    have hwp := within_pick (b := false) (m := axisMask shape.length (canonicalizeAxes shape.length axes)) hw
    rw [hs, hpos] at hwp
    have e1 : ((g.filterMap fun e => cs[e]?).map fun u => u.val (j :: r)) =
        (g.filterMap fun e => xs[e]?).map fun x => avg ((cell shape kept idx).map x.val) := by
      apply filterMap_map_getElem?
      intro e he
      obtain ⟨x', c', h1, h2, -, h4⟩ := dev e (involves_lt hg e he)
      obtain ⟨j', r', hp', q1, -⟩ := h4 idx hw
      rw [hpos] at hp'; cases hp'
      exact ⟨x', c', h1, h2, q1⟩
    have e2 : ((g.filterMap fun e => cs[e]?).map fun u => u.val ((j + d0) :: r)) =
        (g.filterMap fun e => xs[e]?).map fun x => avg (((cell shape kept idx).map x.val).map fun u => u * u) := by
      apply filterMap_map_getElem?
      intro e he
      obtain ⟨x', c', h1, h2, -, h4⟩ := dev e (involves_lt hg e he)
      obtain ⟨j', r', hp', -, q2⟩ := h4 idx hw
      rw [hpos] at hp'; cases hp'
      exact ⟨x', c', h1, h2, q2⟩
    obtain ⟨t1, t2⟩ := s4 j r hwp
    simp only at t1 t2
    rw [e1] at t1
    rw [e1, e2] at t2
    rw [hpos]
    exact ⟨t1, t2⟩

/-! ### All devices get the same statistics -/

omit [LinearOrder 𝕜] in
theorem jnpMean_shape {x y m m' : Tensor 𝕜} {axes : List Int} (hs : x.shape = y.shape)
    (h : jnpMean x axes = .ok m) (h' : jnpMean y axes = .ok m') : m.shape = m'.shape := by
  rw [jnpMean] at h h'
  rw [hs] at h
  split at h
  · cases h
  · rename_i ax hax
    rw [hax] at h'
    simp only at h h'
    split at h
    · rename_i hnd
      rw [if_pos hnd] at h'
      cases h; cases h'
      rfl
    · cases h

omit [LinearOrder 𝕜] in
theorem localMeans_shape {x y : Tensor 𝕜} {p q : Tensor 𝕜 × Tensor 𝕜} {axes : List Int} (hs : x.shape = y.shape)
    (h : localMeans x axes = .ok p) (h' : localMeans y axes = .ok q) :
    p.1.shape = q.1.shape ∧ p.2.shape = q.2.shape := by
  rw [localMeans] at h h'
  split at h
  · cases h
  · split at h
    · cases h
    · split at h'
      · cases h'
      · split at h'
        · cases h'
        · rename_i e1 _ _ e2 _ _ e3 _ _ e4
          cases h; cases h'
          exact ⟨jnpMean_shape hs e2 e4, jnpMean_shape (x := x.map fun v => v * v) (y := y.map fun v => v * v) hs e1 e3⟩

omit [Field 𝕜] [LinearOrder 𝕜] in
theorem concat0_shape {a b a' b' c c' : Tensor 𝕜} (h1 : a.shape = a'.shape) (h2 : b.shape = b'.shape)
    (h : concat0 a b = .ok c) (h' : concat0 a' b' = .ok c') : c.shape = c'.shape := by
  rw [concat0] at h h'
  rw [h1, h2] at h
  generalize a'.shape = sa at h h'
  generalize b'.shape = sb at h h'
  cases sa with
  | nil => cases h
  | cons d sa =>
    cases sb with
    | nil => cases h
    | cons e sb =>
      simp only at h h'
      split at h
      · rename_i hst
        rw [if_pos hst] at h'
        cases h; cases h'; rfl
      · cases h

theorem mapExcept_get {X Y : Type} {f : X → Except Err Y} : ∀ {xs : List X} {ys : List Y}, mapExcept f xs = .ok ys →
    ys.length = xs.length ∧ ∀ (i : Nat) y, ys[i]? = some y → ∃ x, xs[i]? = some x ∧ f x = .ok y
  | [], ys, h => by cases h; exact ⟨rfl, by simp⟩
  | x :: xs, ys, h => by
    rw [mapExcept] at h
    split at h
    · cases h
    · rename_i y hy
      split at h
      · cases h
      · rename_i ys' hys
        cases h
        obtain ⟨h1, h2⟩ := mapExcept_get hys
        refine ⟨by simp [h1], fun i z hz => ?_⟩
        cases i with
        | zero =>
          simp only [List.getElem?_cons_zero, Option.some.injEq] at hz
          subst hz
          exact ⟨x, by simp, hy⟩
        | succ i =>
          simp only [List.getElem?_cons_succ] at hz ⊢
          exact h2 i z hz

theorem deviceStats_same {xs : List (Tensor 𝕜)} {shape : List Nat} (hx : ∀ x ∈ xs, x.shape = shape) (axes : List Int)
    {d e : Nat} (hd : d < xs.length) (he : e < xs.length) : deviceStats none xs d axes = deviceStats none xs e axes := by
  rw [deviceStats, deviceStats]
  cases hst : statsAcross none xs axes with
  | error err => rfl
  | ok l =>
    simp only
    rw [statsAcross] at hst
    split at hst
    · cases hst
    · rename_i ms hms
      split at hst
      · cases hst
      · rename_i cs hcs
        obtain ⟨l1, g1⟩ := mapExcept_get hms
        obtain ⟨l2, g2⟩ := mapExcept_get hcs
        obtain ⟨l3, g3⟩ := mapExcept_get hst
        have hlen : l.length = xs.length := by rw [l3, pmean, List.length_mapIdx, l2, l1]
        have key : ∀ i, i < xs.length → ∃ c p, cs[i]? = some c ∧ l[i]? = some p ∧
            splitStats ⟨c.shape, fun idx => (((List.range cs.length).filterMap fun e => cs[e]?).map
              fun u => u.val idx).sum / ((List.range cs.length).length : 𝕜)⟩ = .ok p ∧
            ∃ x q, x.shape = shape ∧ localMeans x axes = .ok q ∧ concat0 q.1 q.2 = .ok c := by
          intro i hi
          have hi' : i < l.length := by rw [hlen]; exact hi
          obtain ⟨c', h1, h2⟩ := g3 i _ (List.getElem?_eq_getElem hi')
          rw [pmean, List.getElem?_mapIdx] at h1
          have hci : i < cs.length := by rw [l2, l1]; exact hi
          obtain ⟨q, h3, h4⟩ := g2 i _ (List.getElem?_eq_getElem hci)
          obtain ⟨x, h5, h6⟩ := g1 i q h3
          rw [List.getElem?_eq_getElem hci] at h1
          simp only [Option.map_some, Option.some.injEq, groupOf] at h1
          refine ⟨_, _, List.getElem?_eq_getElem hci, List.getElem?_eq_getElem hi', ?_,
            x, q, hx x (List.mem_of_getElem? h5), h6, h4⟩
          rw [h1]; exact h2
        obtain ⟨c, p, -, p1, p2, x, q, x1, x2, x3⟩ := key d hd
        obtain ⟨c', p', -, p1', p2', x', q', x1', x2', x3'⟩ := key e he
        obtain ⟨s1, s2⟩ := localMeans_shape (x1.trans x1'.symm) x2 x2'
        rw [concat0_shape s1 s2 x3 x3', p2'] at p2
        cases p2
        rw [p1, p1']

omit [LinearOrder 𝕜] in
/-- What a call does to the module depends only on the shape of the input and on the statistics. -/
theorem callWith_module {rsqrt : 𝕜 → 𝕜} {bn : BatchNorm 𝕜} {x y : Tensor 𝕜} {arg flag : Option Bool}
    {st st' : List Int → Except Err (Tensor 𝕜 × Tensor 𝕜)} (hs : x.shape = y.shape) (h : st = st') :
    (bn.callWith rsqrt x arg flag st).1 = (bn.callWith rsqrt y arg flag st').1 := by
  subst h
  rw [BatchNorm.callWith, BatchNorm.callWith, hs]
  cases firstFrom [arg, bn.useRunningAverage, flag] with
  | error e => rfl
  | ok r =>
    simp only
    cases r with
    | true => rfl
    | false =>
      simp only [Bool.false_eq_true, if_false]
      cases st (otherAxes y.shape.length (canonicalizeAxes y.shape.length bn.axis)) with
      | error e => rfl
      | ok p =>
        simp only
        cases emaStep bn.momentum bn.mean p.1 with
        | error e => rfl
        | ok m =>
          simp only
          cases emaStep bn.momentum bn.var p.2 with
          | error e => rfl
          | ok v => rfl

/-! ### The whole batch as one array -/

omit [Field 𝕜] [LinearOrder 𝕜] in
theorem flatMap_filterMap' {X Y Z : Type} (f : X → Option Y) (h : Y → List Z) : ∀ l : List X,
    (l.filterMap f).flatMap h = l.flatMap fun e => match f e with | none => [] | some y => h y
  | [] => rfl
  | e :: l => by
    rw [List.filterMap_cons]
    cases hf : f e with
    | none => simp [hf, flatMap_filterMap' f h l]
    | some y => simp [hf, flatMap_filterMap' f h l]

omit [LinearOrder 𝕜] in
theorem channel_wholeBatch {xs : List (Tensor 𝕜)} {shape : List Nat} (hx : ∀ x ∈ xs, x.shape = shape) (a f : Nat) :
    channel (wholeBatch xs shape) (a + 1) f = together xs (List.range xs.length) fun u => channel u a f := by
  rw [channel, together, flatMap_filterMap']
  show List.map _ (List.filter _ (indices (xs.length :: shape))) = _
  rw [indices, List.filter_flatMap, List.map_flatMap]
  apply List.flatMap_congr
  intro i hi
  have hlt := List.mem_range.1 hi
  rw [List.getElem?_eq_getElem hlt]
  simp only
  rw [channel, hx _ (List.getElem_mem hlt), List.filter_map, List.map_map]
  simp only [Function.comp_def, List.getElem?_cons_succ]
  apply List.map_congr_left
  intro j _
  simp only [wholeBatch, List.getElem?_eq_getElem hlt]

end Nnx
