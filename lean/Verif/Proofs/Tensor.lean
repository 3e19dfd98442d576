import Verif.Spec.Nn
import Verif.Model.Normalization
import Verif.Basic.Tactics
import Mathlib.Tactic.Ring
import Mathlib.Tactic.FieldSimp
import Mathlib.Tactic.Linarith
import Mathlib.Algebra.BigOperators.Group.List.Basic

/-! Facts about shapes, positions and reductions. -/

namespace Nnx

theorem within_length {idx s : List Nat} (h : Within idx s) : idx.length = s.length := List.Forall₂.length_eq h

theorem mem_indices : ∀ {s idx : List Nat}, idx ∈ indices s ↔ Within idx s
  | [], idx => by
    simp only [indices, List.mem_singleton, Within]
    constructor
    · rintro rfl; exact .nil
    · intro h; cases h; rfl
  | d :: s, idx => by
    simp only [indices, List.mem_flatMap, List.mem_range, List.mem_map]
    constructor
    · rintro ⟨i, hi, j, hj, rfl⟩
      exact .cons hi (mem_indices.1 hj)
    · intro h
      cases h with
      | cons h1 h2 => exact ⟨_, h1, _, mem_indices.2 h2, rfl⟩

theorem flatMap_length_const {A B : Type} (f : A → List B) (n : Nat) :
    ∀ (l : List A), (∀ a ∈ l, (f a).length = n) → (l.flatMap f).length = l.length * n
  | [], _ => by simp
  | a :: l, h => by
    simp only [List.flatMap_cons, List.length_append, List.length_cons]
    rw [h a (by simp), flatMap_length_const f n l (fun a ha => h a (by simp [ha]))]
    ring

theorem length_indices : ∀ (s : List Nat), (indices s).length = size s
  | [] => rfl
  | d :: s => by
    rw [indices, flatMap_length_const _ (size s), List.length_range, size]
    intro a _
    rw [List.length_map, length_indices s]

theorem ravel_lt : ∀ {s idx : List Nat}, Within idx s → ravel s idx < size s
  | [], _, h => by cases h; simp [ravel, size]
  | d :: s, _, h => by
    cases h with
    | @cons i _ idx _ h1 h2 =>
      have := ravel_lt (s := s) h2
      simp only [ravel, size]
      calc i * size s + ravel s idx < i * size s + size s := by omega
        _ = (i + 1) * size s := by ring
        _ ≤ d * size s := Nat.mul_le_mul_right _ h1

theorem unravel_ravel : ∀ {s idx : List Nat}, Within idx s → unravel s (ravel s idx) = idx
  | [], _, h => by cases h; rfl
  | d :: s, _, h => by
    cases h with
    | @cons i _ idx _ h1 h2 =>
      have hlt := ravel_lt (s := s) h2
      have hpos : 0 < size s := Nat.lt_of_le_of_lt (Nat.zero_le _) hlt
      simp only [ravel, unravel]
      rw [Nat.mul_comm, Nat.mul_add_div hpos, Nat.div_eq_of_lt hlt, Nat.mul_add_mod, Nat.mod_eq_of_lt hlt,
        unravel_ravel h2]
      simp

theorem size_append : ∀ (s t : List Nat), size (s ++ t) = size s * size t
  | [], t => by simp [size]
  | d :: s, t => by simp only [List.cons_append, size, size_append s t]; ring

theorem ravel_append : ∀ {s i : List Nat} (t j : List Nat), s.length = i.length →
    ravel (s ++ t) (i ++ j) = ravel s i * size t + ravel t j
  | [], [], t, j, _ => by simp [ravel]
  | d :: s, a :: i, t, j, h => by
    simp only [List.cons_append, ravel]
    rw [ravel_append t j (by simpa using h), size_append]
    ring

/-! ### masks -/

/-- The shape with 1 where the mask is set. -/
def onesAt (m : List Bool) (s : List Nat) : List Nat := List.zipWith (fun b d => if b then 1 else d) m s

theorem size_onesAt : ∀ {m : List Bool} {s : List Nat}, m.length = s.length →
    size (onesAt m s) = size (pick false m s)
  | [], [], _ => rfl
  | b :: m, d :: s, h => by
    have ih := size_onesAt (m := m) (s := s) (by simpa using h)
    simp only [onesAt] at ih
    cases b <;> simp [onesAt, size, pick, ih]

theorem ravel_onesAt : ∀ {m : List Bool} {s idx : List Nat}, m.length = s.length → Within idx s →
    ravel (onesAt m s) (clip (onesAt m s) idx) = ravel (pick false m s) (pick false m idx)
  | [], _, _, h, hw => by
    cases hw with
    | nil => rfl
    | cons => simp at h
  | b :: m, _, _, h, hw => by
    cases hw with
    | nil => simp at h
    | @cons i d idx s h1 h2 =>
      have ih := ravel_onesAt (m := m) (s := s) (idx := idx) (by simpa using h) h2
      have hs := size_onesAt (m := m) (s := s) (by simpa using h)
      simp only [onesAt, clip] at ih hs ⊢
      cases b
      · simp only [List.zipWith_cons_cons, ravel, Bool.false_eq_true, if_false, pick, if_true, ih, hs]
        by_cases hd : d = 1
        · subst hd
          have : i = 0 := by omega
          subst this; simp
        · simp [hd]
      · simp [ravel, pick, ih]

theorem within_pick : ∀ {b : Bool} {m : List Bool} {s idx : List Nat}, Within idx s →
    Within (pick b m idx) (pick b m s)
  | _, [], _, _, _ => by simp only [pick]; exact .nil
  | b, c :: m, _, _, hw => by
    cases hw with
    | nil => simp only [pick]; exact .nil
    | cons h1 h2 =>
      simp only [pick]
      split
      · exact .cons h1 (within_pick h2)
      · exact within_pick h2

/-- Agreement where the mask is not set. -/
def agree : List Bool → List Nat → List Nat → Bool
  | b :: m, i :: is, j :: js => (b || decide (j = i)) && agree m is js
  | _, _, _ => true

theorem filter_range_eq {B : Type} (g : Nat → List B) : ∀ (d i : Nat), i < d →
    (List.range d).flatMap (fun a => if a = i then g a else []) = g i
  | 0, _, h => absurd h (Nat.not_lt_zero _)
  | d + 1, i, h => by
    rw [List.range_succ, List.flatMap_append]
    simp only [List.flatMap_cons, List.flatMap_nil, List.append_nil]
    by_cases hi : d = i
    · subst hi
      rw [if_pos rfl]
      have : (List.range d).flatMap (fun a => if a = d then g a else []) = [] := by
        rw [List.flatMap_eq_nil_iff]
        intro a ha
        have := List.mem_range.1 ha
        rw [if_neg (by omega)]
      rw [this]; simp
    · rw [filter_range_eq g d i (by omega), if_neg hi]; simp

/-- The positions read by a reduction are those that agree on the axes that are kept. -/
theorem weave_indices : ∀ {m : List Bool} {s idx : List Nat}, m.length = s.length → Within idx s →
    (indices (pick true m s)).map (weave m (pick false m idx)) = (indices s).filter (agree m idx)
  | [], _, _, h, hw => by
    cases hw with
    | nil => rfl
    | cons => simp at h
  | b :: m, _, _, h, hw => by
    cases hw with
    | nil => simp at h
    | @cons i d idx s h1 h2 =>
      have ih := weave_indices (m := m) (s := s) (idx := idx) (by simpa using h) h2
      cases b
      · have e1 : pick true (false :: m) (d :: s) = pick true m s := by simp [pick]
        have e2 : pick false (false :: m) (i :: idx) = i :: pick false m idx := by simp [pick]
        rw [e1, e2, indices, List.filter_flatMap]
        have e3 : ∀ a, ((indices s).map (a :: ·)).filter (agree (false :: m) (i :: idx)) =
            if a = i then ((indices s).filter (agree m idx)).map (a :: ·) else [] := by
          intro a
          rw [List.filter_map]
          by_cases ha : a = i
          · rw [if_pos ha]; congr 1; apply List.filter_congr; intro j _; simp [agree, ha]
          · rw [if_neg ha, List.map_eq_nil_iff, List.filter_eq_nil_iff]; intro j _; simp [agree, ha]
        simp only [e3]
        rw [filter_range_eq (fun a => ((indices s).filter (agree m idx)).map (a :: ·)) d i h1, ← ih, List.map_map]
        apply List.map_congr_left; intro r _; rfl
      · have e1 : pick true (true :: m) (d :: s) = d :: pick true m s := by simp [pick]
        have e2 : pick false (true :: m) (i :: idx) = pick false m idx := by simp [pick]
        rw [e1, e2, indices, indices, List.filter_flatMap, List.map_flatMap]
        congr 1; funext a
        rw [List.map_map, List.filter_map]
        have e4 : (agree (true :: m) (i :: idx) ∘ fun x => a :: x) = agree m idx := by
          funext j; simp [agree]
        rw [e4, ← ih, List.map_map]
        apply List.map_congr_left; intro r _; rfl

theorem agree_iff : ∀ {m : List Bool} {i j : List Nat}, m.length = i.length → m.length = j.length →
    (agree m i j = true ↔ ∀ a, a < m.length → m[a]? = some false → j[a]? = i[a]?)
  | [], _, _, _, _ => by simp [agree]
  | b :: m, i :: is, j :: js, h1, h2 => by
    simp only [agree, Bool.and_eq_true, Bool.or_eq_true, decide_eq_true_eq]
    rw [agree_iff (m := m) (i := is) (j := js) (by simpa using h1) (by simpa using h2)]
    constructor
    · rintro ⟨ha, hb⟩ a hlt hm
      cases a with
      | zero =>
        simp only [List.getElem?_cons_zero, Option.some.injEq] at hm ⊢
        subst hm; simpa using ha
      | succ a =>
        simp only [List.getElem?_cons_succ, List.length_cons] at hm hlt ⊢
        exact hb a (by omega) hm
    · intro hall
      refine ⟨?_, fun a hlt hm => ?_⟩
      · cases b
        · have := hall 0 (by simp) (by simp)
          simp only [List.getElem?_cons_zero, Option.some.injEq] at this
          exact Or.inr this
        · exact Or.inl rfl
      · have := hall (a + 1) (by simp; omega) (by simpa using hm)
        simpa using this

theorem axisMask_length (n : Nat) (axes : List Int) : (axisMask n axes).length = n := by simp [axisMask]

theorem axisMask_getElem (n : Nat) (axes : List Int) (a : Nat) (h : a < n) :
    (axisMask n axes)[a]? = some (decide ((a : Int) ∈ axes)) := by
  simp [axisMask, h]

/-- The reduction over the listed axes reads exactly the cell of positions that agree on the others. -/
theorem weave_cell {s idx : List Nat} {axes : List Int} (hw : Within idx s) (kept : Nat → Prop) [DecidablePred kept]
    (hk : ∀ a, a < s.length → (kept a ↔ (a : Int) ∉ axes)) :
    (indices (pick true (axisMask s.length axes) s)).map
      (weave (axisMask s.length axes) (pick false (axisMask s.length axes) idx)) = cell s kept idx := by
  rw [weave_indices (axisMask_length _ _) hw, cell]
  apply List.filter_congr
  intro j hj
  have hj := within_length (mem_indices.1 hj)
  have hi := within_length hw
  rw [Bool.eq_iff_iff, agree_iff (by rw [axisMask_length, hi]) (by rw [axisMask_length, hj]), decide_eq_true_eq,
    axisMask_length]
  constructor
  · intro h a ha hka
    exact h a ha (by rw [axisMask_getElem _ _ _ ha]; simpa using (hk a ha).1 hka)
  · intro h a ha hma
    rw [axisMask_getElem _ _ _ ha] at hma
    exact h a ha ((hk a ha).2 (by simpa using hma))

theorem self_mem_cell {s idx : List Nat} (hw : Within idx s) (kept : Nat → Prop) [DecidablePred kept] :
    idx ∈ cell s kept idx := by
  simp [cell, mem_indices, hw]

/-! ### broadcasting among arrays of one rank -/

theorem onesAt_length {m : List Bool} {s : List Nat} (h : m.length = s.length) : (onesAt m s).length = s.length := by
  simp [onesAt, h]

theorem broadcastRev_ones : ∀ {m n : List Bool} {s : List Nat}, m.length = s.length → n.length = s.length →
    broadcastRev (onesAt m s) (onesAt n s) = .ok (onesAt (List.zipWith (fun a b => a && b) m n) s)
  | [], [], [], _, _ => rfl
  | [], _ :: _, [], _, h => by simp at h
  | _ :: _, [], _ :: _, _, h => by simp at h
  | a :: m, b :: n, d :: s, h1, h2 => by
    have ih := broadcastRev_ones (m := m) (n := n) (s := s) (by simpa using h1) (by simpa using h2)
    simp only [onesAt] at ih
    cases a <;> cases b <;> simp [onesAt, broadcastRev, ih]
    exact fun h => h.symm

theorem onesAt_reverse {m : List Bool} {s : List Nat} (h : m.length = s.length) :
    (onesAt m s).reverse = onesAt m.reverse s.reverse := by
  simp only [onesAt]
  rw [List.reverse_zipWith h]

theorem broadcastShape_ones {m n : List Bool} {s : List Nat} (h1 : m.length = s.length) (h2 : n.length = s.length) :
    broadcastShape (onesAt m s) (onesAt n s) = .ok (onesAt (List.zipWith (fun a b => a && b) m n) s) := by
  rw [broadcastShape, onesAt_reverse h1, onesAt_reverse h2, broadcastRev_ones (by simpa using h1) (by simpa using h2),
    ← List.reverse_zipWith (by rw [h1, h2]), ← onesAt_reverse (by simp [h1, h2])]
  simp

/-- The mask that is nowhere set. -/
def noMask (s : List Nat) : List Bool := List.replicate s.length false

theorem noMask_length (s : List Nat) : (noMask s).length = s.length := by simp [noMask]

theorem onesAt_noMask : ∀ (s : List Nat), onesAt (noMask s) s = s
  | [] => rfl
  | d :: s => by
    have ih := onesAt_noMask s
    simp only [onesAt, noMask] at ih
    simp [onesAt, noMask, List.replicate_succ, ih]

theorem noMask_and : ∀ {m : List Bool} {s : List Nat}, m.length = s.length →
    List.zipWith (fun a b => a && b) (noMask s) m = noMask s
  | [], [], _ => rfl
  | b :: m, d :: s, h => by
    have ih := noMask_and (m := m) (s := s) (by simpa using h)
    simp only [noMask] at ih
    simp [noMask, List.replicate_succ, ih]

theorem broadcastShape_left {m : List Bool} {s : List Nat} (h : m.length = s.length) :
    broadcastShape s (onesAt m s) = .ok s := by
  have := broadcastShape_ones (s := s) (noMask_length s) h
  rw [noMask_and h, onesAt_noMask] at this
  exact this

theorem bget_same {V : Type} (t : Tensor V) {idx : List Nat} (h : idx.length = t.shape.length) :
    t.bget idx = t.val (clip t.shape idx) := by
  simp [Tensor.bget, h]

theorem clip_within : ∀ {s idx : List Nat}, Within idx s → clip s idx = idx
  | [], _, h => by cases h; rfl
  | d :: s, _, h => by
    cases h with
    | @cons i _ idx _ h1 h2 =>
      have ih := clip_within h2
      simp only [clip] at ih
      simp only [clip, List.zipWith_cons_cons, ih]
      by_cases hd : d = 1
      · subst hd; have : i = 0 := by omega
        simp [this]
      · simp [hd]

theorem clip_ones_of_sub : ∀ {m n : List Bool} {s idx : List Nat}, Within idx s → m.length = s.length → n.length = s.length →
    (∀ a : Nat, n[a]? = some true → m[a]? = some true) → clip (onesAt m s) (clip (onesAt n s) idx) = clip (onesAt m s) idx
  | [], [], _, _, h, h1, _, _ => by
    cases h with
    | nil => rfl
    | cons => simp at h1
  | [], _ :: _, _, _, _, h1, h2, _ => by
    rw [← h1] at h2; simp at h2
  | _ :: _, [], _, _, _, h1, h2, _ => by
    rw [← h1] at h2; simp at h2
  | a :: m, b :: n, _, _, h, h1, h2, hs => by
    cases h with
    | nil => simp at h1
    | @cons i d idx s hh h =>
      have ih := clip_ones_of_sub (m := m) (n := n) h (by simpa using h1) (by simpa using h2)
        (fun k hk => by have := hs (k + 1) (by simpa using hk); simpa using this)
      simp only [clip, onesAt] at ih
      simp only [clip, onesAt, List.zipWith_cons_cons, ih]
      have h0 := hs 0
      simp only [List.getElem?_cons_zero, Option.some.injEq] at h0
      congr 1
      cases a <;> cases b <;> simp at h0 ⊢
      intro h1 h2; exact absurd h1 h2

/-! ### axes -/

theorem pySetAll_one : ∀ {axes : List Int} {s : List Nat}, (∀ a ∈ axes, 0 ≤ a ∧ a < s.length) →
    pySetAll 1 axes s = .ok (onesAt (axisMask s.length axes) s)
  | [], s, _ => by
    have : axisMask s.length ([] : List Int) = noMask s := by
      simp only [axisMask, noMask]; apply List.ext_getElem <;> simp
    rw [this, onesAt_noMask]; rfl
  | a :: axes, s, h => by
    obtain ⟨h0, h1⟩ := h a (by simp)
    rw [pySetAll, pySet, if_pos ⟨h0, h1⟩]
    have hl : (s.set a.toNat 1).length = s.length := by simp
    show pySetAll 1 axes (s.set a.toNat 1) = _
    rw [pySetAll_one (by intro b hb; rw [hl]; exact h b (by simp [hb])), hl]
    congr 1
    apply List.ext_getElem
    · simp [onesAt, axisMask]
    · intro n hn1 hn2
      simp only [onesAt, axisMask, List.getElem_zipWith, List.getElem_map, List.getElem_range, List.getElem_set,
        List.mem_cons, decide_eq_true_eq]
      by_cases hna : (n : Int) = a
      · have : a.toNat = n := by omega
        simp [hna, this]
      · have : ¬ a.toNat = n := by omega
        simp [hna, this]

theorem pyGet_ok {s : List Nat} {a : Int} (h0 : 0 ≤ a) (h1 : a < s.length) :
    featureShape.pyGet s a = .ok (s[a.toNat]'(by omega)) := by
  have hn : ¬ a < 0 := by omega
  have hlt : a.toNat < s.length := by omega
  simp [featureShape.pyGet, hn, List.getElem?_eq_getElem hlt]

theorem featureShape_aux : ∀ {axes : List Int} {s fs : List Nat} (p : List Int), fs.length = s.length →
    (∀ a ∈ axes, 0 ≤ a ∧ a < s.length) →
    fs = onesAt (axisMask s.length p |>.map not) s →
    featureShape s axes fs = .ok (onesAt ((axisMask s.length (axes ++ p)).map not) s)
  | [], s, fs, p, _, _, h => by rw [featureShape, h]; rfl
  | a :: axes, s, fs, p, hl, h, hf => by
    obtain ⟨h0, h1⟩ := h a (by simp)
    rw [featureShape, pyGet_ok h0 h1]
    simp only
    rw [pySet, if_pos ⟨h0, by rw [hl]; exact h1⟩]
    simp only
    rw [featureShape_aux (a :: p) (by simp [hl]) (fun b hb => h b (by simp [hb]))]
    · congr 3
      simp only [axisMask]
      apply List.map_congr_left
      intro n _
      rw [decide_eq_decide]
      simp only [List.mem_append, List.mem_cons]
      tauto
    · subst hf
      apply List.ext_getElem
      · simp [onesAt, axisMask]
      · intro n hn1 hn2
        simp only [onesAt, axisMask, List.getElem_zipWith, List.getElem_map, List.getElem_range, List.getElem_set,
          List.mem_cons]
        by_cases hna : (n : Int) = a
        · have : a.toNat = n := by omega
          simp [hna, this]
        · have : ¬ a.toNat = n := by omega
          simp [hna, this]

theorem featureShape_spec {axes : List Int} {s : List Nat} (h : ∀ a ∈ axes, 0 ≤ a ∧ a < s.length) :
    featureShape s axes (s.map fun _ => 1) = .ok (onesAt ((axisMask s.length axes).map not) s) := by
  rw [featureShape_aux [] (by simp) h, List.append_nil]
  apply List.ext_getElem
  · simp [onesAt, axisMask]
  · intro n hn1 hn2; simp [onesAt, axisMask]

theorem pick_not : ∀ (m : List Bool) (s : List Nat), pick false (m.map not) s = pick true m s
  | [], s => by simp [pick]
  | b :: m, [] => by simp [pick]
  | b :: m, d :: s => by cases b <;> simp [pick, pick_not m s]

theorem mem_dedup : ∀ {l : List Int} {a : Int}, a ∈ dedup l ↔ a ∈ l
  | [], a => by simp [dedup]
  | b :: l, a => by
    simp only [dedup, List.mem_cons, List.mem_filter, mem_dedup (l := l), decide_eq_true_eq]
    tauto

theorem nodup_dedup : ∀ (l : List Int), (dedup l).Nodup
  | [] => by simp [dedup]
  | b :: l => by
    rw [dedup, List.nodup_cons]
    refine ⟨by simp, (nodup_dedup l).filter _⟩

theorem mem_canonicalizeAxes {rank : Nat} {axes : List Int} {a : Int} :
    a ∈ canonicalizeAxes rank axes ↔ ∃ b ∈ axes, a = if b < 0 then rank + b else b := by
  rw [canonicalizeAxes, mem_dedup, List.mem_map]
  constructor
  · rintro ⟨b, hb, rfl⟩; exact ⟨b, hb, rfl⟩
  · rintro ⟨b, hb, rfl⟩; exact ⟨b, hb, rfl⟩

theorem dedup_of_nodup : ∀ {l : List Int}, l.Nodup → dedup l = l
  | [], _ => rfl
  | a :: l, h => by
    rw [List.nodup_cons] at h
    rw [dedup, dedup_of_nodup h.2, List.filter_eq_self.2]
    intro b hb
    simp only [decide_eq_true_eq]
    rintro rfl; exact h.1 hb

theorem canonicalizeAxes_id {rank : Nat} {axes : List Int} (h : axes.Nodup) (hr : ∀ a ∈ axes, 0 ≤ a) :
    canonicalizeAxes rank axes = axes := by
  rw [canonicalizeAxes]
  have : (axes.map fun a => if a < 0 then (rank : Int) + a else a) = axes := by
    rw [List.map_congr_left (g := id), List.map_id]
    intro a ha
    have := hr a ha
    rw [if_neg (by omega)]; rfl
  rw [this, dedup_of_nodup h]

theorem mem_otherAxes {rank : Nat} {axes : List Int} {a : Int} :
    a ∈ otherAxes rank axes ↔ (0 ≤ a ∧ a < rank) ∧ a ∉ axes := by
  simp only [otherAxes, List.mem_filter, List.mem_map, List.mem_range, decide_eq_true_eq]
  constructor
  · rintro ⟨⟨n, hn, rfl⟩, h⟩; exact ⟨⟨by omega, by omega⟩, h⟩
  · rintro ⟨⟨h0, h1⟩, h⟩; exact ⟨⟨a.toNat, by omega, by omega⟩, h⟩

theorem nodup_otherAxes (rank : Nat) (axes : List Int) : (otherAxes rank axes).Nodup := by
  rw [otherAxes]
  refine List.Pairwise.filter _ ?_
  rw [List.pairwise_map]
  exact List.Pairwise.imp (fun h => by simpa using h) List.nodup_range

theorem mapExcept_normAxis {rank : Nat} : ∀ {axes : List Int}, (∀ a ∈ axes, -(rank : Int) ≤ a ∧ a < rank) →
    mapExcept (normAxis rank) axes = .ok (axes.map fun a => if a < 0 then rank + a else a)
  | [], _ => rfl
  | a :: axes, h => by
    have ha := h a (by simp)
    rw [mapExcept, mapExcept_normAxis (fun b hb => h b (by simp [hb])), normAxis]
    by_cases h0 : a < 0
    · rw [if_neg (by omega), if_pos ⟨ha.1, h0⟩]; simp [h0]
    · rw [if_pos ⟨by omega, ha.2⟩]; simp [h0]

end Nnx
