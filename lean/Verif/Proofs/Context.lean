import Verif.Spec.Context
import Verif.Basic.Tactics
/-
Proofs about RNG contexts: the encoding of counters, and the invariant of histories.
-/
namespace Nnx
variable {κ η : Type}

/-! ### Dictionaries -/

theorem mem_dset_cases {V : Type} : ∀ {d : Dict Str V} {k : Str} {v : V} {x : Str × V}, x ∈ dset d k v → x = (k, v) ∨ x ∈ d := by
  intro d
  induction d with
  | nil => intro k v x h; simpa [dset] using h
  | cons y d ih =>
    intro k v x h
    obtain ⟨a, b⟩ := y
    simp only [dset] at h
    split at h
    · next e =>
      rcases List.mem_cons.1 h with h | h
      · left; rw [h, e]
      · right; simp [h]
    · rcases List.mem_cons.1 h with h | h
      · right; simp [h]
      · rcases ih h with h | h
        · exact .inl h
        · right; simp [h]

theorem mem_dupdate_cases {V : Type} : ∀ {e : List (Str × V)} {d : Dict Str V} {x : Str × V}, x ∈ dupdate d e → x ∈ d ∨ x ∈ e := by
  intro e
  induction e with
  | nil => intro d x h; exact .inl h
  | cons y e ih =>
    intro d x h
    simp only [dupdate, List.foldl_cons] at h
    rcases ih h with h | h
    · rcases mem_dset_cases h with h | h
      · right; simp [h]
      · exact .inl h
    · right; simp [h]

theorem mem_dofList {V : Type} {e : List (Str × V)} {x : Str × V} (h : x ∈ dofList e) : x ∈ e := by
  rcases mem_dupdate_cases h with h | h
  · cases h
  · exact h

theorem dset_map_val {V W : Type} (f : V → W) : ∀ (d : Dict Str V) (k : Str) (v : V),
    dset (d.map (fun kv => (kv.1, f kv.2))) k (f v) = (dset d k v).map (fun kv => (kv.1, f kv.2)) := by
  intro d
  induction d with
  | nil => intros; rfl
  | cons y d ih =>
    intro k v
    simp only [List.map_cons, dset]
    split
    · rfl
    · rw [ih]; rfl

theorem dofList_map_val {V W : Type} (f : V → W) (e : List (Str × V)) :
    dofList (e.map (fun kv => (kv.1, f kv.2))) = (dofList e).map (fun kv => (kv.1, f kv.2)) := by
  have key : ∀ (e : List (Str × V)) (d : Dict Str V), dupdate (d.map (fun kv => (kv.1, f kv.2))) (e.map (fun kv => (kv.1, f kv.2))) =
      (dupdate d e).map (fun kv => (kv.1, f kv.2)) := by
    intro e
    induction e with
    | nil => intro d; rfl
    | cons y e ih =>
      intro d
      simp only [dupdate, List.map_cons, List.foldl_cons]
      rw [dset_map_val]
      exact ih _
  exact key e []

/-! ### The encoding is injective -/

/-- Reading digits, least significant first. -/
def valRev : Str → Nat
  | [] => 0
  | c :: cs => (c.toNat - 48) + 10 * valRev cs

theorem digitChar_toNat {d : Nat} (h : d < 10) : (digitChar d).toNat = 48 + d := by
  unfold digitChar
  have : (48 + d).isValidChar := by left; omega
  rw [Char.ofNat, dif_pos this]
  rfl

theorem valRev_digitsRev (n : Nat) : valRev (digitsRev n) = n := by
  induction n using Nat.strongRecOn with
  | _ n ih =>
    unfold digitsRev
    split
    · next h => simp only [valRev, digitChar_toNat h]; omega
    · next h =>
      simp only [valRev, digitChar_toNat (show n % 10 < 10 by omega)]
      rw [ih (n / 10) (by omega)]
      omega

theorem strNat_inj {m n : Nat} (h : strNat m = strNat n) : m = n := by
  have := List.reverse_inj.1 h
  rw [← valRev_digitsRev m, this, valRev_digitsRev]

theorem digitChar_ne_space {d : Nat} (h : d < 10) : digitChar d ≠ ' ' := by
  intro e
  have := congrArg Char.toNat e
  rw [digitChar_toNat h] at this
  have h2 : (' ' : Char).toNat = 32 := rfl
  omega

theorem digitsRev_no_space (n : Nat) : ' ' ∉ digitsRev n := by
  induction n using Nat.strongRecOn with
  | _ n ih =>
    unfold digitsRev
    split
    · next h => simp only [List.mem_singleton]; exact fun e => digitChar_ne_space h e.symm
    · next h =>
      simp only [List.mem_cons, not_or]
      exact ⟨fun e => digitChar_ne_space (show n % 10 < 10 by omega) e.symm, ih (n / 10) (by omega)⟩

theorem strNat_no_space (n : Nat) : ' ' ∉ strNat n := by
  simp only [strNat, List.mem_reverse]; exact digitsRev_no_space n

theorem append_sep_inj {s : Char} : ∀ {a b r t : Str}, s ∉ a → s ∉ b → a ++ s :: r = b ++ s :: t → a = b ∧ r = t := by
  intro a
  induction a with
  | nil =>
    intro b r t _ hb e
    cases b with
    | nil => simpa using e
    | cons c b =>
      simp only [List.nil_append, List.cons_append, List.cons.injEq] at e
      exact absurd (by simp [e.1]) hb
  | cons x a ih =>
    intro b r t ha hb e
    cases b with
    | nil =>
      simp only [List.nil_append, List.cons_append, List.cons.injEq] at e
      exact absurd (by simp [← e.1]) ha
    | cons c b =>
      simp only [List.cons_append, List.cons.injEq] at e
      obtain ⟨rfl, e⟩ := e
      obtain ⟨rfl, rfl⟩ := ih (fun h => ha (by simp [h])) (fun h => hb (by simp [h])) e
      exact ⟨rfl, rfl⟩

theorem encodeCounts_inj : ∀ {xs ys : List Nat}, xs ≠ [] → ys ≠ [] → encodeCounts xs = encodeCounts ys → xs = ys := by
  intro xs
  induction xs with
  | nil => intro ys h; exact absurd rfl h
  | cons x xs ih =>
    intro ys _ hy e
    cases ys with
    | nil => exact absurd rfl hy
    | cons y ys =>
      cases xs with
      | nil =>
        cases ys with
        | nil => simp only [encodeCounts] at e; rw [strNat_inj e]
        | cons z ys =>
          simp only [encodeCounts] at e
          have := strNat_no_space x
          rw [e] at this
          simp at this
      | cons x' xs =>
        cases ys with
        | nil =>
          simp only [encodeCounts] at e
          have := strNat_no_space y
          rw [← e] at this
          simp at this
        | cons z ys =>
          simp only [encodeCounts] at e
          obtain ⟨e1, e2⟩ := append_sep_inj (strNat_no_space x) (strNat_no_space y) e
          rw [strNat_inj e1, ih (by simp) (by simp) e2]

/-! ### The invariant of histories -/

/-- The fork-tree nodes taken by stream objects. -/
def slots (ss : List (RngStream κ)) : List (κ × List Nat) := ss.map (fun st => (st.key, st.path))

/-- The fork-tree nodes a PureContext stands for. -/
def pureSlots (p : PureContext κ) : List (κ × List Nat) :=
  p.rngCounts.filterMap (fun nc => (dget p.keys nc.1).map (fun k => (k, nc.2)))

/-- Invariant of the streams `ss`, the nodes `ex` of PureContexts not merged yet, and the draws so far. -/
structure RngInv (ss : List (RngStream κ)) (ex : List (κ × List Nat)) (draws : List (κ × Str)) : Prop where
  nodup : (slots ss ++ ex).Nodup
  parent : ∀ k π i, (k, π ++ [i]) ∈ slots ss ++ ex → ∃ st ∈ ss, st.key = k ∧ st.path = π ∧ i < st.count
  known : ∀ k π, (k, π) ∈ ex → ∃ st ∈ ss, st.key = k
  drawn : ∀ k s, (k, s) ∈ draws → ∃ st ∈ ss, ∃ i < st.count, st.key = k ∧ s = encodeCounts (st.path ++ [i])
  draws_nodup : draws.Nodup

theorem slots_bump {ss : List (RngStream κ)} {s : Nat} {st : RngStream κ} (h : ss[s]? = some st) :
    slots (bump ss s st) = slots ss := by
  obtain ⟨hl, rfl⟩ := List.getElem?_eq_some_iff.1 h
  simp only [slots, bump, List.map_set]
  apply List.ext_getElem?
  intro i
  rw [List.getElem?_set]
  split
  · next e =>
    subst e
    rw [if_pos (by simpa using hl)]
    simp [hl]
  · rfl

theorem mem_bump {ss : List (RngStream κ)} {s : Nat} {st x : RngStream κ} (h : ss[s]? = some st) (hx : x ∈ ss) :
    ∃ y ∈ bump ss s st, y.key = x.key ∧ y.path = x.path ∧ x.count ≤ y.count := by
  obtain ⟨i, hi, rfl⟩ := List.getElem_of_mem hx
  obtain ⟨hl, rfl⟩ := List.getElem?_eq_some_iff.1 h
  by_cases e : s = i
  · subst e
    exact ⟨_, List.mem_set hl _, rfl, rfl, Nat.le_succ _⟩
  · refine ⟨ss[i], ?_, rfl, rfl, Nat.le_refl _⟩
    have hi' : i < (bump ss s ss[s]).length := by simpa [bump] using hi
    have : (bump ss s ss[s])[i] = ss[i] := by simp only [bump]; rw [List.getElem_set_ne e]
    rw [← this]; exact List.getElem_mem hi'

theorem bump_self {ss : List (RngStream κ)} {s : Nat} {st : RngStream κ} (h : ss[s]? = some st) :
    { st with count := st.count + 1 } ∈ bump ss s st := by
  obtain ⟨hl, rfl⟩ := List.getElem?_eq_some_iff.1 h
  exact List.mem_set hl _

theorem nodup_slot_eq {ss : List (RngStream κ)} {ex : List (κ × List Nat)} (hn : (slots ss ++ ex).Nodup)
    {x y : RngStream κ} (hx : x ∈ ss) (hy : y ∈ ss) (hk : x.key = y.key) (hp : x.path = y.path) : x = y := by
  have h1 : (slots ss).Nodup := (List.nodup_append.1 hn).1
  obtain ⟨i, hi, rfl⟩ := List.getElem_of_mem hx
  obtain ⟨j, hj, rfl⟩ := List.getElem_of_mem hy
  have hi' : i < (slots ss).length := by simpa [slots] using hi
  have hj' : j < (slots ss).length := by simpa [slots] using hj
  have e : (slots ss)[i] = (slots ss)[j] := by simp [slots, hk, hp]
  have := (List.getElem_inj h1).1 e
  subst this
  rfl

/-- Using a stream once, to draw a key. -/
theorem RngInv.make {ss : List (RngStream κ)} {ex : List (κ × List Nat)} {draws : List (κ × Str)} (I : RngInv ss ex draws)
    {s : Nat} {st : RngStream κ} (h : ss[s]? = some st) :
    RngInv (bump ss s st) ex ((st.key, encodeCounts (st.path ++ [st.count])) :: draws) := by
  have hmem := List.mem_of_getElem? h
  refine ⟨by rw [slots_bump h]; exact I.nodup, ?_, ?_, ?_, ?_⟩
  · intro k π i hm
    rw [slots_bump h] at hm
    obtain ⟨x, hx, a, b, c⟩ := I.parent k π i hm
    obtain ⟨y, hy, d, e, f⟩ := mem_bump h hx
    exact ⟨y, hy, d.trans a, e.trans b, Nat.lt_of_lt_of_le c f⟩
  · intro k π hm
    obtain ⟨x, hx, a⟩ := I.known k π hm
    obtain ⟨y, hy, d, _⟩ := mem_bump h hx
    exact ⟨y, hy, d.trans a⟩
  · intro k t hm
    rcases List.mem_cons.1 hm with e | hm
    · cases e
      exact ⟨_, bump_self h, st.count, Nat.lt_succ_self _, rfl, rfl⟩
    · obtain ⟨x, hx, i, hi, a, b⟩ := I.drawn k t hm
      obtain ⟨y, hy, d, e, f⟩ := mem_bump h hx
      exact ⟨y, hy, i, Nat.lt_of_lt_of_le hi f, d.trans a, by rw [e]; exact b⟩
  · refine List.nodup_cons.2 ⟨?_, I.draws_nodup⟩
    intro hm
    obtain ⟨x, hx, i, hi, a, b⟩ := I.drawn _ _ hm
    have hp := encodeCounts_inj (by simp) (by simp) b
    obtain ⟨hp1, hp2⟩ := List.append_inj' hp rfl
    simp only [List.cons.injEq, and_true] at hp2
    have := nodup_slot_eq I.nodup hx hmem a hp1.symm
    subst this
    omega

/-- Using a stream once, to fork it. -/
theorem RngInv.fork {ss : List (RngStream κ)} {ex : List (κ × List Nat)} {draws : List (κ × Str)} (I : RngInv ss ex draws)
    {s : Nat} {st : RngStream κ} (h : ss[s]? = some st) :
    RngInv (bump ss s st) ((st.key, st.path ++ [st.count]) :: ex) draws := by
  have hmem := List.mem_of_getElem? h
  have hnew : (st.key, st.path ++ [st.count]) ∉ slots ss ++ ex := by
    intro hm
    obtain ⟨x, hx, a, b, c⟩ := I.parent _ _ _ hm
    have := nodup_slot_eq I.nodup hx hmem a b
    subst this
    omega
  refine ⟨?_, ?_, ?_, ?_, I.draws_nodup⟩
  · rw [slots_bump h]
    exact (List.perm_middle.nodup_iff).2 (List.nodup_cons.2 ⟨hnew, I.nodup⟩)
  · intro k π i hm
    rw [slots_bump h] at hm
    rcases List.mem_cons.1 (List.perm_middle.mem_iff.1 hm) with e | hm
    · simp only [Prod.mk.injEq] at e
      obtain ⟨rfl, e⟩ := e
      obtain ⟨rfl, e2⟩ := List.append_inj' e rfl
      simp only [List.cons.injEq, and_true] at e2
      subst e2
      exact ⟨_, bump_self h, rfl, rfl, Nat.lt_succ_self _⟩
    · obtain ⟨x, hx, a, b, c⟩ := I.parent k π i hm
      obtain ⟨y, hy, d, e, f⟩ := mem_bump h hx
      exact ⟨y, hy, d.trans a, e.trans b, Nat.lt_of_lt_of_le c f⟩
  · intro k π hm
    rcases List.mem_cons.1 hm with e | hm
    · cases e
      exact ⟨_, bump_self h, rfl⟩
    · obtain ⟨x, hx, a⟩ := I.known k π hm
      obtain ⟨y, hy, d, _⟩ := mem_bump h hx
      exact ⟨y, hy, d.trans a⟩
  · intro k t hm
    obtain ⟨x, hx, i, hi, a, b⟩ := I.drawn k t hm
    obtain ⟨y, hy, d, e, f⟩ := mem_bump h hx
    exact ⟨y, hy, i, Nat.lt_of_lt_of_le hi f, d.trans a, by rw [e]; exact b⟩

theorem RngInv.perm {ss : List (RngStream κ)} {ex ex' : List (κ × List Nat)} {draws : List (κ × Str)}
    (I : RngInv ss ex draws) (h : ex.Perm ex') : RngInv ss ex' draws := by
  have hm : ∀ x, x ∈ slots ss ++ ex' ↔ x ∈ slots ss ++ ex := fun x => (h.append_left _).symm.mem_iff
  exact ⟨((h.append_left _).nodup_iff).1 I.nodup, fun k π i hx => I.parent k π i ((hm _).1 hx),
    fun k π hx => I.known k π (h.symm.mem_iff.1 hx), I.drawn, I.draws_nodup⟩

theorem RngInv.forkAll : ∀ {rs : List (Str × Nat)} {ss ss' : List (RngStream κ)} {fs : List (Str × RngStream κ)}
    {ex : List (κ × List Nat)} {draws : List (κ × Str)}, RngInv ss ex draws → Nnx.forkAll rs ss = some (ss', fs) →
    RngInv ss' (fs.map (fun kv => (kv.2.key, kv.2.path)) ++ ex) draws ∧ ss'.length = ss.length ∧
      fs.map (·.1) = rs.map (·.1) := by
  intro rs
  induction rs with
  | nil =>
    intro ss ss' fs ex draws I e
    simp only [Nnx.forkAll, Option.some.injEq, Prod.mk.injEq] at e
    obtain ⟨rfl, rfl⟩ := e
    exact ⟨I, rfl, rfl⟩
  | cons x rs ih =>
    intro ss ss' fs ex draws I e
    obtain ⟨n, s⟩ := x
    simp only [Nnx.forkAll] at e
    split at e
    · cases e
    next st hst =>
    split at e
    · cases e
    next ss1 fs1 h1 =>
    simp only [Option.some.injEq, Prod.mk.injEq] at e
    obtain ⟨rfl, rfl⟩ := e
    obtain ⟨I2, hl, hn⟩ := ih (I.fork hst) h1
    refine ⟨?_, by rw [hl]; simp [bump], by simp [hn]⟩
    exact I2.perm List.perm_middle

/-- A PureContext becomes stream objects. -/
theorem RngInv.merge {ss new : List (RngStream κ)} {ex : List (κ × List Nat)} {draws : List (κ × Str)}
    (I : RngInv ss (slots new ++ ex) draws) : RngInv (ss ++ new) ex draws := by
  have hs : slots (ss ++ new) ++ ex = slots ss ++ (slots new ++ ex) := by simp [slots]
  refine ⟨by rw [hs]; exact I.nodup, ?_, ?_, ?_, I.draws_nodup⟩
  · intro k π i hm
    rw [hs] at hm
    obtain ⟨x, hx, a⟩ := I.parent k π i hm
    exact ⟨x, List.mem_append_left _ hx, a⟩
  · intro k π hm
    obtain ⟨x, hx, a⟩ := I.known k π (List.mem_append_right _ hm)
    exact ⟨x, List.mem_append_left _ hx, a⟩
  · intro k t hm
    obtain ⟨x, hx, a⟩ := I.drawn k t hm
    exact ⟨x, List.mem_append_left _ hx, a⟩

/-- A new root stream with a new base key. -/
theorem RngInv.root {ss : List (RngStream κ)} {ex : List (κ × List Nat)} {draws : List (κ × Str)}
    (I : RngInv ss ex draws) {k : κ} (hk : ∀ st ∈ ss, st.key ≠ k) : RngInv (ss ++ [⟨k, 0, []⟩]) ex draws := by
  have hs : slots (ss ++ [⟨k, 0, []⟩]) = slots ss ++ [(k, [])] := by simp [slots]
  refine ⟨?_, ?_, ?_, ?_, I.draws_nodup⟩
  · rw [hs, List.append_assoc]
    refine (List.perm_middle.nodup_iff).2 (List.nodup_cons.2 ⟨?_, I.nodup⟩)
    intro hm
    rcases List.mem_append.1 hm with hm | hm
    · simp only [slots, List.mem_map, Prod.mk.injEq] at hm
      obtain ⟨x, hx, a, _⟩ := hm
      exact hk x hx a
    · obtain ⟨x, hx, a⟩ := I.known _ _ hm
      exact hk x hx a
  · intro j π i hm
    rw [hs, List.append_assoc] at hm
    rcases List.mem_cons.1 (List.perm_middle.mem_iff.1 hm) with e | hm
    · simp at e
    · obtain ⟨x, hx, a⟩ := I.parent j π i hm
      exact ⟨x, List.mem_append_left _ hx, a⟩
  · intro j π hm
    obtain ⟨x, hx, a⟩ := I.known j π hm
    exact ⟨x, List.mem_append_left _ hx, a⟩
  · intro j t hm
    obtain ⟨x, hx, a⟩ := I.drawn j t hm
    exact ⟨x, List.mem_append_left _ hx, a⟩

theorem RngInv.makeStreams (P : RngPrims κ η) : ∀ {rngs : List (Str × RngSpec κ)} {ss : List (RngStream κ)}
    {ex : List (κ × List Nat)} {draws : List (κ × Str)}, RngInv ss ex draws → (newKeys P rngs).Nodup →
    (∀ k ∈ newKeys P rngs, ∀ st ∈ ss, st.key ≠ k) → RngInv (Nnx.makeStreams P rngs ss).1 ex draws := by
  intro rngs
  induction rngs with
  | nil => intro ss ex draws I _ _; exact I
  | cons x rngs ih =>
    intro ss ex draws I hn hk
    have root : ∀ k, (k :: newKeys P rngs).Nodup → (∀ j ∈ k :: newKeys P rngs, ∀ st ∈ ss, st.key ≠ j) →
        RngInv (Nnx.makeStreams P rngs (ss ++ [⟨k, 0, []⟩])).1 ex draws := by
      intro k hn hk
      apply ih (I.root (hk k (by simp))) (List.nodup_cons.1 hn).2
      intro j hj st hst
      rcases List.mem_append.1 hst with h | h
      · exact hk j (by simp [hj]) st h
      · simp only [List.mem_singleton] at h
        subst h
        rintro rfl
        exact (List.nodup_cons.1 hn).1 hj
    obtain ⟨n, sp⟩ := x
    cases sp with
    | seed m => exact root _ hn hk
    | key k => exact root _ hn hk
    | stream s => exact ih I hn hk

theorem mergeStreams_spec {keys : Dict Str κ} : ∀ {counts : List (Str × List Nat)} {base : Nat}
    {ss : List (RngStream κ)} {rs : List (Str × Nat)}, mergeStreams keys counts base = .ok (ss, rs) →
    slots ss = counts.filterMap (fun nc => (dget keys nc.1).map (fun k => (k, nc.2))) ∧
    rs.map (·.1) = counts.map (·.1) ∧ rs.map (·.2) = (List.range' base counts.length) ∧ ss.length = counts.length ∧
    (∀ st ∈ ss, st.count = 0) := by
  intro counts
  induction counts with
  | nil =>
    intro base ss rs e
    simp only [mergeStreams, Except.ok.injEq, Prod.mk.injEq] at e
    obtain ⟨rfl, rfl⟩ := e
    simp [slots]
  | cons x counts ih =>
    intro base ss rs e
    obtain ⟨n, π⟩ := x
    simp only [mergeStreams] at e
    split at e
    · cases e
    next k hk =>
    split at e
    · cases e
    next ss1 rs1 h1 =>
    simp only [Except.ok.injEq, Prod.mk.injEq] at e
    obtain ⟨rfl, rfl⟩ := e
    obtain ⟨a, b, c, d, f⟩ := ih h1
    refine ⟨?_, by simp [b], by simp [c, List.range'_succ], by simp [d], ?_⟩
    · simp only [slots, List.map_cons, List.filterMap_cons, hk, Option.map_some]
      rw [← a]; rfl
    · intro st hst
      rcases List.mem_cons.1 hst with rfl | h
      · rfl
      · exact f st h

theorem pureSlots_of_forks {fs : List (Str × RngStream κ)} (hn : (fs.map (·.1)).Nodup) {flags : List (Str × Bool)} :
    pureSlots ⟨fs.map (fun kv => (kv.1, kv.2.key)), fs.map (fun kv => (kv.1, kv.2.path)), flags⟩ =
      fs.map (fun kv => (kv.2.key, kv.2.path)) := by
  have hnd : DNodup (fs.map (fun kv => (kv.1, kv.2.key))) := by
    unfold DNodup dkeys; rw [List.map_map]; exact hn
  have key : ∀ gs : List (Str × RngStream κ), (∀ x ∈ gs, x ∈ fs) →
      (gs.map (fun kv => (kv.1, kv.2.path))).filterMap
        (fun nc => (dget (fs.map (fun kv => (kv.1, kv.2.key))) nc.1).map (fun k => (k, nc.2))) =
      gs.map (fun kv => (kv.2.key, kv.2.path)) := by
    intro gs
    induction gs with
    | nil => intro _; rfl
    | cons x gs ih =>
      intro h
      have hx := mem_dget hnd (List.mem_map_of_mem (f := fun kv : Str × RngStream κ => (kv.1, kv.2.key)) (h x (by simp)))
      simp only [List.map_cons, List.filterMap_cons]
      rw [hx, ih (fun y hy => h y (by simp [hy]))]
      rfl
  exact key fs (fun _ h => h)

theorem newContext_eq {P : RngPrims κ η} {params : Option (RngSpec κ)} {flags : Dict Str Bool}
    {rngs : List (Str × RngSpec κ)} {w : RngWorld κ} (h : py! "params" ∉ rngs.map (·.1)) :
    newContext P params flags rngs w =
      ({ w with
          streams := (makeStreams P (contextArgs params rngs) w.streams).1,
          ctxs := w.ctxs ++ [⟨dofList (makeStreams P (contextArgs params rngs) w.streams).2, flags, w.curTrace⟩] },
        w.ctxs.length) := by
  cases params with
  | none => rfl
  | some p => simp only [newContext, contextArgs]; rw [dset_of_not_mem h]

/-- The invariant holds in every history, with the keys returned so far being derived from the draws. -/
theorem RngHist.inv {P : RngPrims κ η} {w : RngWorld κ} {pend : List (PureContext κ)} {keys : List κ}
    (h : RngHist P w pend keys) : ∃ draws, RngInv w.streams (pend.flatMap pureSlots) draws ∧
      keys = draws.map (fun d => P.foldIn d.1 (P.hash d.2)) ∧ (∀ ctx ∈ w.ctxs, DNodup ctx.rngs) := by
  induction h with
  | start j s =>
    refine ⟨[], ⟨by simp [slots], by simp [slots], by simp, by simp, by simp⟩, rfl, by simp⟩
  | @create w pend keys params rngs flags _ hg hn hk ih =>
    obtain ⟨draws, I, e, hd⟩ := ih
    refine ⟨draws, ?_, e, ?_⟩
    · rw [newContext_eq hg.noParams]
      exact RngInv.makeStreams P I hn hk
    · intro ctx hm
      rw [newContext_eq hg.noParams] at hm
      simp only [List.mem_append, List.mem_singleton] at hm
      rcases hm with hm | rfl
      · exact hd ctx hm
      · exact dnodup_dofList _
  | @make w pend keys c name w' k _ hm ih =>
    obtain ⟨draws, I, e, hd⟩ := ih
    unfold makeRng at hm
    split at hm
    · simp at hm
    · split at hm
      · simp at hm
      · split at hm
        · split at hm
          · simp at hm
          · next st hst =>
            simp only [Prod.mk.injEq, Except.ok.injEq] at hm
            obtain ⟨rfl, rfl⟩ := hm
            exact ⟨_, I.make hst, by simp [e], hd⟩
        · simp at hm
  | @partition w pend keys c w' p _ hm ih =>
    obtain ⟨draws, I, e, hd⟩ := ih
    unfold partitionCtx at hm
    split at hm
    · simp at hm
    · next ctx hctx =>
      split at hm
      · split at hm
        · simp at hm
        · next ss fs hf =>
          simp only [Prod.mk.injEq, Except.ok.injEq] at hm
          obtain ⟨rfl, rfl⟩ := hm
          obtain ⟨I2, _, hnames⟩ := I.forkAll hf
          refine ⟨draws, ?_, e, hd⟩
          rw [List.flatMap_cons, pureSlots_of_forks (by
            rw [hnames]; exact hd ctx (List.mem_of_getElem? hctx))]
          exact I2
      · simp at hm
  | @merge w pend keys p pend' w' c _ hp hm ih =>
    obtain ⟨draws, I, e, hd⟩ := ih
    unfold mergeCtx at hm
    split at hm
    · simp at hm
    · next ss rs hms =>
      simp only [Prod.mk.injEq, Except.ok.injEq] at hm
      obtain ⟨rfl, rfl⟩ := hm
      have hs := (mergeStreams_spec hms).1
      refine ⟨draws, ?_, e, ?_⟩
      · apply RngInv.merge
        have : pend.flatMap pureSlots |>.Perm (pureSlots p ++ pend'.flatMap pureSlots) := by
          rw [← List.flatMap_cons]
          exact hp.flatMap_right _
        rw [hs]
        exact I.perm this
      · intro ctx hm
        simp only [List.mem_append, List.mem_singleton] at hm
        rcases hm with hm | rfl
        · exact hd ctx hm
        · exact dnodup_dofList _
  | @copy w pend keys c w' c' _ hm ih =>
    obtain ⟨draws, I, e, hd⟩ := ih
    unfold copyCtx at hm
    split at hm
    · simp at hm
    · next ctx hctx =>
      simp only [Prod.mk.injEq, Except.ok.injEq] at hm
      obtain ⟨rfl, rfl⟩ := hm
      refine ⟨draws, I, e, ?_⟩
      intro x hx
      simp only [List.mem_append, List.mem_singleton] at hx
      rcases hx with hx | rfl
      · exact hd x hx
      · exact hd ctx (List.mem_of_getElem? hctx)
  | trace j s _ ih => exact ih

end Nnx
