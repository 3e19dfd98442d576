import Verif.Basic.Str
/-
Python's `dict` (insertion ordered) and `sorted(..., key=...)` (stable).
-/
namespace Nnx

set_option linter.unusedSectionVars false

/-- A Python dict: insertion-ordered association list. -/
abbrev Dict (K V : Type _) := List (K × V)

variable {K : Type _} {V : Type _} [DecidableEq K]

/-- `d.get(k)` -/
def dget : Dict K V → K → Option V
  | [], _ => none
  | (k', v) :: d, k => if k' = k then some v else dget d k

/-- `k in d` -/
def dhas (d : Dict K V) (k : K) : Bool := (dget d k).isSome

/-- `d[k] = v`: an existing key keeps its position, a new key goes last. -/
def dset : Dict K V → K → V → Dict K V
  | [], k, v => [(k, v)]
  | (k', v') :: d, k, v => if k' = k then (k', v) :: d else (k', v') :: dset d k v

/-- `del d[k]` (for a key that is present) -/
def ddel : Dict K V → K → Dict K V
  | [], _ => []
  | (k', v') :: d, k => if k' = k then d else (k', v') :: ddel d k

/-- `d.update(e)` for a mapping or a sequence of pairs `e`. -/
def dupdate (d : Dict K V) (e : List (K × V)) : Dict K V :=
  e.foldl (fun d kv => dset d kv.1 kv.2) d

/-- `dict(pairs)` -/
def dofList (e : List (K × V)) : Dict K V := dupdate [] e

/-- `d.keys()` -/
abbrev dkeys (d : Dict K V) : List K := d.map (·.1)

/-- The representation invariant of a dict: no key occurs twice. -/
def DNodup (d : Dict K V) : Prop := (dkeys d).Nodup

instance (d : Dict K V) : Decidable (DNodup d) := inferInstanceAs (Decidable (dkeys d).Nodup)

/-- Python's `d == e` on dicts: the same key/value pairs, order irrelevant. -/
def DEq (d e : Dict K V) : Prop := ∀ k, dget d k = dget e k

theorem dget_dset (d : Dict K V) (k : K) (v : V) (k' : K) :
    dget (dset d k v) k' = if k = k' then some v else dget d k' := by
  induction d with
  | nil => simp [dset, dget]
  | cons kv d ih =>
    obtain ⟨a, b⟩ := kv
    simp only [dset]
    split
    · next h => subst h; simp only [dget]; split <;> rfl
    · next h =>
      simp only [dget, ih]
      split
      · next h2 =>
        subst h2
        rw [if_neg (fun e => h e.symm)]
      · rfl

theorem dget_dset_self (d : Dict K V) (k : K) (v : V) : dget (dset d k v) k = some v := by
  simp [dget_dset]

theorem dget_dset_ne (d : Dict K V) {k k' : K} (v : V) (h : k ≠ k') :
    dget (dset d k v) k' = dget d k' := by
  simp [dget_dset, h]

theorem mem_dkeys_dset (d : Dict K V) (k : K) (v : V) (x : K) :
    x ∈ dkeys (dset d k v) ↔ x = k ∨ x ∈ dkeys d := by
  induction d with
  | nil => simp [dset]
  | cons kv d ih =>
    obtain ⟨a, b⟩ := kv
    simp only [dset]
    split
    · next h => subst h; simp
    · simp only [dkeys, List.map_cons, List.mem_cons] at ih ⊢
      rw [ih]; tauto

theorem dnodup_dset {d : Dict K V} (h : DNodup d) (k : K) (v : V) : DNodup (dset d k v) := by
  induction d with
  | nil => simp [dset, DNodup]
  | cons kv d ih =>
    obtain ⟨a, b⟩ := kv
    simp only [DNodup, List.map_cons, List.nodup_cons] at h ih
    simp only [dset]
    split
    · next e => subst e; simpa [DNodup] using h
    · next e =>
      simp only [DNodup, List.map_cons, List.nodup_cons]
      refine ⟨?_, ih h.2⟩
      intro hm
      have := (mem_dkeys_dset d k v a).1 hm
      rcases this with h1 | h1
      · exact e h1
      · exact h.1 h1

theorem dnodup_dupdate {d : Dict K V} (h : DNodup d) (e : List (K × V)) : DNodup (dupdate d e) := by
  induction e generalizing d with
  | nil => simpa [dupdate] using h
  | cons kv e ih =>
    simp only [dupdate, List.foldl_cons] at ih ⊢
    exact ih (dnodup_dset h _ _)

theorem dnodup_dofList (e : List (K × V)) : DNodup (dofList e) :=
  dnodup_dupdate (d := []) (by simp [DNodup]) e

theorem dget_eq_none {d : Dict K V} {k : K} : dget d k = none ↔ k ∉ dkeys d := by
  induction d with
  | nil => simp [dget]
  | cons kv d ih =>
    obtain ⟨a, b⟩ := kv
    simp only [dget]
    split
    · next h => simp [h]
    · next h =>
      simp only [dkeys, List.map_cons, List.mem_cons, not_or] at ih ⊢
      rw [ih]
      constructor
      · exact fun x => ⟨fun e => h e.symm, x⟩
      · exact fun x => x.2

theorem dget_isSome {d : Dict K V} {k : K} : (dget d k).isSome ↔ k ∈ dkeys d := by
  have := dget_eq_none (d := d) (k := k)
  cases h : dget d k with
  | none => simp [h] at this ⊢; exact this
  | some v => simp [h] at this ⊢; exact this

theorem dget_mem {d : Dict K V} {k : K} {v : V} (h : dget d k = some v) : (k, v) ∈ d := by
  induction d with
  | nil => simp [dget] at h
  | cons kv d ih =>
    obtain ⟨a, b⟩ := kv
    simp only [dget] at h
    split at h
    · next e => subst e; simp at h; subst h; simp
    · simp [ih h]

theorem mem_dget {d : Dict K V} (hn : DNodup d) {k : K} {v : V} (h : (k, v) ∈ d) :
    dget d k = some v := by
  induction d with
  | nil => simp at h
  | cons kv d ih =>
    obtain ⟨a, b⟩ := kv
    simp only [DNodup, List.map_cons, List.nodup_cons] at hn ih
    simp only [dget]
    simp only [List.mem_cons, Prod.mk.injEq] at h
    rcases h with ⟨rfl, rfl⟩ | h
    · simp
    · have : a ≠ k := by
        intro e; subst e
        exact hn.1 (List.mem_map.2 ⟨(a, v), h, rfl⟩)
      rw [if_neg this]
      exact ih hn.2 h

theorem dget_iff_mem {d : Dict K V} (hn : DNodup d) {k : K} {v : V} :
    dget d k = some v ↔ (k, v) ∈ d := ⟨dget_mem, mem_dget hn⟩

theorem dget_append (d e : Dict K V) (k : K) :
    dget (d ++ e) k = (dget d k).orElse (fun _ => dget e k) := by
  induction d with
  | nil => simp [dget]
  | cons kv d ih =>
    obtain ⟨a, b⟩ := kv
    simp only [List.cons_append, dget]
    split
    · simp
    · exact ih

theorem dset_of_not_mem {d : Dict K V} {k : K} (h : k ∉ dkeys d) (v : V) :
    dset d k v = d ++ [(k, v)] := by
  induction d with
  | nil => rfl
  | cons kv d ih =>
    obtain ⟨a, b⟩ := kv
    simp only [dkeys, List.map_cons, List.mem_cons, not_or] at h ih
    simp only [dset]
    rw [if_neg (fun e => h.1 e.symm), ih h.2]
    rfl

/-- The last value assigned to `k` in a list of pairs. -/
def lastOf : List (K × V) → K → Option V
  | [], _ => none
  | (k', v) :: e, k =>
    match lastOf e k with
    | some w => some w
    | none => if k' = k then some v else none

theorem dget_dupdate (d : Dict K V) (e : List (K × V)) (k : K) :
    dget (dupdate d e) k = (lastOf e k).orElse (fun _ => dget d k) := by
  induction e generalizing d with
  | nil => simp [dupdate, lastOf]
  | cons kv e ih =>
    obtain ⟨a, b⟩ := kv
    simp only [dupdate, List.foldl_cons] at ih ⊢
    rw [ih]
    simp only [lastOf]
    cases lastOf e k with
    | some w => simp
    | none =>
      simp only [Option.orElse_none, dget_dset]
      split <;> simp

theorem lastOf_eq_dget {d : Dict K V} (hn : DNodup d) (k : K) : lastOf d k = dget d k := by
  induction d with
  | nil => rfl
  | cons kv d ih =>
    obtain ⟨a, b⟩ := kv
    simp only [DNodup, List.map_cons, List.nodup_cons] at hn ih
    simp only [lastOf, dget, ih hn.2]
    split
    · next w hw =>
      have hm := dget_mem hw
      have : a ≠ k := by
        intro e; subst e; exact hn.1 (List.mem_map.2 ⟨_, hm, rfl⟩)
      simp [this, hw]
    · next hw =>
      rw [hw]

theorem lastOf_isSome {e : List (K × V)} {k : K} : (lastOf e k).isSome ↔ k ∈ e.map (·.1) := by
  induction e with
  | nil => simp [lastOf]
  | cons kv e ih =>
    obtain ⟨a, b⟩ := kv
    simp only [lastOf]
    cases h : lastOf e k with
    | some w => simp [h] at ih ⊢; right; exact ih
    | none =>
      simp [h] at ih ⊢
      constructor
      · intro h; left; exact h.symm
      · rintro (h | ⟨x, hx⟩)
        · exact h.symm
        · exact absurd hx (ih x)

theorem mem_dkeys_dupdate (d : Dict K V) (e : List (K × V)) (k : K) :
    k ∈ dkeys (dupdate d e) ↔ k ∈ dkeys d ∨ k ∈ e.map (·.1) := by
  rw [← dget_isSome, dget_dupdate, ← dget_isSome, ← lastOf_isSome]
  cases lastOf e k <;> simp

theorem dupdate_append (d : Dict K V) (e f : List (K × V)) :
    dupdate d (e ++ f) = dupdate (dupdate d e) f := by
  simp [dupdate]

theorem dofList_of_nodup {e : List (K × V)} (h : DNodup e) : dofList e = e := by
  have key : ∀ (e d : List (K × V)), DNodup (d ++ e) → dupdate d e = d ++ e := by
    intro e
    induction e with
    | nil => intro d _; simp [dupdate]
    | cons kv e ih =>
      intro d h
      simp only [dupdate, List.foldl_cons] at ih ⊢
      have hk : kv.1 ∉ dkeys d := by
        intro hm
        simp only [DNodup, dkeys, List.map_append, List.map_cons, List.nodup_append] at h
        exact h.2.2 _ hm _ (by simp) rfl
      rw [dset_of_not_mem hk, ih]
      · simp
      · simpa using h
  simpa [dofList] using key e [] (by simpa using h)

theorem dget_ddel {d : Dict K V} (hn : DNodup d) (k k' : K) :
    dget (ddel d k) k' = if k = k' then none else dget d k' := by
  induction d with
  | nil => simp [ddel, dget]
  | cons kv d ih =>
    obtain ⟨a, b⟩ := kv
    simp only [DNodup, List.map_cons, List.nodup_cons] at hn ih
    simp only [ddel]
    split
    · next h =>
      subst h
      split
      · next h2 => subst h2; exact dget_eq_none.2 hn.1
      · next h2 => simp [dget, h2]
    · next h =>
      simp only [dget, ih hn.2]
      split
      · next h2 => subst h2; rw [if_neg (fun e => h e.symm)]
      · rfl

theorem ddel_sublist (d : Dict K V) (k : K) : (ddel d k).Sublist d := by
  induction d with
  | nil => simp [ddel]
  | cons kv d ih =>
    simp only [ddel]
    split
    · simp
    · exact ih.cons_cons _

theorem dnodup_ddel {d : Dict K V} (hn : DNodup d) (k : K) : DNodup (ddel d k) :=
  List.Nodup.sublist ((ddel_sublist d k).map _) hn

theorem dget_map_val {W : Type _} (f : K → V → W) (d : Dict K V) (k : K) :
    dget (d.map (fun kv => (kv.1, f kv.1 kv.2))) k = (dget d k).map (f k) := by
  induction d with
  | nil => rfl
  | cons kv d ih =>
    obtain ⟨a, b⟩ := kv
    simp only [List.map_cons, dget]
    split
    · next h => subst h; rfl
    · exact ih

theorem dget_filter_key (p : K → Bool) (d : Dict K V) (k : K) :
    dget (d.filter (fun kv => p kv.1)) k = if p k then dget d k else none := by
  induction d with
  | nil => simp [dget]
  | cons kv d ih =>
    obtain ⟨a, b⟩ := kv
    simp only [List.filter_cons, dget]
    split
    · next h =>
      simp only [dget, ih]
      split
      · next h2 => subst h2; simp [h]
      · rfl
    · next h =>
      rw [ih]
      split
      · next h1 =>
        rw [if_neg]
        intro e; subst e; exact h h1
      · rfl

theorem dget_filter {d : Dict K V} (hn : DNodup d) (p : K → V → Bool) (k : K) :
    dget (d.filter (fun kv => p kv.1 kv.2)) k = (dget d k).filter (p k) := by
  induction d with
  | nil => simp [dget]
  | cons kv d ih =>
    obtain ⟨a, b⟩ := kv
    simp only [DNodup, List.map_cons, List.nodup_cons] at hn ih
    simp only [List.filter_cons, dget]
    split
    · next h =>
      simp only [dget, ih hn.2]
      split
      · next h2 => subst h2; rw [Option.filter_some, if_pos h]
      · rfl
    · next h =>
      rw [ih hn.2]
      split
      · next h2 =>
        subst h2
        have : dget d a = none := dget_eq_none.2 hn.1
        rw [this, Option.filter_some, if_neg h]; rfl
      · rfl

theorem dnodup_filter {d : Dict K V} (hn : DNodup d) (p : K × V → Bool) : DNodup (d.filter p) :=
  List.Nodup.sublist (List.filter_sublist.map _) hn

theorem dget_perm {d e : Dict K V} (hp : d.Perm e) (hd : DNodup d) (k : K) : dget d k = dget e k := by
  have he : DNodup e := (hp.map Prod.fst).nodup_iff.1 hd
  apply Option.ext
  intro v
  rw [dget_iff_mem hd, dget_iff_mem he]
  exact hp.mem_iff

theorem dnodup_perm {d e : Dict K V} (hp : d.Perm e) (hd : DNodup d) : DNodup e :=
  (hp.map Prod.fst).nodup_iff.1 hd

end Nnx
