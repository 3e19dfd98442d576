import Verif.Basic.Tactics
/-
Python strings as lists of characters.

The code uses strings as attribute names and joins/splits paths on "/"
(nnx/module.py:833, 914, 939, 739). Python compares strings by code point.
-/
namespace Nnx

abbrev Str := List Char

open Lean in
/-- `py! "abc"` is the literal character list `['a','b','c']` (so that `decide` can compute with it). -/
macro "py!" s:str : term => do
  let cs := s.getString.toList.map (fun c => Syntax.mkCharLit c)
  let rec go : List (TSyntax `char) → MacroM (TSyntax `term)
    | [] => `(([] : List Char))
    | c :: cs => do let r ← go cs; `(List.cons $c $r)
  go cs

/-- Python's `a <= b` on `str`: lexicographic by code point.
Used by `sorted(..., key=lambda x: x[0])` (nnx/state.py:29,31, nnx/module.py:795,828). -/
def strLe : Str → Str → Bool
  | [], _ => true
  | _ :: _, [] => false
  | a :: as, b :: bs => decide (a.toNat < b.toNat) || (a == b && strLe as bs)

theorem strLe_refl : ∀ a : Str, strLe a a = true
  | [] => rfl
  | a :: as => by simp [strLe, strLe_refl as]

theorem Char.toNat_inj' {a b : Char} (h : a.toNat = b.toNat) : a = b := by
  exact Char.toNat_inj.mp h

theorem strLe_total : ∀ a b : Str, strLe a b = true ∨ strLe b a = true
  | [], _ => by simp [strLe]
  | _ :: _, [] => by simp [strLe]
  | a :: as, b :: bs => by
    rcases Nat.lt_trichotomy a.toNat b.toNat with h | h | h
    · simp [strLe, h]
    · have := Char.toNat_inj' h
      subst this
      simpa [strLe] using strLe_total as bs
    · simp [strLe, h]

theorem strLe_antisymm : ∀ {a b : Str}, strLe a b = true → strLe b a = true → a = b
  | [], [], _, _ => rfl
  | [], _ :: _, _, h => by simp [strLe] at h
  | _ :: _, [], h, _ => by simp [strLe] at h
  | a :: as, b :: bs, h1, h2 => by
    simp [strLe] at h1 h2
    rcases h1 with h1 | ⟨rfl, h1⟩
    · rcases h2 with h2 | ⟨rfl, h2⟩
      · omega
      · omega
    · rcases h2 with h2 | ⟨_, h2⟩
      · omega
      · rw [strLe_antisymm h1 h2]

theorem strLe_trans : ∀ {a b c : Str}, strLe a b = true → strLe b c = true → strLe a c = true
  | [], _, _, _, _ => by simp [strLe]
  | _ :: _, [], _, h, _ => by simp [strLe] at h
  | _ :: _, _ :: _, [], _, h => by simp [strLe] at h
  | a :: as, b :: bs, c :: cs, h1, h2 => by
    simp [strLe] at h1 h2 ⊢
    rcases h1 with h1 | ⟨rfl, h1⟩
    · rcases h2 with h2 | ⟨rfl, h2⟩
      · left; omega
      · left; exact h1
    · rcases h2 with h2 | ⟨rfl, h2⟩
      · left; exact h2
      · right; exact ⟨rfl, strLe_trans h1 h2⟩

/-- Python's `"/".join(parts)` (nnx/module.py:833, 914). -/
def joinSlash : List Str → Str
  | [] => []
  | [p] => p
  | p :: q :: rest => p ++ '/' :: joinSlash (q :: rest)

/-- Python's `s.split("/")` (nnx/module.py:739, 939). Always non-empty. -/
def splitSlash : Str → List Str
  | [] => [[]]
  | c :: cs =>
    if c = '/' then [] :: splitSlash cs
    else
      match splitSlash cs with
      | [] => [[c]]
      | p :: ps => (c :: p) :: ps

theorem splitSlash_ne_nil : ∀ s, splitSlash s ≠ []
  | [] => by simp [splitSlash]
  | c :: cs => by
    simp only [splitSlash]
    split
    · simp
    · split <;> simp

theorem splitSlash_noslash : ∀ {s : Str}, '/' ∉ s → splitSlash s = [s]
  | [], _ => rfl
  | c :: cs, h => by
    simp at h
    have ih := splitSlash_noslash h.2
    have hc : ¬ c = '/' := fun e => h.1 e.symm
    simp [splitSlash, ih, hc]

theorem splitSlash_append_slash : ∀ {s : Str} (t : Str), '/' ∉ s →
    splitSlash (s ++ '/' :: t) = s :: splitSlash t
  | [], t, _ => by simp [splitSlash]
  | c :: cs, t, h => by
    simp at h
    have ih := splitSlash_append_slash t h.2
    have hc : ¬ c = '/' := fun e => h.1 e.symm
    simp [splitSlash, ih, hc]

theorem split_join : ∀ {ps : List Str}, ps ≠ [] → (∀ p ∈ ps, '/' ∉ p) →
    splitSlash (joinSlash ps) = ps
  | [], h, _ => absurd rfl h
  | [p], _, h => by simpa [joinSlash] using splitSlash_noslash (h p (by simp))
  | p :: q :: rest, _, h => by
    have ih := split_join (ps := q :: rest) (by simp) (fun x hx => h x (by simp at hx ⊢; tauto))
    rw [joinSlash, splitSlash_append_slash _ (h p (by simp)), ih]

theorem join_split : ∀ s, joinSlash (splitSlash s) = s
  | [] => rfl
  | c :: cs => by
    have ih := join_split cs
    simp only [splitSlash]
    split
    · next h =>
      subst h
      cases hs : splitSlash cs with
      | nil => exact absurd hs (splitSlash_ne_nil cs)
      | cons p ps => simp [joinSlash, ← hs, ih]
    · split
      · next hs => exact absurd hs (splitSlash_ne_nil cs)
      · next p ps hs =>
        rw [hs] at ih
        cases ps with
        | nil => simp [joinSlash] at ih ⊢; exact ih
        | cons q r => simp [joinSlash] at ih ⊢; exact ih

theorem join_inj {ps qs : List Str} (hp : ps ≠ []) (hq : qs ≠ [])
    (hps : ∀ p ∈ ps, '/' ∉ p) (hqs : ∀ p ∈ qs, '/' ∉ p)
    (h : joinSlash ps = joinSlash qs) : ps = qs := by
  rw [← split_join hp hps, ← split_join hq hqs, h]

theorem splitSlash_parts_noslash : ∀ s, ∀ p ∈ splitSlash s, '/' ∉ p
  | [] => by simp [splitSlash]
  | c :: cs => by
    have ih := splitSlash_parts_noslash cs
    simp only [splitSlash]
    split
    · intro p hp
      simp at hp
      rcases hp with rfl | hp
      · simp
      · exact ih p hp
    · next hc =>
      split
      · next hs => exact absurd hs (splitSlash_ne_nil cs)
      · next q qs hs =>
        rw [hs] at ih
        intro p hp
        simp at hp
        rcases hp with rfl | hp
        · have := ih q (by simp)
          simp; exact ⟨fun e => hc e.symm, this⟩
        · exact ih p (by simp [hp])

end Nnx
