import Verif.Proofs.Like
import Verif.Model.ModuleHash
import Verif.Props.ModuleGraph
/-
C100: which ModuleDefs can be hashed.
-/
namespace Nnx
variable {α : Type}

/-- All attributes of the Module at `l` that are neither Modules nor nodes have hashable values. -/
def HashableAt (H : Hashing α) (h : Heap α) (l : Loc) : Prop :=
  ∀ n v, attrAt h l n = some (.val v) → v.isNode = false → H.val v ≠ none

theorem ModuleDef.hash_ne_none {H : Hashing α} {d : ModuleDef α} : d.hash H ≠ none ↔ H.subs d.subs ≠ none ∧ H.statics d.statics ≠ none := by
  simp only [ModuleDef.hash]
  cases H.subs d.subs <;> cases H.statics d.statics <;> simp

theorem Hashing.statics_cons {H : Hashing α} {n : Str} {v : PyVal α} {st : List (Str × PyVal α)} :
    H.statics ((n, v) :: st) ≠ none ↔ H.val v ≠ none ∧ H.statics st ≠ none := by
  simp only [Hashing.statics]
  cases H.val v <;> cases H.statics st <;> simp

theorem Hashing.subs_sub {H : Hashing α} {n : Str} {d : ModuleDef α} {rest : Subs α} :
    H.subs (.cons n (.inr d) rest) ≠ none ↔ d.hash H ≠ none ∧ H.subs rest ≠ none := by
  rw [ModuleDef.hash_ne_none]
  simp only [Subs.cons, Hashing.subs]
  cases H.subs d.subs <;> cases H.statics d.statics <;> cases H.subs rest <;> simp

theorem Hashing.subs_ref {H : Hashing α} {n : Str} {i : Nat} {rest : Subs α} :
    H.subs (.cons n (.inl i) rest) ≠ none ↔ H.subs rest ≠ none := by
  simp only [Subs.cons, Hashing.subs]
  cases H.subs rest <;> simp

/-- The traversal that makes the definition. -/
theorem Dfs.hashable (H : Hashing α) {h : Heap α} (wf : WFHeap h) {f t S vs S'} (d : Dfs h sortItems f t S vs S') :
    match t with
    | .visit l _ => ∀ m S'', makeDefRec h f l S = some (m, S'') → (∀ i, m = .inl i → vs = []) ∧
        ∀ x, m = .inr x → (x.hash H ≠ none ↔ ∀ y ∈ vs, HashableAt H h y.1)
    | .attrs as _ => (∀ n a, (n, a) ∈ as → isReserved n = false) → ∀ a b S'', makeDefAttrs (makeDefRec h f) as S = some (a, b, S'') →
        ((H.subs a ≠ none ∧ H.statics b ≠ none) ↔ (∀ n v, (n, Attr.val v) ∈ as → v.isNode = false → H.val v ≠ none) ∧ ∀ y ∈ vs, HashableAt H h y.1) := by
  induction d with
  | seen e hu =>
    intro m S'' hm
    simp only [makeDefRec, e, hu, if_true, Option.some.injEq, Prod.mk.injEq] at hm
    obtain ⟨rfl, rfl⟩ := hm
    exact ⟨fun _ _ => rfl, fun x hx => by cases hx⟩
  | @visit f l p S S' o vs e hu d ih =>
    intro m S'' hm
    simp only [makeDefRec, e, hu, if_false] at hm
    split at hm
    · cases hm
    · next subs statics idx he =>
      simp only [Option.some.injEq, Prod.mk.injEq] at hm
      obtain ⟨rfl, rfl⟩ := hm
      refine ⟨fun i hi => (by cases hi), fun x hx => ?_⟩
      cases hx
      have hmem : ∀ n a, (n, a) ∈ sortItems o.attrs ↔ attrAt h l n = some a := by
        intro n a
        rw [(sortItems_perm o.attrs).mem_iff]
        simp only [attrAt, e]
        exact (dget_iff_mem (wf.nodup _ _ e)).symm
      have := ih (fun n a hm => wf.reserved l n a ((hmem n a).1 hm)) _ _ _ he
      rw [ModuleDef.hash_ne_none, this]
      simp only [List.mem_cons, forall_eq_or_imp, hmem, HashableAt]
  | nil =>
    intro _ a b S'' hm
    simp only [makeDefAttrs, Option.some.injEq, Prod.mk.injEq] at hm
    obtain ⟨rfl, rfl, rfl⟩ := hm
    simp [Hashing.subs, Hashing.statics]
  | @val f n v rest p S vs S' d ih =>
    intro hr a b S'' hm
    rw [makeDefAttrs] at hm
    split at hm
    · cases hm
    · next subs statics idx he =>
      have := ih (fun n a hm => hr n a (List.mem_cons_of_mem _ hm)) _ _ _ he
      have hres := hr n _ List.mem_cons_self
      rw [hres] at hm
      cases hv : v.isNode with
      | true =>
        simp only [hv, Bool.not_true, Bool.false_and, Bool.false_eq_true, if_false, Option.some.injEq, Prod.mk.injEq] at hm
        obtain ⟨rfl, rfl, rfl⟩ := hm
        rw [this]
        simp only [List.mem_cons, Prod.mk.injEq, Attr.val.injEq]
        constructor
        · rintro ⟨h1, h2⟩
          refine ⟨?_, h2⟩
          rintro m u (⟨rfl, rfl⟩ | hm) hu
          · rw [hv] at hu; cases hu
          · exact h1 m u hm hu
        · rintro ⟨h1, h2⟩
          exact ⟨fun m u hm => h1 m u (.inr hm), h2⟩
      | false =>
        simp only [hv, Bool.not_false, Bool.true_and, if_true, Option.some.injEq, Prod.mk.injEq] at hm
        obtain ⟨rfl, rfl, rfl⟩ := hm
        rw [Hashing.statics_cons]
        simp only [List.mem_cons, Prod.mk.injEq, Attr.val.injEq]
        constructor
        · rintro ⟨h1, h2, h3⟩
          obtain ⟨g1, g2⟩ := this.1 ⟨h1, h3⟩
          refine ⟨?_, g2⟩
          rintro m u (⟨rfl, rfl⟩ | hm) hu
          · exact h2
          · exact g1 m u hm hu
        · rintro ⟨h1, h2⟩
          obtain ⟨g1, g2⟩ := this.2 ⟨fun m u hm => h1 m u (.inr hm), h2⟩
          exact ⟨g1, h1 n v (.inl ⟨rfl, rfl⟩) hv, g2⟩
  | @ref f n l rest p S vs S1 ws S2 d1 d2 ih1 ih2 =>
    intro hr a b S'' hm
    obtain ⟨m, hm1⟩ := d1.makeDef
    simp only [makeDefAttrs, hm1] at hm
    split at hm
    · cases hm
    · next subs statics idx he =>
      simp only [Option.some.injEq, Prod.mk.injEq] at hm
      obtain ⟨rfl, rfl, rfl⟩ := hm
      have h2 := ih2 (fun n a hm => hr n a (List.mem_cons_of_mem _ hm)) _ _ _ he
      obtain ⟨k1, k2⟩ := ih1 m S1 hm1
      have hrest : (∀ n' v, (n', Attr.val v) ∈ (n, Attr.ref l) :: rest → v.isNode = false → H.val v ≠ none) ↔
          ∀ n' v, (n', Attr.val v) ∈ rest → v.isNode = false → H.val v ≠ none := by
        simp
      rw [hrest]
      cases m with
      | inl i =>
        rw [Hashing.subs_ref, h2, k1 i rfl]
        simp
      | inr x =>
        rw [Hashing.subs_sub, and_assoc, h2, k2 x rfl]
        simp only [List.mem_append]
        constructor
        · rintro ⟨g1, g2, g3⟩
          exact ⟨g2, fun y hy => hy.elim (g1 y) (g3 y)⟩
        · rintro ⟨g1, g2⟩
          exact ⟨fun y hy => g2 y (.inl hy), g1, fun y hy => g2 y (.inr hy)⟩

/-- **C100, hashable definitions.** `hash(m.get_module_def())` raises TypeError if and only if some Module that can be reached from `m` has an attribute with an unhashable value that is
neither a Module nor a node. Shared Modules and cycles make no difference. -/
theorem C100_hashable_iff (H : Hashing α) {h : Heap α} (wf : WFHeap h) {l : Loc} (hl : l < h.length) {fuel : Nat} {d : ModuleDef α}
    (hd : getModuleDef fuel h l = some d) :
    d.hash H = none ↔ ∃ a n v, Reaches h l a ∧ attrAt h a n = some (.val v) ∧ v.isNode = false ∧ H.val v = none := by
  obtain ⟨vs, S', dfs⟩ := Dfs.exists wf isOrder_sort (h.length + 1) l [] [] hl (Nat.lt_of_le_of_lt (unseen_le _ _) (Nat.lt_succ_self _))
  obtain ⟨d', hd'⟩ := getModuleDef_exists wf hl (Nat.lt_succ_self h.length)
  have := getModuleDef_det wf hl hd hd'
  subst this
  unfold getModuleDef at hd'
  split at hd'
  · next x S'' he =>
    cases hd'
    have key := (dfs.hashable H wf _ _ he).2 _ rfl
    obtain ⟨_, hr, _, _⟩ := dfs.complete wf isOrder_sort hl
    constructor
    · intro hn
      apply Classical.byContradiction
      intro hc
      refine (key.2 ?_) hn
      intro y hy n v ha hv hx
      exact hc ⟨y.1, n, v, (hr y.1).1 (List.mem_map_of_mem hy), ha, hv, hx⟩
    · rintro ⟨a, n, v, ha, hat, hv, hx⟩
      apply Classical.byContradiction
      intro hc
      obtain ⟨y, hy, rfl⟩ := List.mem_map.1 ((hr a).2 ha)
      exact key.1 hc y hy n v hat hv hx
  · cases hd'

/-- A hash function that accepts strings only (the options of `nnx.Remat` are an object of a dataclass without `__hash__`). -/
def exHashing : Hashing Nat :=
  { cls := fun c => c.name.length, str := List.length, int := id, val := fun v => match v with | .str s => some s.length | _ => none, tuple := List.sum }

/-- A model whose layer was made by `nnx.Remat`, and one whose layer has static strings and an array. -/
def exOptionsHeap (options : PyVal Nat) : Heap Nat :=
  [⟨{ name := py! "Model", ancestors := [py! "Module"] }, [(py! "layer", .ref 1), (py! "again", .ref 1)], 1, false, ⟨0, 0⟩⟩,
   ⟨{ name := py! "Remat", ancestors := [py! "Module"] }, [(py! "options", .val options), (py! "w", .val (.data cArray 3))], 2, false, ⟨0, 0⟩⟩]

theorem exOptionsHeap_wf (options : PyVal Nat) (h : options.Plain) : WFHeap (exOptionsHeap options) := by
  refine wfHeap_of_forall (show [1, 2].Nodup by decide) ?_
  intro o ho
  simp only [exOptionsHeap, List.mem_cons, List.not_mem_nil, or_false] at ho
  rcases ho with rfl | rfl
  · refine ⟨show [py! "layer", py! "again"].Nodup by decide, ?_⟩
    intro na hna
    simp only [List.mem_cons, List.not_mem_nil, or_false] at hna
    rcases hna with rfl | rfl <;> refine ⟨by unfold NoSlash; dsimp only; decide, by dsimp only; decide, ?_, nofun⟩ <;> intro l h <;> cases h <;> exact Nat.lt_succ_self 1
  · refine ⟨show [py! "options", py! "w"].Nodup by decide, ?_⟩
    intro na hna
    simp only [List.mem_cons, List.not_mem_nil, or_false] at hna
    rcases hna with rfl | rfl <;> refine ⟨by unfold NoSlash; dsimp only; decide, by dsimp only; decide, nofun, ?_⟩ <;> intro c v m e <;> cases e
    exact absurd h (by simp [PyVal.Plain])

def cOptions : Cls := { name := py! "RematOptions", ancestors := [] }

/-- The definition of the model with `nnx.Remat` cannot be hashed. -/
example : ∃ d, getModuleDef 3 (exOptionsHeap (.data cOptions 0)) 0 = some d ∧ d.hash exHashing = none :=
  ⟨_, rfl, (C100_hashable_iff exHashing (h := exOptionsHeap (.data cOptions 0)) (l := 0) (exOptionsHeap_wf (.data cOptions 0) trivial) (by decide) (fuel := 3) rfl).2
    ⟨1, py! "options", .data cOptions 0, ⟨[py! "layer"], .step rfl (.here (by decide))⟩, rfl, rfl, rfl⟩⟩

/-- The other one can. -/
example : ∃ d x, getModuleDef 3 (exOptionsHeap (.str (py! "relu"))) 0 = some d ∧ d.hash exHashing = some x := ⟨_, _, rfl, rfl⟩

end Nnx
