import Verif.Model.Spmd
/-
What C44-C48 speak of, said without the code.
-/
namespace Nnx

/-- The mesh axes in an entry of a PartitionSpec: none, one, or a tuple of them. -/
def MeshAxes.names : MeshAxes → List Str
  | .none => []
  | .axis a => [a]
  | .axes l => l

/-- No mesh axis in common. -/
def MeshAxes.Disjoint (m n : MeshAxes) : Prop := ∀ a, a ∈ m.names → a ∉ n.names

/-- A logical name that occurs at two positions. -/
def RepeatedName (dims : List (Option Str)) : Prop :=
  ∃ (i j : Nat) (n : Str), i < j ∧ dims[i]? = some (some n) ∧ dims[j]? = some (some n)

/-- Which rules take effect, in priority order: a rule does if its name is the name of a dimension, and no rule of higher
priority that took effect has the same name or a mesh axis in common. -/
def Applied (dims : List (Option Str)) (rules : List LRule) (applied : Nat → Prop) : Prop :=
  ∀ k, applied k ↔ ∃ (n : Option Str) (m : MeshAxes), rules[k]? = some (n, m) ∧ n ∈ dims ∧
    ∀ (j : Nat) (n' : Option Str) (m' : MeshAxes), j < k → applied j → rules[j]? = some (n', m') → n' ≠ n ∧ m'.Disjoint m

/-- Dimension `i` is (the first one) named `n`. -/
def DimNamed (dims : List (Option Str)) (i : Nat) (n : Option Str) : Prop :=
  dims[i]? = some n ∧ ∀ j, j < i → dims[j]? ≠ some n

/-- Dimension `i` gets mesh axes `m`: by a rule for its name that takes effect. -/
def Gets (dims : List (Option Str)) (rules : List LRule) (applied : Nat → Prop) (i : Nat) (m : MeshAxes) : Prop :=
  ∃ (k : Nat) (n : Option Str), applied k ∧ rules[k]? = some (n, m) ∧ DimNamed dims i n

/-- What the rules in force are during a program, said without an old value to restore: entering a block changes them for its
body only. Result: what is recorded, the rules left in force here, and the exception. -/
def RProg.spec : RProg → List LRule → List (List LRule) × List LRule × Option Nat
  | .skip, r => ([], r, none)
  | .raise e, r => ([], r, some e)
  | .seq p q, r =>
    match p.spec r with
    | (o, r', some e) => (o, r', some e)
    | (o, r', none) => (o ++ (q.spec r').1, (q.spec r').2)
  | .block rules p, r => ((p.spec rules).1, r, (p.spec rules).2.2)
  | .set rules, _ => ([], rules, none)
  | .tryExcept p h, r =>
    match p.spec r with
    | (o, r', none) => (o, r', none)
    | (o, r', some _) => (o ++ (h.spec r').1, (h.spec r').2)
  | .observe, r => ([r], r, none)

/-- No `set_logical_axis_rules` outside a block. -/
def RProg.NoSet : RProg → Prop
  | .set _ => False
  | .seq p q => p.NoSet ∧ q.NoSet
  | .tryExcept p h => p.NoSet ∧ h.NoSet
  | _ => True

/-- The container with its sharding set to `xs`. -/
def withSharding {α : Type} : PyVal α → List (PyVal α) → PyVal α
  | .cont c v m, xs => .cont c v (dset m kSharding (.tup xs))
  | x, _ => x

/-- The sharding after inserting `name` at position `i`: shardings shorter than `i` are filled up with None. -/
def grow {α : Type} (i : Nat) (name : PyVal α) (xs : List (PyVal α)) : List (PyVal α) :=
  (xs ++ List.replicate (i - xs.length) PyVal.none).take i ++ name :: xs.drop i

/-! ### Trees of PartitionSpecs -/

/-- The leaves of a tree. -/
inductive SpecTree.HasLeaf {L : Type} : SpecTree L → L → Prop
  | leaf (x : L) : SpecTree.HasLeaf (.leaf x) x
  | tup {ts : List (SpecTree L)} {t : SpecTree L} {x : L} : t ∈ ts → SpecTree.HasLeaf t x → SpecTree.HasLeaf (.tup ts) x
  | dict {items : List (Str × SpecTree L)} {nt : Str × SpecTree L} {x : L} : nt ∈ items → SpecTree.HasLeaf nt.2 x → SpecTree.HasLeaf (.dict items) x

/-- `s` is the layout of an array with dimensions `dims` by the rules: the rules that take effect decide, other dimensions are unsharded. -/
structure IsLayout (dims : List (Option Str)) (rules : List LRule) (s : List MeshAxes) : Prop where
  length : s.length = dims.length
  rule : ∀ applied, Applied dims rules applied → ∀ i m, Gets dims rules applied i m → s[i]? = some m
  unsharded : ∀ applied, Applied dims rules applied → ∀ i < dims.length, (∀ m, ¬ Gets dims rules applied i m) → s[i]? = some .none

/-- The trees have the same structure, and `P` relates their leaves. -/
inductive SpecTree.Rel {L N : Type} (P : L → N → Prop) : SpecTree L → SpecTree N → Prop
  | none : SpecTree.Rel P .none .none
  | leaf {x : L} {y : N} : P x y → SpecTree.Rel P (.leaf x) (.leaf y)
  | tupNil : SpecTree.Rel P (.tup []) (.tup [])
  | tupCons {t : SpecTree L} {u : SpecTree N} {ts : List (SpecTree L)} {us : List (SpecTree N)} :
      SpecTree.Rel P t u → SpecTree.Rel P (.tup ts) (.tup us) → SpecTree.Rel P (.tup (t :: ts)) (.tup (u :: us))
  | dictNil : SpecTree.Rel P (.dict []) (.dict [])
  | dictCons {n : Str} {t : SpecTree L} {u : SpecTree N} {ts : List (Str × SpecTree L)} {us : List (Str × SpecTree N)} :
      SpecTree.Rel P t u → SpecTree.Rel P (.dict ts) (.dict us) → SpecTree.Rel P (.dict ((n, t) :: ts)) (.dict ((n, u) :: us))

end Nnx
