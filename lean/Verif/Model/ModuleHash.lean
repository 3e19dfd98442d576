import Verif.Model.Module
/-
nnx/module.py: hashing of ModuleDefs.
-/
namespace Nnx
variable {α : Type}

/-- Python's `hash` on the things a ModuleDef consists of. Nothing is assumed about the functions.
`val` is `none` for unhashable values (TypeError). -/
structure Hashing (α : Type) where
  cls : Cls → Nat
  str : Str → Nat
  int : Nat → Nat
  val : PyVal α → Option Nat
  tuple : List Nat → Nat

/-- `hash` of the tuple of static fields. -/
def Hashing.statics (H : Hashing α) : List (Str × PyVal α) → Option (List Nat)
  | [] => some []
  | (n, v) :: rest =>
    match H.val v, H.statics rest with
    | some x, some xs => some (H.tuple [H.str n, x] :: xs)
    | _, _ => none

/-- The hashes of the elements of the `submodules` tuple. -/
def Hashing.subs (H : Hashing α) : Subs α → Option (List Nat)
  | .nil => some []
  | .ref n i rest => (H.subs rest).map (fun xs => H.tuple [H.str n, H.int i] :: xs)
  | .sub n c _ ss st _ rest =>
    match H.subs ss, H.statics st, H.subs rest with
    | some a, some b, some xs => some (H.tuple [H.str n, H.tuple [H.cls c, H.tuple a, H.tuple b]] :: xs)
    | _, _, _ => none

/-- `ModuleDef.__hash__` (nnx/module.py:111-112); `none` stands for a TypeError. -/
def ModuleDef.hash (H : Hashing α) (d : ModuleDef α) : Option Nat :=
  match H.subs d.subs, H.statics d.statics with
  | some a, some b => some (H.tuple [H.cls d.cls, H.tuple a, H.tuple b])
  | _, _ => none

end Nnx
