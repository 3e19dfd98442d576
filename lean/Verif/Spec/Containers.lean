import Verif.Model.Containers
/-
Independent specification vocabulary for containers.
-/
namespace Nnx
variable {α : Type}

/-- A value that is neither a container nor a `ContainerMetadata`. -/
def PyVal.Plain : PyVal α → Prop
  | .cont _ _ _ => False
  | .cmeta _ _ => False
  | _ => True

/-- Two metadata dicts hold the same entries. -/
def MdSame (m n : Md α) : Prop := ∀ k, dget m k = dget n k

/-- The shape of every container made from a plain value: metadata keys are distinct and none is called
"value"; a `Static` has no metadata; a `Variable` has its `sharding` first. -/
inductive WFContainer : PyVal α → Prop
  | mk {c : Cls} {v : PyVal α} {m : Md α} (plain : v.Plain) (nodup : DNodup m)
      (novalue : py! "value" ∉ dkeys m)
      (static : c.isSub cStatic = true → m = [])
      (shardingFirst : c.isSub cStatic = false → c.isSub cVariable = true →
        ∃ x rest, m = (py! "sharding", x) :: rest) : WFContainer (.cont c v m)

/-- The value stored in a container. -/
def PyVal.valueOf : PyVal α → PyVal α
  | .cont _ v _ => v
  | v => v

/-- The metadata that calling a container class with keyword arguments `md` declares: for a `Variable`,
`sharding` defaults to `None`. -/
def declaredMd (c : Cls) (md : Md α) (k : Str) : Option (PyVal α) :=
  match dget md k with
  | some v => some v
  | none => if c.isSub cStatic = false ∧ c.isSub cVariable = true ∧ k = py! "sharding" then some .none else none

end Nnx
