import Verif.Model.NodeTypes
import Verif.Spec.Module
/-
Independent specification vocabulary for registered node types.
-/
namespace Nnx
variable {α : Type}

/-- The registry after a program registered these types, one after the other. -/
def registered (user : List Cls) : List Cls := user.foldl registerNodeType libraryTypes

/-- A node in a program that registered the types `user`: a node of the library, or an instance of one of these types. -/
def NodeFor (user : List Cls) (v : PyVal α) : Prop := IsNode v ∨ ∃ c ∈ user, IsA v c.name

/-- The program did not register `nnx.ContainerMetadata` (the box that creation hooks return) as a node type. -/
def MetadataUnregistered (user : List Cls) : Prop := ∀ c ∈ user, c.name ≠ py! "ContainerMetadata"

end Nnx
