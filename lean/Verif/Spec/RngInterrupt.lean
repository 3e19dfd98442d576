import Verif.Model.RngInterrupt
import Verif.Spec.Context
/-
Histories of calls on RNG contexts some of which were interrupted.
-/
namespace Nnx
variable {κ η : Type}

/-- The histories of `RngHist` in which any `make_rng` and `partition` may also be interrupted, at any point: such a call returns neither a key nor a PureContext. -/
inductive RngHistInterrupted (P : RngPrims κ η) (kbd : Err) : RngWorld κ → List (PureContext κ) → List κ → Prop
  | start (j : Nat) (s : List Nat) : RngHistInterrupted P kbd ⟨[], [], j, s⟩ [] []
  | create {w pend keys params rngs flags} : RngHistInterrupted P kbd w pend keys → GoodArgs w params rngs →
      (newKeys P (contextArgs params rngs)).Nodup →
      (∀ k ∈ newKeys P (contextArgs params rngs), ∀ st ∈ w.streams, st.key ≠ k) →
      RngHistInterrupted P kbd (newContext P params flags rngs w).1 pend keys
  | make {w pend keys c name w' k} : RngHistInterrupted P kbd w pend keys → makeRng P c name w = (w', .ok k) →
      RngHistInterrupted P kbd w' pend (k :: keys)
  | makeInterrupted {w pend keys} (counted : Bool) (c : Nat) (name : Str) : RngHistInterrupted P kbd w pend keys →
      RngHistInterrupted P kbd (makeRngInterrupted kbd counted c name w).1 pend keys
  | partition {w pend keys c w' p} : RngHistInterrupted P kbd w pend keys → partitionCtx c w = (w', .ok p) →
      RngHistInterrupted P kbd w' (p :: pend) keys
  | partitionInterrupted {w pend keys} (n c : Nat) : RngHistInterrupted P kbd w pend keys →
      RngHistInterrupted P kbd (partitionInterrupted kbd n c w).1 pend keys
  | merge {w pend keys p pend' w' c} : RngHistInterrupted P kbd w pend keys → pend.Perm (p :: pend') →
      mergeCtx p w = (w', .ok c) → RngHistInterrupted P kbd w' pend' keys
  | copy {w pend keys c w' c'} : RngHistInterrupted P kbd w pend keys → copyCtx c w = (w', .ok c') →
      RngHistInterrupted P kbd w' pend keys
  | trace {w pend keys} (j : Nat) (s : List Nat) : RngHistInterrupted P kbd w pend keys →
      RngHistInterrupted P kbd { w with jaxTrace := j, nnxStack := s } pend keys

end Nnx
