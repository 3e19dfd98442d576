import Verif.Spec.Context
/-
Histories of calls on RNG contexts in which contexts are also handed to the iterations of scans.
-/
namespace Nnx
variable {κ η : Type}

/-- How the key of a stream reaches iteration `i` of `n`: as the `i`-th of `n` keys split from it, or unchanged. -/
inductive KeyStep where
  | split (n i : Nat)
  | same (n i : Nat)
deriving DecidableEq, Repr

/-- The key after one step. -/
def KeyStep.key (split : κ → Nat → Nat → κ) (k : κ) : KeyStep → κ
  | .split n i => split k n i
  | .same _ _ => k

/-- Is this a split? -/
def KeyStep.isSplit : KeyStep → Bool
  | .split _ _ => true
  | .same _ _ => false

/-- A draw: the base key given to `nnx.context`, the scans the stream went through, and the string that is folded in. -/
structure Draw (κ : Type) where
  base : κ
  steps : List KeyStep
  data : Str
deriving DecidableEq, Repr

/-- The key that a draw gives. -/
def Draw.key (P : RngPrims κ η) (split : κ → Nat → Nat → κ) (d : Draw κ) : κ :=
  P.foldIn (d.steps.foldl (KeyStep.key split) d.base) (P.hash d.data)

/-- `c'` is the PureContext of iteration `i` of `n` of a scan (or of the construction of slice `i` of `n`) that is given the PureContext `c` and
`split_rngs = f`. -/
structure IterCtx (split : κ → Nat → Nat → κ) (f : RngFilter) (n i : Nat) (c c' : PureContext κ) : Prop where
  selected : ∀ name k, dget c.keys name = some k → f.Selects name → dget c'.keys name = some (split k n i)
  other : ∀ name k, dget c.keys name = some k → ¬ f.Selects name → dget c'.keys name = some k
  counts : c'.rngCounts = c.rngCounts
  flags : c'.flags = c.flags

/-- All histories of API calls in which new streams get base keys that were not given before, and each PureContext is either merged at most
once or given to the iterations of one scan, each of which gets its own PureContext. `bases` are the base keys given so far, `pend` the
PureContexts not used yet, `keys` the keys that `make_rng` returned so far. In a `strict` history every scan splits every stream. -/
inductive SplitHist (P : RngPrims κ η) (split : κ → Nat → Nat → κ) (strict : Bool) :
    List κ → RngWorld κ → List (PureContext κ) → List κ → Prop
  | start (j : Nat) (s : List Nat) : SplitHist P split strict [] ⟨[], [], j, s⟩ [] []
  | create {bases w pend keys params rngs flags} : SplitHist P split strict bases w pend keys → GoodArgs w params rngs →
      (newKeys P (contextArgs params rngs)).Nodup → (∀ k ∈ newKeys P (contextArgs params rngs), k ∉ bases) →
      SplitHist P split strict (newKeys P (contextArgs params rngs) ++ bases) (newContext P params flags rngs w).1 pend keys
  | make {bases w pend keys c name w' k} : SplitHist P split strict bases w pend keys → makeRng P c name w = (w', .ok k) →
      SplitHist P split strict bases w' pend (k :: keys)
  | partition {bases w pend keys c w' p} : SplitHist P split strict bases w pend keys → partitionCtx c w = (w', .ok p) →
      SplitHist P split strict bases w' (p :: pend) keys
  | merge {bases w pend keys p pend' w' c} : SplitHist P split strict bases w pend keys → pend.Perm (p :: pend') →
      mergeCtx p w = (w', .ok c) → SplitHist P split strict bases w' pend' keys
  | scan {bases w pend keys p pend' f pcs} : SplitHist P split strict bases w pend keys → pend.Perm (p :: pend') →
      (strict = true → ∀ name ∈ dkeys p.keys, f.Selects name) →
      (∀ i c, pcs[i]? = some c → IterCtx split f pcs.length i p c) →
      SplitHist P split strict bases w (pcs ++ pend') keys
  | copy {bases w pend keys c w' c'} : SplitHist P split strict bases w pend keys → copyCtx c w = (w', .ok c') →
      SplitHist P split strict bases w' pend keys
  | trace {bases w pend keys} (j : Nat) (s : List Nat) : SplitHist P split strict bases w pend keys →
      SplitHist P split strict bases { w with jaxTrace := j, nnxStack := s } pend keys

/-- Splitting and folding in have no collisions. -/
structure FreeKeys (P : RngPrims κ η) (split : κ → Nat → Nat → κ) : Prop where
  fold : ∀ k s k' s', P.foldIn k (P.hash s) = P.foldIn k' (P.hash s') → k = k' ∧ s = s'
  split : ∀ k n i k' n' i', split k n i = split k' n' i' → k = k' ∧ n = n' ∧ i = i'

end Nnx
