import Verif.Model.SequenceDicts
/-
Layers whose dictionaries are objects, and their relation to the layers of C66.
-/
namespace Nnx
variable {σ V : Type}

/-- What a result shows to someone who reads it now. -/
def DOut.shown (st : DStore V) : DOut V → Out V
  | .tup xs => .tup xs
  | .dict l => .dict (st[l]?.getD [])
  | .other v => .other v

/-- The layer of C66 that shows what this one returns; the dictionaries of the program are part of its state. -/
def DLayer.shown (f : DLayer σ V) : Layer (σ × DStore V) V where
  callable := f.callable
  params := f.params
  run args kwargs s :=
    match f.run args kwargs s.1 s.2 with
    | (s', .error e) => (s', .error e)
    | (s', .ok out) => (s', .ok (out.shown s'.2))

/-- A layer of C66 as a layer that returns a new dictionary whenever it returns one. -/
def Layer.fresh (f : Layer σ V) : DLayer σ V where
  callable := f.callable
  params := f.params
  run args kwargs s st :=
    match f.run args kwargs s with
    | (s', .error e) => ((s', st), .error e)
    | (s', .ok (.tup xs)) => ((s', st), .ok (.tup xs))
    | (s', .ok (.dict kw)) => ((s', st ++ [kw]), .ok (.dict st.length))
    | (s', .ok (.other v)) => ((s', st), .ok (.other v))

/-- The layer changes no dictionary that exists already. -/
def DLayer.Keeps (f : DLayer σ V) : Prop :=
  ∀ args kwargs s st, st.length ≤ (f.run args kwargs s st).1.2.length ∧
    ∀ l, l < st.length → (f.run args kwargs s st).1.2[l]? = st[l]?

/-- When the layer returns a dictionary, it has made it during the call. -/
def DLayer.ReturnsNew (f : DLayer σ V) : Prop :=
  ∀ args kwargs s st l, (f.run args kwargs s st).2 = .ok (.dict l) → st.length ≤ l

end Nnx
