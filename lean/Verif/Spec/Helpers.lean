import Verif.Model.Helpers
import Verif.Spec.Module
import Verif.Spec.Pytree
/-
Independent specification vocabulary for nnx/helpers.py and dataclass fields.
-/
namespace Nnx
variable {α : Type}

/-- What may be assigned to an attribute: a Module, a plain value or a well-formed container. -/
def GoodAttr : Attr α → Prop
  | .ref _ => True
  | .val v => GoodField v

/-- What one gets when reading something that was stored: the content of a container, anything else itself. -/
def seen : Attr α → Attr α
  | .val (.cont _ v _) => .val v
  | a => a

/-- How a result is passed to the next layer: a tuple as positional arguments, a dict as keyword arguments, anything
else as the only argument. -/
inductive PassedAs {V : Type} : Out V → List V → Dict Str V → Prop
  | tup (xs : List V) : PassedAs (.tup xs) xs []
  | dict (kw : Dict Str V) : PassedAs (.dict kw) [] kw
  | other (v : V) : PassedAs (.other v) [v] []

/-- A layer accepts the keyword argument `ctx`: it has a parameter of that name that can be given by keyword. -/
def AcceptsCtx {σ V : Type} (f : Layer σ V) : Prop :=
  ∃ kind, (py! "ctx", kind) ∈ f.params ∧ (kind = .keywordOnly ∨ kind = .positionalOrKeyword)

/-- The keyword arguments with the context added: only if there is one and the layer accepts it. -/
def WithCtx {σ V : Type} (ctx : Option V) (f : Layer σ V) (kw kw' : Dict Str V) : Prop :=
  (∀ c, ctx = some c → AcceptsCtx f → dget kw' (py! "ctx") = some c ∧ ∀ k, k ≠ py! "ctx" → dget kw' k = dget kw k) ∧
  (ctx = none ∨ ¬AcceptsCtx f → kw' = kw)

/-- The composition of the layers: started with the given arguments in state `s`, each layer runs on the result of the
one before; the last result is the result, the first exception ends it. -/
inductive Pipeline {σ V : Type} (ctx : Option V) :
    List (Layer σ V) → List V → Dict Str V → σ → σ → Except Err (Out V) → Prop
  | last {f : Layer σ V} {args kw kw' s s' r} : f.callable = true → WithCtx ctx f kw kw' →
      f.run args kw' s = (s', r) → Pipeline ctx [f] args kw s s' r
  | next {f g : Layer σ V} {fs args kw kw' s s' out args2 kw2 s'' r} : f.callable = true → WithCtx ctx f kw kw' →
      f.run args kw' s = (s', .ok out) → PassedAs out args2 kw2 → Pipeline ctx (g :: fs) args2 kw2 s' s'' r →
      Pipeline ctx (f :: g :: fs) args kw s s'' r
  | raise {f g : Layer σ V} {fs args kw kw' s s' e} : f.callable = true → WithCtx ctx f kw kw' →
      f.run args kw' s = (s', .error e) → Pipeline ctx (f :: g :: fs) args kw s s' (.error e)
  | notCallable {f : Layer σ V} {fs args kw s} : f.callable = false →
      Pipeline ctx (f :: fs) args kw s s (.error .typeError)

/-- The container a field declaration asks for: its class and metadata. -/
def FieldKind.box : FieldKind α → Option (Cls × Md α)
  | .plain => none
  | .node => some (cNode, [])
  | .static => some (cStatic, [])
  | .var vt sharding => some (vt, [(py! "sharding", sharding)])

/-- What a field declared like this holds after being given `v`: the declared container around the value (given bare,
or in an equivalent container); for a plain field, `v`. -/
def Wrapped (k : FieldKind α) (v x : PyVal α) : Prop :=
  match k.box with
  | none => x = v
  | some (c, m) => ∃ u, x = .cont c u m ∧ (v = u ∧ v.Plain ∨ ∃ n, v = .cont c u n ∧ MdSame n m)

/-- The field's declaration refuses `v`: it is a container of another class or with other metadata. -/
def WrapRefused (k : FieldKind α) (v : PyVal α) : Prop :=
  ∃ c m d u n, k.box = some (c, m) ∧ v = .cont d u n ∧ ¬(d = c ∧ MdSame n m)

/-- The same for an attribute of a Module: a field may hold a Module if it is declared without a container. -/
def AttrWrapped (k : FieldKind α) (a b : Attr α) : Prop :=
  (k.box = none ∧ b = a) ∨ ∃ v x, a = .val v ∧ b = .val x ∧ Wrapped k v x

/-- A declaration that makes sense: `var_field` is given a class that takes metadata. -/
def FieldKind.Ok : FieldKind α → Prop
  | .var vt _ => vt.isSub cStatic = false
  | _ => True

/-- The value a constructor call gives to a field: the keyword argument, else the default. -/
def PField.Given (f : PField α) (kw : Md α) (v : PyVal α) : Prop :=
  dget kw f.name = some v ∨ dget kw f.name = none ∧ f.default = some v

/-- The same for a dataclass Module. -/
def MField.Given (f : MField α) (kw : Dict Str (Attr α)) (a : Attr α) : Prop :=
  dget kw f.name = some a ∨ dget kw f.name = none ∧ f.default = some a

/-- The three fields that the optimiser changes. -/
def trainFields : List Str := [py! "params", py! "opt_state", py! "step"]

/-- Steps of an optimiser: from parameters, optimiser state and step counter, one gradient after the other. -/
inductive Trained (O : OptaxOps α) (tx : PyVal α) :
    List (PyVal α) → PyVal α × PyVal α × PyVal α → PyVal α × PyVal α × PyVal α → Prop
  | done (t) : Trained O tx [] t t
  | step {g : PyVal α} {gs p o s u o' t} : O.update tx g o p = .ok (u, o') →
      Trained O tx gs (O.applyUpdates p u, o', O.succ s) t → Trained O tx (g :: gs) (p, o, s) t

/-- Reading a field: the value of a container, or what the field holds. -/
def Reads (vars : Md α) (name : Str) (v : PyVal α) : Prop := ∃ x, dget vars name = some x ∧ x.valueOf = v

/-- The container (class and metadata) around a field's value, if there is one. -/
def boxOf : PyVal α → Option (Cls × Md α)
  | .cont c _ m => some (c, m)
  | _ => none

/-- The optimiser and the arithmetic return ordinary values, not nnx containers. -/
structure OptaxOps.Plain (O : OptaxOps α) : Prop where
  update : ∀ tx g o p u o', O.update tx g o p = .ok (u, o') → o'.Plain
  applyUpdates : ∀ p u, (O.applyUpdates p u).Plain
  succ : ∀ s, (O.succ s).Plain

/-- `for g in grads: state = state.apply_gradients(g)` -/
def applyAll [DecidableEq α] (O : OptaxOps α) (env : PEnv α) :
    List (PyVal α) → Nat → PHeap α → PHeap α × Except Err Nat
  | [], l, h => (h, .ok l)
  | g :: gs, l, h =>
    match applyGradients O env l g [] h with
    | (h, .error e) => (h, .error e)
    | (h, .ok l) => applyAll O env gs l h

end Nnx
