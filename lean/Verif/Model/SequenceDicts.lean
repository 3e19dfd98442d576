import Verif.Model.Helpers
/-
nnx/helpers.py: `Sequence.__call__` when dictionaries are objects: a layer may return a dictionary that it keeps.
-/
namespace Nnx
variable {σ V : Type}

/-- The dictionaries of a program, by address. -/
abbrev DStore (V : Type) := List (Dict Str V)

/-- What a layer returns, as far as `Sequence.__call__` looks at it; a dictionary is an object. -/
inductive DOut (V : Type) where
  | tup (xs : List V)
  | dict (l : Nat)
  | other (v : V)
deriving DecidableEq, Repr

/-- A layer. Its keyword arguments are a dictionary that Python makes for the call (`f(*args, **kwargs)`), so they are passed by
their contents. -/
structure DLayer (σ V : Type) where
  callable : Bool
  params : List (Str × ParamKind)
  run : List V → Dict Str V → σ → DStore V → (σ × DStore V) × Except Err (DOut V)

/-- The variable `kwargs` of `Sequence.__call__`: a dictionary that only the call knows, or one that a layer returned
(nnx/helpers.py:81). -/
inductive KwArg (V : Type) where
  | own (kw : Dict Str V)
  | obj (l : Nat)

/-- The entries of `kwargs` (nnx/helpers.py:88). -/
def KwArg.entries (st : DStore V) : KwArg V → Dict Str V
  | .own kw => kw
  | .obj l => st[l]?.getD []

/-- The arguments for the next layer (nnx/helpers.py:75-84) -/
def nextArgsD : DOut V → List V × KwArg V
  | .tup xs => (xs, .own [])
  | .dict l => ([], .obj l)
  | .other v => ([v], .own [])

/-- `kwargs["ctx"] = ctx` (nnx/helpers.py:86): writes into the dictionary, whoever made it. -/
def KwArg.write (c : V) (st : DStore V) : KwArg V → KwArg V × DStore V
  | .own kw => (.own (dset kw (py! "ctx") c), st)
  | .obj l => (.obj l, st.set l (dset (st[l]?.getD []) (py! "ctx") c))

/-- The same under its condition (nnx/helpers.py:85-86) -/
def addCtxD (ctx : Option V) (f : DLayer σ V) (kwargs : KwArg V) (st : DStore V) : KwArg V × DStore V :=
  match ctx with
  | some c => if hasKeywordArg f.params (py! "ctx") then kwargs.write c st else (kwargs, st)
  | none => (kwargs, st)

/-- The loop of `Sequence.__call__` (nnx/helpers.py:72-90) from index `i` on; compare `sequenceLoop`. -/
def sequenceLoopD (fetch : Nat → σ → Except Err (DLayer σ V)) (ctx : Option V) :
    Nat → Nat → List V → KwArg V → DOut V → σ → DStore V → (σ × DStore V) × Except Err (DOut V)
  | 0, _, _, _, output, s, st => ((s, st), .ok output)
  | n + 1, i, args, kwargs, output, s, st =>
    match fetch i s with
    | .error e => ((s, st), .error e)
    | .ok f =>
      if f.callable = false then ((s, st), .error .typeError)
      else
        let (args, kwargs) := if i > 0 then nextArgsD output else (args, kwargs)
        let (kwargs, st) := addCtxD ctx f kwargs st
        match f.run args (kwargs.entries st) s st with
        | ((s, st), .error e) => ((s, st), .error e)
        | ((s, st), .ok output) => sequenceLoopD fetch ctx n (i + 1) args kwargs output s st

/-- `seq(*args, ctx=ctx, **kwargs)` (nnx/helpers.py:69-90) for a Sequence of `n` layers: the keyword arguments are a dictionary that
Python makes for the call. -/
def sequenceCallD (fetch : Nat → σ → Except Err (DLayer σ V)) (noneV : V) (n : Nat) (args : List V) (ctx : Option V)
    (kwargs : Dict Str V) (s : σ) (st : DStore V) : (σ × DStore V) × Except Err (DOut V) :=
  sequenceLoopD fetch ctx n 0 args (.own kwargs) (.other noneV) s st

end Nnx
