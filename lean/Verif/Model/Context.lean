import Verif.Model.Module
/-
nnx/contextlib.py: RNG streams, contexts, and RNG filters.
-/
namespace Nnx

/-- The external primitives used by contextlib.py, as parameters: `κ` is the type of key arrays, `η` that of
the 32-bit integers given to `fold_in`.
`prngKey` is `jax.random.PRNGKey`, `hash` the first 4 bytes of blake2s (nnx/contextlib.py:17-20), `foldIn` is
`jax.random.fold_in`. -/
structure RngPrims (κ η : Type) where
  prngKey : Int → κ
  hash : Str → η
  foldIn : κ → η → κ

/-- One decimal digit. -/
def digitChar (d : Nat) : Char := Char.ofNat (48 + d)

/-- The decimal digits of `n`, least significant first. -/
def digitsRev (n : Nat) : Str :=
  if n < 10 then [digitChar n] else digitChar (n % 10) :: digitsRev (n / 10)
termination_by n
decreasing_by omega

/-- `str(n)` for a non-negative int -/
def strNat (n : Nat) : Str := (digitsRev n).reverse

/-- `" ".join(str(x) for x in data)` (nnx/contextlib.py:16) -/
def encodeCounts : List Nat → Str
  | [] => []
  | [n] => strNat n
  | n :: m :: ns => strNat n ++ ' ' :: encodeCounts (m :: ns)

/-- `RngStream` (nnx/contextlib.py:74-78) -/
structure RngStream (κ : Type) where
  key : κ
  count : Nat := 0
  path : List Nat := []
deriving DecidableEq, Repr

/-- `Context` (nnx/contextlib.py:81-91): the streams are mutable objects, so the mapping holds addresses. -/
structure CtxObj where
  rngs : Dict Str Nat
  flags : Dict Str Bool
  trace : Trace
deriving DecidableEq, Repr

/-- The stream and context objects, the current jax trace and the nnx trace stack. -/
structure RngWorld (κ : Type) where
  streams : List (RngStream κ)
  ctxs : List CtxObj
  jaxTrace : Nat
  nnxStack : List Nat
deriving DecidableEq, Repr

variable {κ η : Type}

/-- `TraceState()` (nnx/tracers.py:78-80) -/
def RngWorld.curTrace (w : RngWorld κ) : Trace := ⟨w.jaxTrace, w.nnxStack.getLastD 0⟩

/-- `PureContext` and `ContextDef` (nnx/contextlib.py:23-58) -/
structure PureContext (κ : Type) where
  keys : Dict Str κ
  rngCounts : List (Str × List Nat)
  flags : List (Str × Bool)
deriving DecidableEq, Repr

/-- `ctx.has_rng(name)` (nnx/contextlib.py:93-94) -/
def CtxObj.hasRng (c : CtxObj) (name : Str) : Bool := dhas c.rngs name
/-- `ctx.has_flag(name)` (nnx/contextlib.py:110-111) -/
def CtxObj.hasFlag (c : CtxObj) (name : Str) : Bool := dhas c.flags name
/-- `ctx.get_flag(name)` (nnx/contextlib.py:113-114) -/
def CtxObj.getFlag (c : CtxObj) (name : Str) : Option Bool := dget c.flags name

/-- `stream.count += 1` -/
def bump (ss : List (RngStream κ)) (s : Nat) (st : RngStream κ) : List (RngStream κ) :=
  ss.set s { st with count := st.count + 1 }

/-- `ctx.make_rng(name)` (nnx/contextlib.py:96-105) -/
def makeRng (P : RngPrims κ η) (c : Nat) (name : Str) (w : RngWorld κ) : RngWorld κ × Except Err κ :=
  match w.ctxs[c]? with
  | none => (w, .error .unmodelled)
  | some ctx =>
    match dget ctx.rngs name with
    | none => (w, .error .valueError)
    | some s =>
      if ctx.trace = w.curTrace then
        match w.streams[s]? with
        | none => (w, .error .unmodelled)
        | some st =>
          let foldData := P.hash (encodeCounts (st.path ++ [st.count]))
          ({ w with streams := bump w.streams s st }, .ok (P.foldIn st.key foldData))
      else (w, .error .traceContextError)

/-- `ctx.copy()` (nnx/contextlib.py:107-108): the same stream objects, the current trace. -/
def copyCtx (c : Nat) (w : RngWorld κ) : RngWorld κ × Except Err Nat :=
  match w.ctxs[c]? with
  | none => (w, .error .unmodelled)
  | some ctx => ({ w with ctxs := w.ctxs ++ [{ ctx with trace := w.curTrace }] }, .ok w.ctxs.length)

/-- The dict comprehension with `fork` in `partition` (nnx/contextlib.py:120-125): the streams afterwards and the
forked streams by name. -/
def forkAll : List (Str × Nat) → List (RngStream κ) → Option (List (RngStream κ) × List (Str × RngStream κ))
  | [], ss => some (ss, [])
  | (name, s) :: rest, ss =>
    match ss[s]? with
    | none => none
    | some st =>
      match forkAll rest (bump ss s st) with
      | none => none
      | some (ss', fs) => some (ss', (name, ⟨st.key, 0, st.path ++ [st.count]⟩) :: fs)

/-- `ctx.partition()` (nnx/contextlib.py:116-128) -/
def partitionCtx (c : Nat) (w : RngWorld κ) : RngWorld κ × Except Err (PureContext κ) :=
  match w.ctxs[c]? with
  | none => (w, .error .unmodelled)
  | some ctx =>
    if ctx.trace = w.curTrace then
      match forkAll ctx.rngs w.streams with
      | none => (w, .error .unmodelled)
      | some (ss, fs) =>
        ({ w with streams := ss },
          .ok ⟨fs.map (fun kv => (kv.1, kv.2.key)), fs.map (fun kv => (kv.1, kv.2.path)), ctx.flags⟩)
    else (w, .error .traceContextError)

/-- The dict comprehension in `ContextDef.merge` (nnx/contextlib.py:34-37): new streams, and their addresses
(counted from `base`) by name. -/
def mergeStreams (keys : Dict Str κ) : List (Str × List Nat) → Nat → Except Err (List (RngStream κ) × List (Str × Nat))
  | [], _ => .ok ([], [])
  | (name, path) :: rest, base =>
    match dget keys name with
    | none => .error .keyError
    | some k =>
      match mergeStreams keys rest (base + 1) with
      | .error e => .error e
      | .ok (ss, rs) => .ok (⟨k, 0, path⟩ :: ss, (name, base) :: rs)

/-- `pure_context.merge()` (nnx/contextlib.py:33-38, 57-58) -/
def mergeCtx (p : PureContext κ) (w : RngWorld κ) : RngWorld κ × Except Err Nat :=
  match mergeStreams p.keys p.rngCounts w.streams.length with
  | .error e => (w, .error e)
  | .ok (ss, rs) =>
    ({ w with streams := w.streams ++ ss, ctxs := w.ctxs ++ [⟨dofList rs, dofList p.flags, w.curTrace⟩] },
      .ok w.ctxs.length)

/-- What can be given for a stream in `context(...)` (nnx/contextlib.py:131-136). -/
inductive RngSpec (κ : Type) where
  | seed (n : Int)
  | key (k : κ)
  | stream (s : Nat)
deriving DecidableEq, Repr

/-- The dict comprehension of `context` (nnx/contextlib.py:142-149): the streams afterwards and the mapping. -/
def makeStreams (P : RngPrims κ η) : List (Str × RngSpec κ) → List (RngStream κ) →
    List (RngStream κ) × List (Str × Nat)
  | [], ss => (ss, [])
  | (name, .seed n) :: rest, ss =>
    let (ss', rs) := makeStreams P rest (ss ++ [⟨P.prngKey n, 0, []⟩])
    (ss', (name, ss.length) :: rs)
  | (name, .key k) :: rest, ss =>
    let (ss', rs) := makeStreams P rest (ss ++ [⟨k, 0, []⟩])
    (ss', (name, ss.length) :: rs)
  | (name, .stream s) :: rest, ss =>
    let (ss', rs) := makeStreams P rest ss
    (ss', (name, s) :: rs)

/-- `nnx.context(params, flags=flags, **rngs)` (nnx/contextlib.py:131-151); `rngs` are the keyword arguments, with
distinct names other than "params". Returns the new context. -/
def newContext (P : RngPrims κ η) (params : Option (RngSpec κ)) (flags : Dict Str Bool) (rngs : List (Str × RngSpec κ))
    (w : RngWorld κ) : RngWorld κ × Nat :=
  let rngs := match params with
    | none => rngs
    | some p => dset rngs (py! "params") p
  let (ss, rs) := makeStreams P rngs w.streams
  ({ w with streams := ss, ctxs := w.ctxs ++ [⟨dofList rs, flags, w.curTrace⟩] }, w.ctxs.length)

/-! ### RNG filters -/

/-- What may be given where an `RngFilter` is expected (nnx/contextlib.py:159-163), and anything else. -/
inductive RngFilter where
  | none
  | ellipsis
  | pred (p : Str → Bool)
  | str (s : Str)
  | map (fs : List (RngFilter × Bool))
  | seq (fs : List RngFilter)
  | invalid

mutual
/-- `to_rng_predicate(filter)` (nnx/contextlib.py:166-184) -/
def toRngPredicate : RngFilter → Except Err (Str → Bool)
  | .none => .ok (fun _ => false)
  | .ellipsis => .ok (fun _ => true)
  | .pred p => .ok p
  | .str s => .ok (fun name => decide (name = s))
  | .map fs =>
    match toRngPredicatesIncluded fs with
    | .error e => .error e
    | .ok ps => .ok (fun name => ps.any (fun p => p name))
  | .seq fs =>
    match toRngPredicates fs with
    | .error e => .error e
    | .ok ps => .ok (fun name => ps.any (fun p => p name))
  | .invalid => .error .typeError

/-- The generator at nnx/contextlib.py:176-178: excluded filters are not even converted. -/
def toRngPredicatesIncluded : List (RngFilter × Bool) → Except Err (List (Str → Bool))
  | [] => .ok []
  | (f, inc) :: rest =>
    if inc then
      match toRngPredicate f with
      | .error e => .error e
      | .ok p =>
        match toRngPredicatesIncluded rest with
        | .error e => .error e
        | .ok ps => .ok (p :: ps)
    else toRngPredicatesIncluded rest

/-- `tuple(map(to_rng_predicate, filter))` (nnx/contextlib.py:181) -/
def toRngPredicates : List RngFilter → Except Err (List (Str → Bool))
  | [] => .ok []
  | f :: rest =>
    match toRngPredicate f with
    | .error e => .error e
    | .ok p =>
      match toRngPredicates rest with
      | .error e => .error e
      | .ok ps => .ok (p :: ps)
end

end Nnx
