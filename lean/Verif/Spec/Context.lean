import Verif.Model.Context
/-
Histories of calls on RNG contexts.
-/
namespace Nnx
variable {κ η : Type}

/-- The base keys of the streams that `nnx.context(...)` creates (an existing stream object creates none). -/
def newKeys (P : RngPrims κ η) : List (Str × RngSpec κ) → List κ
  | [] => []
  | (_, .seed n) :: rest => P.prngKey n :: newKeys P rest
  | (_, .key k) :: rest => k :: newKeys P rest
  | (_, .stream _) :: rest => newKeys P rest

/-- The arguments of `nnx.context`, with `params` as one of them. -/
def contextArgs (params : Option (RngSpec κ)) (rngs : List (Str × RngSpec κ)) : List (Str × RngSpec κ) :=
  match params with
  | none => rngs
  | some p => rngs ++ [(py! "params", p)]

/-- Arguments a caller can pass: distinct names, "params" only as the first argument, and stream objects that exist. -/
structure GoodArgs (w : RngWorld κ) (params : Option (RngSpec κ)) (rngs : List (Str × RngSpec κ)) : Prop where
  names : (rngs.map (·.1)).Nodup
  noParams : py! "params" ∉ rngs.map (·.1)
  streams : ∀ n s, (n, RngSpec.stream s) ∈ contextArgs params rngs → s < w.streams.length

/-- All histories of API calls in which new streams get base keys that were not used before and each
PureContext is merged at most once. `pend` are the PureContexts not merged yet, `keys` the keys that `make_rng`
returned so far. -/
inductive RngHist (P : RngPrims κ η) : RngWorld κ → List (PureContext κ) → List κ → Prop
  | start (j : Nat) (s : List Nat) : RngHist P ⟨[], [], j, s⟩ [] []
  | create {w pend keys params rngs flags} : RngHist P w pend keys → GoodArgs w params rngs →
      (newKeys P (contextArgs params rngs)).Nodup →
      (∀ k ∈ newKeys P (contextArgs params rngs), ∀ st ∈ w.streams, st.key ≠ k) →
      RngHist P (newContext P params flags rngs w).1 pend keys
  | make {w pend keys c name w' k} : RngHist P w pend keys → makeRng P c name w = (w', .ok k) →
      RngHist P w' pend (k :: keys)
  | partition {w pend keys c w' p} : RngHist P w pend keys → partitionCtx c w = (w', .ok p) →
      RngHist P w' (p :: pend) keys
  | merge {w pend keys p pend' w' c} : RngHist P w pend keys → pend.Perm (p :: pend') → mergeCtx p w = (w', .ok c) →
      RngHist P w' pend' keys
  | copy {w pend keys c w' c'} : RngHist P w pend keys → copyCtx c w = (w', .ok c') → RngHist P w' pend keys
  | trace {w pend keys} (j : Nat) (s : List Nat) : RngHist P w pend keys →
      RngHist P { w with jaxTrace := j, nnxStack := s } pend keys

/-- One API call, by anyone. -/
inductive RngEv (κ : Type) where
  | make (c : Nat) (name : Str)
  | partition (c : Nat)
  | merge (p : PureContext κ)
  | copy (c : Nat)
  | create (params : Option (RngSpec κ)) (flags : Dict Str Bool) (rngs : List (Str × RngSpec κ))
  | trace (j : Nat) (s : List Nat)

/-- The world after a call (whether or not it raises). -/
def runEv (P : RngPrims κ η) : RngEv κ → RngWorld κ → RngWorld κ
  | .make c name, w => (makeRng P c name w).1
  | .partition c, w => (partitionCtx c w).1
  | .merge p, w => (mergeCtx p w).1
  | .copy c, w => (copyCtx c w).1
  | .create params flags rngs, w => (newContext P params flags rngs w).1
  | .trace j s, w => { w with jaxTrace := j, nnxStack := s }

/-- The world after a sequence of calls. -/
def runEvs (P : RngPrims κ η) (evs : List (RngEv κ)) (w : RngWorld κ) : RngWorld κ :=
  evs.foldl (fun w e => runEv P e w) w

/-- Context `c` exists and may be used in the current trace. -/
def usable (w : RngWorld κ) (c : Nat) : Option CtxObj :=
  match w.ctxs[c]? with
  | some ctx => if ctx.trace = w.curTrace then some ctx else none
  | none => none

/-- How often a call uses the stream `s`: `make_rng` of a name bound to it once, `partition` once per name bound
to it; all other calls, and calls that raise, not at all. -/
def uses (s : Nat) : RngEv κ → RngWorld κ → Nat
  | .make c name, w =>
    match usable w c with
    | some ctx => if dget ctx.rngs name = some s then 1 else 0
    | none => 0
  | .partition c, w =>
    match usable w c with
    | some ctx => (ctx.rngs.filter (fun kv => kv.2 == s)).length
    | none => 0
  | _, _ => 0

/-- How often a sequence of calls uses the stream `s`. -/
def usesAll (P : RngPrims κ η) (s : Nat) : List (RngEv κ) → RngWorld κ → Nat
  | [], _ => 0
  | e :: es, w => uses s e w + usesAll P s es (runEv P e w)

/-- Every context is bound to existing streams, under distinct names, and its flags have distinct names. -/
structure WFRng (w : RngWorld κ) : Prop where
  addr : ∀ ctx ∈ w.ctxs, ∀ n s, (n, s) ∈ ctx.rngs → s < w.streams.length
  nodup : ∀ ctx ∈ w.ctxs, DNodup ctx.rngs
  flags : ∀ ctx ∈ w.ctxs, DNodup ctx.flags

/-- Calls with arguments a caller can pass. -/
def RngEv.Good (w : RngWorld κ) : RngEv κ → Prop
  | .create params flags rngs => GoodArgs w params rngs ∧ DNodup flags
  | _ => True

/-- Every call of a sequence gets arguments a caller can pass at that point. -/
def GoodAll (P : RngPrims κ η) : List (RngEv κ) → RngWorld κ → Prop
  | [], _ => True
  | e :: es, w => e.Good w ∧ GoodAll P es (runEv P e w)

/-- Calls on one context. -/
inductive CtxOp where
  | make (name : Str)
  | partition

/-- The result of a call on one context. -/
inductive CtxOut (κ : Type) where
  | key (r : Except Err κ)
  | pure (r : Except Err (PureContext κ))

/-- The results of a sequence of calls on context `c`. -/
def runOps (P : RngPrims κ η) (c : Nat) : List CtxOp → RngWorld κ → List (CtxOut κ)
  | [], _ => []
  | .make name :: ops, w => .key (makeRng P c name w).2 :: runOps P c ops (makeRng P c name w).1
  | .partition :: ops, w => .pure (partitionCtx c w).2 :: runOps P c ops (partitionCtx c w).1

/-- The stream objects bound to the names of a context are pairwise different. -/
def CtxObj.Unaliased (c : CtxObj) : Prop := (c.rngs.map (·.2)).Nodup

mutual
/-- Which stream names an RNG filter selects. -/
def RngFilter.Selects (name : Str) : RngFilter → Prop
  | .none => False
  | .ellipsis => True
  | .pred p => p name = true
  | .str s => name = s
  | .map fs => SelectsMap name fs
  | .seq fs => SelectsSeq name fs
  | .invalid => False
def SelectsMap (name : Str) : List (RngFilter × Bool) → Prop
  | [] => False
  | (f, inc) :: rest => (inc = true ∧ f.Selects name) ∨ SelectsMap name rest
def SelectsSeq (name : Str) : List RngFilter → Prop
  | [] => False
  | f :: rest => f.Selects name ∨ SelectsSeq name rest
end

mutual
/-- No part of the filter that counts is an object of the wrong kind. -/
def RngFilter.Valid : RngFilter → Prop
  | .map fs => ValidMap fs
  | .seq fs => ValidSeq fs
  | .invalid => False
  | _ => True
def ValidMap : List (RngFilter × Bool) → Prop
  | [] => True
  | (f, inc) :: rest => (inc = true → f.Valid) ∧ ValidMap rest
def ValidSeq : List RngFilter → Prop
  | [] => True
  | f :: rest => f.Valid ∧ ValidSeq rest
end

end Nnx
