import Verif.Model.TransformsCtx
import Verif.Spec.Nested
/-
Functions of a Module and a Context that call other such functions, directly or through `nnx.remat`, and the same functions without `nnx.remat`.
-/
namespace Nnx
variable {α κ η L β : Type}

/-- A function `f(m, *, ctx)` of one Module (reference 0) and one Context. It may call other functions on the Modules it holds, with its Context; exceptions of these are
not caught. -/
inductive CtxRoutine (α κ β : Type) where
  /-- `return b` -/
  | ret (b : β)
  /-- `raise e` -/
  | fail (e : Err)
  /-- an operation on Modules; goes on with what it has seen -/
  | op (o : Op α) (k : Seen α → CtxRoutine α κ β)
  /-- `ctx.make_rng(name)`; the exception may be caught -/
  | draw (name : Str) (k : Except Err κ → CtxRoutine α κ β)
  /-- `ctx.has_rng(name)` -/
  | hasRng (name : Str) (k : Bool → CtxRoutine α κ β)
  /-- `ctx.get_flag(name)` (`none` stands for None) -/
  | flag (name : Str) (k : Option Bool → CtxRoutine α κ β)
  /-- `b = body(m, ctx=ctx)` -/
  | call (m : Nat) (body : CtxRoutine α κ β) (k : β → CtxRoutine α κ β)
  /-- `b = nnx.remat(body)(m, ctx=ctx)`, where `jax.checkpoint` opens the trace `j` -/
  | remat (j m : Nat) (body : CtxRoutine α κ β) (k : β → CtxRoutine α κ β)

/-- Functions whose operations are good as long as what they have seen is. -/
def CtxRoutine.Good : CtxRoutine α κ β → Prop
  | .ret _ => True
  | .fail _ => True
  | .op o k => o.Good ∧ ∀ x, x.Good → (k x).Good
  | .draw _ k => ∀ x, (k x).Good
  | .hasRng _ k => ∀ x, (k x).Good
  | .flag _ k => ∀ x, (k x).Good
  | .call _ body k => body.Good ∧ ∀ b, (k b).Good
  | .remat _ _ body k => body.Good ∧ ∀ b, (k b).Good

/-- A key that was drawn, in front of those drawn before. -/
def recordKey : Except Err κ → List κ → List κ
  | .ok k, ks => k :: ks
  | .error _, ks => ks

/-- The same function, which in addition returns all keys that it and the functions it calls have drawn (the last one first), after the keys `ks`. -/
def CtxRoutine.recording : CtxRoutine α κ β → List κ → CtxRoutine α κ (β × List κ)
  | .ret b, ks => .ret (b, ks)
  | .fail e, _ => .fail e
  | .op o k, ks => .op o fun s => (k s).recording ks
  | .draw name k, ks => .draw name fun x => (k x).recording (recordKey x ks)
  | .hasRng name k, ks => .hasRng name fun x => (k x).recording ks
  | .flag name k, ks => .flag name fun x => (k x).recording ks
  | .call m body k, ks => .call m (body.recording ks) fun y => (k y.1).recording y.2
  | .remat j m body k, ks => .remat j m (body.recording ks) fun y => (k y.1).recording y.2

/-- A property of the context object `c`. -/
def askCtx {γ : Type} (d : γ) (f : CtxObj → γ) (c : Nat) (r : RngWorld κ) : γ :=
  match r.ctxs[c]? with
  | none => d
  | some ctx => f ctx

variable [DecidableEq α]

/-- A call whose recursion budget is large enough (as `unlimited`). -/
def unlimitedCtx {γ : Type} (call : Nat → Joint α κ → Joint α κ × γ) (x : Joint α κ) : Joint α κ × γ :=
  call ((call (x.1.heap.length + 1) x).1.1.heap.length + 1) x

/-- What a function does, for the Modules `K` it holds and the Context `c`. -/
def CtxRoutine.run (P : RngPrims κ η) : CtxRoutine α κ β → List Loc → Nat → Joint α κ → Joint α κ × Except Err β
  | .ret b, _, _, x => (x, .ok b)
  | .fail e, _, _, x => (x, .error e)
  | .op o k, K, c, x =>
    match o.run K x.1 with
    | .error e => (x, .error e)
    | .ok (s, K, w) => (k s).run P K c (w, x.2)
  | .draw name k, K, c, x => (k (makeRng P c name x.2).2).run P K c (x.1, (makeRng P c name x.2).1)
  | .hasRng name k, K, c, x => (k (askCtx false (·.hasRng name) c x.2)).run P K c x
  | .flag name k, K, c, x => (k (askCtx none (·.getFlag name) c x.2)).run P K c x
  | .call m body k, K, c, x =>
    match K[m]? with
    | none => (x, .error .unmodelled)
    | some l =>
      match body.run P [l] c x with
      | (x, .error e) => (x, .error e)
      | (x, .ok b) => (k b).run P K c x
  | .remat j m body k, K, c, x =>
    match K[m]? with
    | none => (x, .error .unmodelled)
    | some l =>
      match unlimitedCtx (fun fuel => rematCtxCall fuel j l c fun l c x => body.run P [l] c x) x with
      | (x, .error e) => (x, .error e)
      | (x, .ok b) => (k b).run P K c x

/-- What the function does without `nnx.remat`: `nnx.remat(f)(m, ctx=ctx)` is `f(m, ctx=ctx.partition().merge())`. -/
def CtxRoutine.plain (P : RngPrims κ η) : CtxRoutine α κ β → List Loc → Nat → Joint α κ → Joint α κ × Except Err β
  | .ret b, _, _, x => (x, .ok b)
  | .fail e, _, _, x => (x, .error e)
  | .op o k, K, c, x =>
    match o.run K x.1 with
    | .error e => (x, .error e)
    | .ok (s, K, w) => (k s).plain P K c (w, x.2)
  | .draw name k, K, c, x => (k (makeRng P c name x.2).2).plain P K c (x.1, (makeRng P c name x.2).1)
  | .hasRng name k, K, c, x => (k (askCtx false (·.hasRng name) c x.2)).plain P K c x
  | .flag name k, K, c, x => (k (askCtx none (·.getFlag name) c x.2)).plain P K c x
  | .call m body k, K, c, x =>
    match K[m]? with
    | none => (x, .error .unmodelled)
    | some l =>
      match body.plain P [l] c x with
      | (x, .error e) => (x, .error e)
      | (x, .ok b) => (k b).plain P K c x
  | .remat _ m body k, K, c, x =>
    match K[m]? with
    | none => (x, .error .unmodelled)
    | some l =>
      match partitionCtx c x.2 with
      | (r, .error e) => ((x.1, r), .error e)
      | (r, .ok p) =>
        match mergeCtx p r with
        | (r, .error e) => ((x.1, r), .error e)
        | (r, .ok c') =>
          match body.plain P [l] c' (x.1, r) with
          | (x, .error e) => (x, .error e)
          | (x, .ok b) => (k b).plain P K c x

/-- At every call through `nnx.remat`, the effect of the direct call on the Module is node writes: the effects that can be carried back. -/
def CtxRoutine.Carried (P : RngPrims κ η) : CtxRoutine α κ β → List Loc → Nat → Joint α κ → Prop
  | .ret _, _, _, _ => True
  | .fail _, _, _, _ => True
  | .op o k, K, c, x => ∀ s K' w', o.run K x.1 = .ok (s, K', w') → (k s).Carried P K' c (w', x.2)
  | .draw name k, K, c, x => (k (makeRng P c name x.2).2).Carried P K c (x.1, (makeRng P c name x.2).1)
  | .hasRng name k, K, c, x => (k (askCtx false (·.hasRng name) c x.2)).Carried P K c x
  | .flag name k, K, c, x => (k (askCtx none (·.getFlag name) c x.2)).Carried P K c x
  | .call m body k, K, c, x => ∀ l, K[m]? = some l →
    body.Carried P [l] c x ∧ ∀ y b, body.plain P [l] c x = (y, .ok b) → (k b).Carried P K c y
  | .remat _ m body k, K, c, x => ∀ l, K[m]? = some l → ∀ r p r' c', partitionCtx c x.2 = (r, .ok p) → mergeCtx p r = (r', .ok c') →
    body.Carried P [l] c' (x.1, r') ∧ ∀ y b, body.plain P [l] c' (x.1, r') = (y, .ok b) →
      NodeWrites x.1 y.1 l ∧ (k b).Carried P K c y

end Nnx
