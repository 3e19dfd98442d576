import Verif.Spec.Grad
import Verif.Spec.Filters
import Verif.Model.Transforms
import Verif.Model.Scan
/-
Functions that call other functions through nnx transforms: jit, remat, grad and scan nested in any way, and the same functions
without jit, remat and grad.
-/
namespace Nnx
variable {α κ L β : Type}

/-- One operation on the Modules a function holds (numbered in the order in which it obtained them). -/
inductive Op (α : Type) where
  /-- `x = m.n`; a Module becomes the next reference -/
  | get (m : Nat) (n : Str)
  /-- `m is m'` -/
  | same (m m' : Nat)
  /-- `m.n = v` -/
  | set (m : Nat) (n : Str) (v : PyVal α)
  /-- `m.n = m'` for a Module `m'` -/
  | link (m : Nat) (n : Str) (m' : Nat)
  /-- `del m.n` -/
  | del (m : Nat) (n : Str)
  /-- `SomeModule.__new__`, becomes the next reference -/
  | new (c : Cls)
  /-- `m.get_state()` -/
  | state (m : Nat)
  /-- `m.update_state(us)` -/
  | update (m : Nat) (us : List (State (PyVal α)))
  /-- `m.clone()`, becomes the next reference -/
  | clone (m : Nat)

/-- What a function sees of an operation: an attribute (`none` if there is none), a comparison, the exception of an
assignment, deletion or update (which may be caught), a new Module, or a State. -/
inductive Seen (α : Type) where
  | attr (x : Option (Shown α))
  | is (b : Bool)
  | outcome (e : Option Err)
  | made
  | state (s : State (PyVal α))

/-- Assignments and updates use names without "/" outside the reserved namespace, and values that are plain or well-formed containers. -/
def Op.Good : Op α → Prop
  | .set _ n v => GoodName n ∧ WFVal v
  | .link _ n _ => GoodName n
  | .update _ us => GoodUpdates us
  | _ => True

/-- What is seen of a world whose containers are well formed and where no attribute has a reserved name. -/
def Seen.Good : Seen α → Prop
  | .attr x => ∀ c v m, x = some (.value (.cont c v m)) → WFContainer (.cont c v m)
  | .state s => ∀ p v, (p, v) ∈ s.items → WFVal v ∧ isReserved ((splitSlash p).getLastD []) = false
  | _ => True

/-- How a function is called. `j` and `t` are the jax trace and the nnx trace that the transform opens. -/
inductive How where
  /-- `f(m)` -/
  | direct
  /-- `nnx.jit(f, stateful=...)(m)` -/
  | jit (stateful : Bool) (j t : Nat)
  /-- `nnx.remat(f)(m)` -/
  | remat (j : Nat)

/-- Whether what the function does to the Module is kept. -/
def How.kept : How → Bool
  | .direct => true
  | .jit stateful _ _ => stateful
  | .remat _ => true

/-- A function of one Module (reference 0) that may call other functions on the Modules it holds, through transforms. All
these functions return a `β`; exceptions of the functions it calls are not caught. -/
inductive Routine (α κ L β : Type) where
  /-- `return b` -/
  | ret (b : β)
  /-- `raise e` -/
  | fail (e : Err)
  /-- an operation; goes on with what it has seen -/
  | op (o : Op α) (k : Seen α → Routine α κ L β)
  /-- `b = transform(body)(m)` -/
  | call (how : How) (m : Nat) (body : Routine α κ L β) (k : β → Routine α κ L β)
  /-- `g, b = nnx.grad(body, wrt, has_aux=True, stateful=...)(m)`, where the loss is a part `loss b` of what `body` returns -/
  | grad (stateful : Bool) (j t : Nat) (wrt : Filter α) (loss : β → L) (m : Nat) (body : Routine α κ L β)
      (k : State (PyVal α) → β → Routine α κ L β)
  /-- `c, ys = nnx.scan(body, ...)(m, c, xs, ctx=ctx)`: `body` has the context, the carry and the slice of the argument of its step, and
  `out` gives the carry and the output of a step from what `body` returns. `fuel` is what is left of the recursion limit. -/
  | scan (fuel j : Nat) (o : ScanOptions α) (out : β → β × β) (m : Nat) (c : β) (xs : Option (List β)) (ctx : Option (PureContext κ))
      (body : Option (PureContext κ) → β → Option β → Routine α κ L β) (k : β → List β → Routine α κ L β)

/-- Functions whose operations are good as long as what they have seen is, and whose filters are well formed. -/
def Routine.Good : Routine α κ L β → Prop
  | .ret _ => True
  | .fail _ => True
  | .op o k => o.Good ∧ ∀ x, x.Good → (k x).Good
  | .call _ _ body k => body.Good ∧ ∀ b, (k b).Good
  | .grad _ _ _ wrt _ _ body k =>
    wrt.WellFormed ∧ body.Good ∧ ∀ g b, (∀ p v, g.get p = some v → WFVal v) → (k g b).Good
  | .scan _ _ _ _ _ _ _ _ body k => (∀ ctx c x, (body ctx c x).Good) ∧ ∀ c ys, (k c ys).Good

/-- `jit` (stateful) and `remat` left out. -/
def How.removed : How → How
  | .jit true _ _ => .direct
  | .remat _ => .direct
  | how => how

/-- The same function with all uses of stateful `jit` and of `remat` left out: the functions are called directly. -/
def Routine.removed : Routine α κ L β → Routine α κ L β
  | .ret b => .ret b
  | .fail e => .fail e
  | .op o k => .op o fun x => (k x).removed
  | .call how m body k => .call how.removed m body.removed fun b => (k b).removed
  | .grad stateful j t wrt loss m body k => .grad stateful j t wrt loss m body.removed fun g b => (k g b).removed
  | .scan fuel j o out m c xs ctx body k =>
    .scan fuel j o out m c xs ctx (fun ctx c x => (body ctx c x).removed) fun c ys => (k c ys).removed

/-- The functions of jax that the transforms use: `jax.grad`, the array operations, and `jax.random.split`. -/
structure Jax (α κ L : Type) where
  gradOf : (State (PyVal α) → Option L) → State (PyVal α) → State (PyVal α)
  arrays : Arrays α
  split : κ → Nat → Nat → κ

/-- What is assumed of `jax.grad`: it looks at its function only at States with the paths and kinds of its argument, and returns
well-formed values. -/
structure GradLaw (gradOf : (State (PyVal α) → Option L) → State (PyVal α) → State (PyVal α)) : Prop where
  depends : ∀ F G x, (∀ y, LikeState x y → F y = G y) → gradOf F x = gradOf G x
  good : ∀ F x p v, (gradOf F x).get p = some v → WFVal v

variable [DecidableEq α]

/-- The effect of one operation of a function that holds the references `K`: what it sees, its references, the world. -/
def Op.run : Op α → List Loc → World α → Except Err (Seen α × List Loc × World α)
  | .get m n, K, w =>
    match K[m]? with
    | none => .error .unmodelled
    | some l =>
      match attrAt w.heap l n with
      | none => .ok (.attr none, K, w)
      | some (.ref b) => .ok (.attr (shown w.heap (.ref b)), K ++ [b], w)
      | some (.val v) => .ok (.attr (some (.value v)), K, w)
  | .same m m', K, w =>
    match K[m]?, K[m']? with
    | some l, some l' => .ok (.is (decide (l = l')), K, w)
    | _, _ => .error .unmodelled
  | .set m n v, K, w =>
    match K[m]? with
    | none => .error .unmodelled
    | some l =>
      match setAttr w l n (.val v) with
      | .error e => .ok (.outcome (some e), K, w)
      | .ok w => .ok (.outcome none, K, w)
  | .link m n m', K, w =>
    match K[m]?, K[m']? with
    | some l, some l' =>
      match setAttr w l n (.ref l') with
      | .error e => .ok (.outcome (some e), K, w)
      | .ok w => .ok (.outcome none, K, w)
    | _, _ => .error .unmodelled
  | .del m n, K, w =>
    match K[m]? with
    | none => .error .unmodelled
    | some l =>
      match delAttr w.heap l n with
      | .error e => .ok (.outcome (some e), K, w)
      | .ok h => .ok (.outcome none, K, { w with heap := h })
  | .new c, K, w => .ok (.made, K ++ [(newModule c w).2], (newModule c w).1)
  | .state m, K, w =>
    match K[m]? with
    | none => .error .unmodelled
    | some l =>
      match getState (w.heap.length + 1) w.heap l with
      | none => .error .recursionError
      | some s => .ok (.state s, K, w)
  | .update m us, K, w =>
    match K[m]? with
    | none => .error .unmodelled
    | some l => .ok (.outcome (updateState (w.heap.length + 1) l us w).2, K, (updateState (w.heap.length + 1) l us w).1)
  | .clone m, K, w =>
    match K[m]? with
    | none => .error .unmodelled
    | some l =>
      match cloneModule (w.heap.length + 1) l w with
      | (_, .error e) => .error e
      | (w, .ok l') => .ok (.made, K ++ [l'], w)

/-- A call whose recursion budget is large enough: Python's recursion limit is taken not to be a problem. The budget is the number of
Modules there are after a first attempt, which suffices for every traversal of a module graph. -/
def unlimited {γ : Type} (call : Nat → World α → World α × γ) (w : World α) : World α × γ :=
  call ((call (w.heap.length + 1) w).1.heap.length + 1) w

/-- Call `body` on the Module `l`. -/
def How.call (how : How) (l : Loc) (body : Loc → World α → World α × Except Err β) (w : World α) : World α × Except Err β :=
  match how with
  | .direct => body l w
  | .jit stateful j t => unlimited (fun fuel => jitCall fuel stateful j t l body) w
  | .remat j => unlimited (fun fuel => rematCall fuel j l body) w

omit [DecidableEq α] in
/-- A function that returns a `b` as a function that returns a loss and a `b`. -/
def withLoss (loss : β → L) (body : Loc → World α → World α × Except Err β) (l : Loc) (w : World α) :
    World α × Except Err (L × β) :=
  ((body l w).1, (body l w).2.map fun b => (loss b, b))

omit [DecidableEq α] in
/-- A function that returns a `b` as a function that returns a carry and an output. -/
def withOut {X : Type} (out : β → β × β) (body : X → β → Option β → Loc → World α → World α × Except Err β) (x : X) (c : β) (a : Option β)
    (l : Loc) (w : World α) : World α × Except Err (β × β) :=
  ((body x c a l w).1, (body x c a l w).2.map out)

omit [DecidableEq α] in
open Classical in
/-- The function `F`, which raises `e` where `P` does not hold. -/
noncomputable def guarded (P : Loc → World α → Prop) (e : Err) (F : Loc → World α → World α × Except Err β) (l : Loc) (w : World α) :
    World α × Except Err β :=
  if P l w then F l w else (w, .error e)

/-- `P` holds whenever `nnx.scan(F)` calls the function `F`: raising an exception, whichever, where it does not hold would make no difference
to the outcome. (Every exception of `F` is an exception of the scan, and there is more than one exception.) -/
def WheneverCalled (J : Jax α κ L) (fuel j : Nat) (o : ScanOptions α) (out : β → β × β) (c : β) (xs : Option (List β)) (ctx : Option (PureContext κ))
    (P : Option (PureContext κ) → β → Option β → Loc → World α → Prop)
    (F : Option (PureContext κ) → β → Option β → Loc → World α → World α × Except Err β) (l : Loc) (w : World α) : Prop :=
  ∀ e, (scanApply J.arrays J.split fuel o j l (withOut out fun ctx c x => guarded (P ctx c x) e (F ctx c x)) c xs ctx w).2 =
    (scanApply J.arrays J.split fuel o j l (withOut out F) c xs ctx w).2

/-- What a function does, with its transforms. -/
def Routine.run (J : Jax α κ L) :
    Routine α κ L β → List Loc → World α → World α × Except Err β
  | .ret b, _, w => (w, .ok b)
  | .fail e, _, w => (w, .error e)
  | .op o k, K, w =>
    match o.run K w with
    | .error e => (w, .error e)
    | .ok (x, K, w) => (k x).run J K w
  | .call how m body k, K, w =>
    match K[m]? with
    | none => (w, .error .unmodelled)
    | some l =>
      match how.call l (fun l w => body.run J [l] w) w with
      | (w, .error e) => (w, .error e)
      | (w, .ok b) => (k b).run J K w
  | .grad stateful j t wrt loss m body k, K, w =>
    match K[m]? with
    | none => (w, .error .unmodelled)
    | some l =>
      match unlimited (fun fuel => gradCall fuel stateful j t wrt J.gradOf l
          (withLoss loss fun l w => body.run J [l] w)) w with
      | (w, .error e) => (w, .error e)
      | (w, .ok (g, b)) => (k g b).run J K w
  | .scan fuel j o out m c xs ctx body k, K, w =>
    match K[m]? with
    | none => (w, .error .unmodelled)
    | some l =>
      match scanApply J.arrays J.split fuel o j l (withOut out fun ctx c x l w => (body ctx c x).run J [l] w) c xs ctx w with
      | (w, .error e) => (w, .error e)
      | (w, .ok (c, ys)) => (k c ys).run J K w

omit [DecidableEq α] in
/-- The entries of the state of the Module `l` that match `wrt`: `m.get_state().filter(wrt)`. -/
def selected (wrt : Filter α) (l : Loc) (w : World α) : State (PyVal α) :=
  match getState (w.heap.length + 1) w.heap l with
  | none => ⟨[]⟩
  | some s =>
    match s.filter [wrt] with
    | .ok [t] => t
    | _ => ⟨[]⟩

/-- What the function does without `jit`, `remat` and `grad`: `jit` and `remat` are direct calls, whose effect is forgotten for
`stateful=False`, `nnx.scan(f)` is a scan of the function without transforms, and `nnx.grad(f, wrt)` differentiates the loss of the direct call `m.update_state(x); f(m)` as a function of the values
`x` of the entries that match `wrt`. -/
def Routine.plain (J : Jax α κ L) :
    Routine α κ L β → List Loc → World α → World α × Except Err β
  | .ret b, _, w => (w, .ok b)
  | .fail e, _, w => (w, .error e)
  | .op o k, K, w =>
    match o.run K w with
    | .error e => (w, .error e)
    | .ok (x, K, w) => (k x).plain J K w
  | .call how m body k, K, w =>
    match K[m]? with
    | none => (w, .error .unmodelled)
    | some l =>
      match body.plain J [l] w with
      | (w', .error e) => (w', .error e)
      | (w', .ok b) => (k b).plain J K (if how.kept then w' else w)
  | .grad stateful _ _ wrt loss m body k, K, w =>
    match K[m]? with
    | none => (w, .error .unmodelled)
    | some l =>
      match body.plain J [l] w with
      | (w', .error e) => (w', .error e)
      | (w', .ok b) =>
        (k (J.gradOf (directLoss (withLoss loss fun l w => body.plain J [l] w) (w.heap.length + 1) l w) (selected wrt l w)) b).plain
          J K (if stateful then w' else w)
  | .scan fuel j o out m c xs ctx body k, K, w =>
    match K[m]? with
    | none => (w, .error .unmodelled)
    | some l =>
      match scanApply J.arrays J.split fuel o j l (withOut out fun ctx c x l w => (body ctx c x).plain J [l] w) c xs ctx w with
      | (w, .error e) => (w, .error e)
      | (w, .ok (c, ys)) => (k c ys).plain J K w

/-- At every call through a transform whose effect is kept, the effect of the direct call is node writes (no Module is
replaced or linked in, no node is deleted or made static): the effects that such transforms can carry back. For `nnx.grad` this
is asked of the calls inside the function for all values of the entries that are differentiated. For `nnx.scan` it is asked of the calls inside
the function whenever the scan calls it. -/
def Routine.Carried (J : Jax α κ L) :
    Routine α κ L β → List Loc → World α → Prop
  | .ret _, _, _ => True
  | .fail _, _, _ => True
  | .op o k, K, w => ∀ x K' w', o.run K w = .ok (x, K', w') → (k x).Carried J K' w'
  | .call how m body k, K, w => ∀ l, K[m]? = some l →
    body.Carried J [l] w ∧ ∀ w' b, body.plain J [l] w = (w', .ok b) →
      (how ≠ .direct → how.kept = true → NodeWrites w w' l) ∧ (k b).Carried J K (if how.kept then w' else w)
  | .grad stateful _ _ wrt loss m body k, K, w => ∀ l, K[m]? = some l →
    body.Carried J [l] w ∧
    (∀ x wx, LikeState (selected wrt l w) x → updateState (w.heap.length + 1) l [x] w = (wx, none) → body.Carried J [l] wx) ∧
    ∀ w' b, body.plain J [l] w = (w', .ok b) →
      (stateful = true → NodeWrites w w' l) ∧
      (k (J.gradOf (directLoss (withLoss loss fun l w => body.plain J [l] w) (w.heap.length + 1) l w) (selected wrt l w)) b).Carried
        J K (if stateful then w' else w)
  | .scan fuel j o out m c xs ctx body k, K, w => ∀ l, K[m]? = some l →
    WheneverCalled J fuel j o out c xs ctx (fun ctx c x l w => (body ctx c x).Carried J [l] w)
      (fun ctx c x l w => (body ctx c x).plain J [l] w) l w ∧
    ∀ w' c' ys, scanApply J.arrays J.split fuel o j l (withOut out fun ctx c x l w => (body ctx c x).plain J [l] w) c xs ctx w =
      (w', .ok (c', ys)) → (k c' ys).Carried J K w'

end Nnx
