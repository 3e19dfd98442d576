import Verif.Spec.History
/-
What a user function does with the Module it is given: a language of programs that can read, compare, assign,
delete and create, decide what to do next from what they have seen, and catch exceptions.
-/
namespace Nnx
variable {α β : Type}

/-- A program that holds references to Modules (numbered in the order in which it obtained them; the Module it
is called with is number 0) and may depend on everything it has seen. -/
inductive Prog (α β : Type) where
  /-- `return b` -/
  | ret (b : β)
  /-- `raise e` -/
  | fail (e : Err)
  /-- `x = m.n`: goes on with what `x` shows (`none` if there is no such attribute, which may be caught); a
  Module becomes the next reference -/
  | get (m : Nat) (n : Str) (k : Option (Shown α) → Prog α β)
  /-- `m is m'` -/
  | same (m m' : Nat) (k : Bool → Prog α β)
  /-- `m.n = v`; the program may catch the exception -/
  | set (m : Nat) (n : Str) (v : PyVal α) (k : Option Err → Prog α β)
  /-- `m.n = m'` for a Module `m'` -/
  | link (m : Nat) (n : Str) (m' : Nat) (k : Option Err → Prog α β)
  /-- `del m.n` -/
  | del (m : Nat) (n : Str) (k : Option Err → Prog α β)
  /-- `SomeModule.__new__`, becomes the next reference -/
  | new (c : Cls) (k : Prog α β)
  /-- `m.get_state()` -/
  | state (m : Nat) (k : State (PyVal α) → Prog α β)

/-- Programs whose assignments use names without "/" outside the reserved namespace, and values that are plain or
well-formed containers, as long as the containers they read are well formed. -/
def Prog.Good : Prog α β → Prop
  | .ret _ => True
  | .fail _ => True
  | .get _ _ k => ∀ x, (∀ c v m, x = some (.value (.cont c v m)) → WFContainer (.cont c v m)) → (k x).Good
  | .same _ _ k => ∀ x, (k x).Good
  | .set _ n v k => GoodName n ∧ WFVal v ∧ ∀ x, (k x).Good
  | .link _ n _ k => GoodName n ∧ ∀ x, (k x).Good
  | .del _ _ k => ∀ x, (k x).Good
  | .new _ k => k.Good
  | .state _ k => ∀ s, (∀ p v, s.get p = some v → WFVal v) → (k s).Good

variable [DecidableEq α]

/-- Run a program that holds the references `K`. The recursion limit is never a problem for `get_state`. -/
def Prog.run : Prog α β → List Loc → World α → World α × Except Err β
  | .ret b, _, w => (w, .ok b)
  | .fail e, _, w => (w, .error e)
  | .get m n k, K, w =>
    match K[m]? with
    | none => (w, .error .unmodelled)
    | some l =>
      match attrAt w.heap l n with
      | none => (k none).run K w
      | some (.ref b) => (k (shown w.heap (.ref b))).run (K ++ [b]) w
      | some (.val v) => (k (some (.value v))).run K w
  | .same m m' k, K, w =>
    match K[m]?, K[m']? with
    | some l, some l' => (k (decide (l = l'))).run K w
    | _, _ => (w, .error .unmodelled)
  | .set m n v k, K, w =>
    match K[m]? with
    | none => (w, .error .unmodelled)
    | some l =>
      match setAttr w l n (.val v) with
      | .error e => (k (some e)).run K w
      | .ok w => (k none).run K w
  | .link m n m' k, K, w =>
    match K[m]?, K[m']? with
    | some l, some l' =>
      match setAttr w l n (.ref l') with
      | .error e => (k (some e)).run K w
      | .ok w => (k none).run K w
    | _, _ => (w, .error .unmodelled)
  | .del m n k, K, w =>
    match K[m]? with
    | none => (w, .error .unmodelled)
    | some l =>
      match delAttr w.heap l n with
      | .error e => (k (some e)).run K w
      | .ok h => (k none).run K { w with heap := h }
  | .new c k, K, w => k.run (K ++ [(newModule c w).2]) (newModule c w).1
  | .state m k, K, w =>
    match K[m]? with
    | none => (w, .error .unmodelled)
    | some l =>
      match getState (w.heap.length + 1) w.heap l with
      | none => (w, .error .recursionError)
      | some s => (k s).run K w

/-- A program as a function of the Module it is called with: `f(m)`. -/
def Prog.call (p : Prog α β) (l : Loc) (w : World α) : World α × Except Err β := p.run [l] w

/-- The programs `body x c` as functions that are called on a Module. -/
def calls {X C : Type} (body : X → C → Prog α β) (x : X) (c : C) : Loc → World α → World α × Except Err β := (body x c).call

omit [DecidableEq α] in
/-- The net effect of a call on the modules that `root` could reach before is that some attributes were given
node values (arrays or Variables): no Module was replaced or linked in, no node was deleted or made static, and
containers kept their kind and metadata. -/
def NodeWrites (w w' : World α) (root : Loc) : Prop :=
  ∀ a n, Reaches w.heap root a → attrAt w'.heap a n = attrAt w.heap a n ∨
    ∃ v, attrAt w'.heap a n = some (.val v) ∧ v.isNode = true ∧
      (∀ b, attrAt w.heap a n ≠ some (.ref b)) ∧
      (∀ c x m, attrAt w.heap a n = some (.val (.cont c x m)) → ∃ y, v = .cont c y m)

omit [DecidableEq α] in
/-- Two worlds agree on the first `n` Module objects: same class, id, flag, trace, and the same content in every
attribute. -/
def AgreeOn (n : Nat) (w w' : World α) : Prop :=
  ∀ l : Loc, l < n → (∀ k, attrAt w'.heap l k = attrAt w.heap l k) ∧
    (w'.heap[l]?).map (fun o => (o.cls, o.uid, o.isInit, o.trace)) =
      (w.heap[l]?).map (fun o => (o.cls, o.uid, o.isInit, o.trace))

omit [DecidableEq α] in
/-- All Modules that can be reached from `root` may be modified now. -/
def AllValid (w : World α) (root : Loc) : Prop :=
  ∀ (l : Loc) (o : ModObj α), Reaches w.heap root l → w.heap[l]? = some o → w.traceValid o.trace = true

omit [DecidableEq α] in
/-- A node value that may stand in the place of `u` in a State: a container of `u`'s class with `u`'s metadata if `u` is
a container. -/
def LikeVal (u v : PyVal α) : Prop :=
  WFVal v ∧ v.isNode = true ∧ ∀ c x m, u = .cont c x m → ∃ y, v = .cont c y m

omit [DecidableEq α] in
/-- A State (its paths are sorted) with the paths of `s` and other values of the same kind. -/
def LikeState (s t : State (PyVal α)) : Prop :=
  StrictSorted t.mapping ∧ (∀ k, (t.get k).isSome = (s.get k).isSome) ∧
    ∀ k u v, s.get k = some u → t.get k = some v → LikeVal u v

end Nnx
