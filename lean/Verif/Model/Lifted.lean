import Verif.Model.ScanInit
import Verif.Model.Transforms
import Verif.Model.Helpers
/-
nnx/transforms.py: the Module classes `Remat` and `Scan`.
-/
namespace Nnx
variable {α κ A B C β : Type} [DecidableEq α]

/-- The class `Remat` (nnx/transforms.py:794). -/
def cRemat : Cls := { name := py! "Remat", ancestors := [py! "Module"], members := [py! "__call__", py! "call"] }
/-- The class `Scan` (nnx/transforms.py:314). -/
def cScan : Cls := { name := py! "Scan", ancestors := [py! "Module"], members := [py! "__call__", py! "call"] }

/-- The attributes that both classes assign (nnx/transforms.py:333-334, 809-814) -/
def kOptions : Str := py! "options"
def kConstructor : Str := py! "module_constructor"
/-- nnx/transforms.py:815 -/
def kRematModule : Str := py! "remat_module"
/-- nnx/transforms.py:348 -/
def kScanModule : Str := py! "scan_module"

/-- A new Module (nnx/module.py:414-416) whose `__init__` assigns attributes, makes a Module and assigns this to `inner`. -/
def wrapNew (c : Cls) (steps : List (Str × Attr α)) (inner : Str) (make : World α → World α × Except Err Loc) (w : World α) :
    World α × Except Err Loc :=
  match setAttrAll (newModule c w).2 steps (newModule c w).1 with
  | (w', some e) => (w', .error e)
  | (w', none) =>
    match make w' with
    | (w', .error e) => (w', .error e)
    | (w', .ok l) =>
      match setAttr w' (newModule c w).2 inner (.ref l) with
      | .error e => (w', .error e)
      | .ok w' => (w', .ok (newModule c w).2)

/-- `Remat(constructor, ...)(*args, **kwargs)`: `RematMeta.__call__` (nnx/transforms.py:754-775) and `Remat.__init__` (nnx/transforms.py:796-815). `options` is the RematOptions object and
`constructor` the constructor as values; `ctor` is the call of the constructor. Simplification: the constructor is not itself a Module. -/
def rematNew (options constructor : PyVal α) (ctor : World α → World α × Except Err Loc) (w : World α) : World α × Except Err Loc :=
  wrapNew cRemat [(kOptions, .val options), (kConstructor, .val constructor)] kRematModule ctor w

/-- `Scan(constructor, ...)(*args, **kwargs)`: `ScanMeta.__call__` (nnx/transforms.py:273-311) and `Scan.__init__` (nnx/transforms.py:316-350). `options` is the ScanOptions object with the
fields `o`. -/
def scanNew (R : Arrays α) (split : κ → Nat → Nat → κ) (fuel : Nat) (o : ScanOptions α) (options constructor : PyVal α) (j : Nat)
    (ctor : Option (PureContext κ) → World α → World α × Except Err Loc) (ctx : Option (PureContext κ)) (w : World α) : World α × Except Err Loc :=
  wrapNew cScan [(kConstructor, .val constructor), (kOptions, .val options)] kScanModule (scanInit R split fuel o j ctor ctx) w

omit [DecidableEq α] in
/-- `self.remat_module` and `self.scan_module`; not modelled: an attribute that does not hold a Module. -/
def innerModule (h : Heap α) (r : Loc) (name : Str) : Except Err Loc :=
  match varsGet h r name with
  | .ok (.ref l) => .ok l
  | .ok (.val _) => .error .unmodelled
  | .error .keyError => .error .attributeError
  | .error e => .error e

/-- `remat.call.a.b(*args)` with the accesses `chain`, and for the empty chain `remat(*args)`, without a ctx (nnx/transforms.py:817-841): `method acc` is the call of what the accessor `acc` gives for the
Module, which for the identity is the Module itself. The attributes of the Module are looked up when the function is called. -/
def rematModuleCall (fuel j : Nat) (r : Loc) (chain : List Access) (method : Option Access → Loc → World α → World α × Except Err β) (w : World α) :
    World α × Except Err β :=
  match accessorOf chain with
  | .error e => (w, .error e)
  | .ok acc =>
    match innerModule w.heap r kRematModule with
    | .error e => (w, .error e)
    | .ok l => rematCall fuel j l (method acc) w

/-- `scan.call.a.b(carry, axes, ...)` with the accesses `chain`, and for the empty chain `scan(carry, axes, ...)` (nnx/transforms.py:352-388). The latter always passes `ctx` on, and
`scan_apply` takes None for no ctx (nnx/transforms.py:550-551). `o` are the fields of `self.options`. -/
def scanModuleCall (R : Arrays α) (split : κ → Nat → Nat → κ) (fuel : Nat) (o : ScanOptions α) (j : Nat) (r : Loc) (chain : List Access)
    (method : Option Access → Option (PureContext κ) → C → Option A → Loc → World α → World α × Except Err (C × B)) (c : C) (xs : Option (List A))
    (ctx : Option (PureContext κ)) (w : World α) : World α × Except Err (C × List B) :=
  match accessorOf chain with
  | .error e => (w, .error e)
  | .ok acc =>
    match innerModule w.heap r kScanModule with
    | .error e => (w, .error e)
    | .ok l => scanApply R split fuel o j l (method acc) c xs ctx w

end Nnx
