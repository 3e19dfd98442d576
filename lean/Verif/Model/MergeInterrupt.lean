import Verif.Model.Module
/-
merge and clone interrupted by an asynchronous exception.
-/
namespace Nnx
variable {α : Type} [DecidableEq α]

/-- The world that is left and, unless the call has been stopped or has raised: how many more steps may be taken
before the interruption, and the result. -/
abbrev StepsUpTo (α β : Type) := World α × Option (Nat × β)

omit [DecidableEq α] in
/-- `_build_module_recursive` (nnx/module.py:859-881) on the submodules of a definition, as `buildSubs`, stopped after
`budget` steps. A step is `object.__new__` (line 869) or filling in the Module (lines 877-879). Simplification: filling in is
one step; the Module can only be reached from the Modules under construction. -/
def buildSubsUpTo : Subs α → Nat → World α → Dict Nat Loc → StepsUpTo α (List (Str × Loc) × Dict Nat Loc)
  | .nil, budget, w, im => (w, some (budget, [], im))
  | .ref name i rest, budget, w, im =>
    match dget im i with
    | none => (w, none)
    | some l =>
      match buildSubsUpTo rest budget w im with
      | (w, none) => (w, none)
      | (w, some (budget, ls, im)) => (w, some (budget, (name, l) :: ls, im))
  | .sub name c i subs statics isInit rest, budget, w, im =>
    if dhas im i then (w, none)
    else
      match budget with
      | 0 => (w, none)
      | budget + 1 =>
        let l := w.heap.length
        match buildSubsUpTo subs budget (w.allocDummy c) (dset im i l) with
        | (w, none) => (w, none)
        | (w, some (0, _, _)) => (w, none)
        | (w, some (budget + 1, children, im)) =>
          match buildSubsUpTo rest budget (w.finish l c statics children isInit) im with
          | (w, none) => (w, none)
          | (w, some (budget, ls, im)) => (w, some (budget, (name, l) :: ls, im))

omit [DecidableEq α] in
/-- `_build_module` (nnx/module.py:853-856) stopped after `budget` steps. -/
def buildModuleUpTo (d : ModuleDef α) (budget : Nat) (w : World α) : StepsUpTo α Loc :=
  match budget with
  | 0 => (w, none)
  | budget + 1 =>
    match buildSubsUpTo d.subs budget (w.allocDummy d.cls) (dset [] d.index w.heap.length) with
    | (w', none) => (w', none)
    | (w', some (0, _, _)) => (w', none)
    | (w', some (budget + 1, children, _)) =>
      (w'.finish w.heap.length d.cls d.statics children d.isInit, some (budget, w.heap.length))

/-- `ModuleDef.merge(state, *states)` (nnx/module.py:145-152) stopped by an exception that does not come from the code itself
(KeyboardInterrupt, a signal handler), or by one that does, when `n` steps have been taken: steps of `_build_module`, and assignments by
the loop of `_update_module` (nnx/module.py:938-940). -/
def mergeInterrupted (n : Nat) (d : ModuleDef α) (states : List (State (PyVal α))) (w : World α) : World α :=
  match buildModuleUpTo d n w with
  | (w, none) => w
  | (w, some (budget, l)) =>
    (assignAll l (((State.new [] :: states).foldl (fun d s => dupdate d s.items) []).take budget) w).1

/-- `Module.clone()` (nnx/module.py:520-521) stopped when `n` steps of merging have been taken; `partition` changes no Module. -/
def cloneInterrupted (n fuel : Nat) (l : Loc) (w : World α) : World α :=
  match partitionModule fuel w.heap l [] with
  | .error _ => w
  | .ok (ss, d) => mergeInterrupted n d ss w

/-- What is left when the Modules that the program cannot reach are collected: `old` are the Modules it could reach before. -/
def World.collected (old : Nat) (w : World α) : World α := { w with heap := w.heap.take old }

end Nnx
