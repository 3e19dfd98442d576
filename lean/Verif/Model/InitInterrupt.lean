import Verif.Model.ModuleOps
/-
init interrupted by an asynchronous exception.
-/
namespace Nnx
variable {α : Type}

/-- `_set_is_initializing` (nnx/module.py:504-505) with the number of flags that will be written before the exception: the next call after them is the one during which the exception
`kbd`, which does not come from the code itself (KeyboardInterrupt, a signal handler), is raised. Between two writes only local variables change. -/
def setIsInitUpTo (kbd : Err) (value : Bool) (l : Loc) : Nat × World α → (Nat × World α) × Option Err
  | (0, w) => ((0, w), some kbd)
  | (n + 1, w) =>
    match setIsInit value l w with
    | (w, e) => ((n, w), e)

/-- `module.init.method(*args)` (nnx/module.py:499-514) where `body` is the call to the method, stopped by `kbd` when `n` flags have been written and one more would be. An exception in the
first loop is outside of the `try`; one in the `finally` block ends its loop. Exceptions during the method are what `body` raises. -/
def initInterrupted {β : Type} (kbd : Err) (n fuel : Nat) (l : Loc) (body : World α → World α × Except Err β) (w : World α) : World α × Except Err β :=
  match forEach (fun s : Nat × World α => s.2.heap) fuel l cModule (setIsInitUpTo kbd true) (n, w) with
  | ((_, w), some e) => (w, .error e)
  | ((n, w), none) =>
    let (w, r) := body w
    match forEach (fun s : Nat × World α => s.2.heap) fuel l cModule (setIsInitUpTo kbd false) (n, w) with
    | ((_, w), some e) => (w, .error e)
    | ((_, w), none) => (w, r)

end Nnx
