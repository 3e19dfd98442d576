import Verif.Model.RngThreads
/-
Schedules of threads that draw keys, and one call after the other.
-/
namespace Nnx
variable {κ η : Type}

/-- The call a thread is in. -/
def RngPc.call? : RngPc → Option RngCall
  | .idle => none
  | .start c => some c
  | .counted c _ => some c
  | .bumping c _ _ => some c

/-- A call begins only while no other thread is in a call on the same stream. -/
def NoOverlap (P : RngPrims κ η) : RngMachine κ → List RngEvent → Prop
  | _, [] => True
  | m, .call t c :: evs => (∀ u, u ≠ t → ∀ c', (m.threads u).call? = some c' → c'.stream ≠ c.stream) ∧ NoOverlap P (rngEvent P m (.call t c)) evs
  | m, .step t :: evs => NoOverlap P (rngEvent P m (.step t)) evs
  | m, .abort t :: evs => NoOverlap P (rngEvent P m (.abort t)) evs

/-- One call in a process with one thread, for a stream with `count = n`: it uses `n` and leaves `n + 1`. -/
inductive CallAlone (P : RngPrims κ η) (ss : List (RngStream κ)) : RngCall → RngResult κ → List (RngStream κ) → Prop
  | draw {s : Nat} {k : κ} {n : Nat} {path : List Nat} (h : ss[s]? = some ⟨k, n, path⟩) :
      CallAlone P ss (.draw s) (.key (P.foldIn k (P.hash (encodeCounts (path ++ [n]))))) (ss.set s ⟨k, n + 1, path⟩)
  | fork {s : Nat} {k : κ} {n : Nat} {path : List Nat} (h : ss[s]? = some ⟨k, n, path⟩) :
      CallAlone P ss (.fork s) (.stream ss.length) (ss.set s ⟨k, n + 1, path⟩ ++ [⟨k, 0, path ++ [n]⟩])

/-- One call after the other, with these results. -/
inductive CallsInTurn (P : RngPrims κ η) (ss : List (RngStream κ)) : List (RngCall × RngResult κ) → List (RngStream κ) → Prop
  | nil : CallsInTurn P ss [] ss
  | snoc {l ss1 c r ss2} : CallsInTurn P ss l ss1 → CallAlone P ss1 c r ss2 → CallsInTurn P ss (l ++ [(c, r)]) ss2

/-- No thread is in a call. -/
def RngMachine.quiet (ss : List (RngStream κ)) : RngMachine κ := ⟨ss, fun _ => .idle, []⟩

/-- The keys among the results. -/
def drawnKeys (l : List (Nat × RngCall × RngResult κ)) : List κ :=
  l.filterMap fun e => match e.2.2 with | .key k => some k | .stream _ => none

end Nnx
