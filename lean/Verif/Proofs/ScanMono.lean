import Verif.Model.Scan
/-
scan of two functions of which the first raises a certain exception where they differ.
-/
namespace Nnx
variable {α κ A B C Z : Type}

/-- The first outcome is the exception `e`, or the outcomes are the same. -/
def EqOr (e : Err) (r r' : World α × Except Err Z) : Prop := r.2 = .error e ∨ r = r'

variable [DecidableEq α] {e : Err} {F G : Option (PureContext κ) → C → Option A → Loc → World α → World α × Except Err (C × B)}

theorem scanFn_mono (h : ∀ ctx c x l w, EqOr e (F ctx c x l w) (G ctx c x l w)) (fuel : Nat) (o : ScanOptions α) (j : Nat)
    (d : ModuleDef α) (bcast : State (PyVal α)) (carry : State (PyVal α) × C) (x : StepIn α κ A) (w : World α) :
    EqOr e (scanFn fuel o j d bcast F carry x w) (scanFn fuel o j d bcast G carry x w) := by
  unfold scanFn
  cases onAxes removeAxis o x.axes with
  | error e' => exact .inr rfl
  | ok axes =>
    have key : EqOr e (insideTrace j none (mergeAndRun d (axes ++ [bcast, carry.1]) (F x.ctx carry.2 x.arg)) w)
        (insideTrace j none (mergeAndRun d (axes ++ [bcast, carry.1]) (G x.ctx carry.2 x.arg)) w) := by
      simp only [insideTrace, mergeAndRun]
      generalize mergeDef d (axes ++ [bcast, carry.1])
        { heap := w.heap, nextId := w.nextId, jaxTrace := j, nnxStack := w.nnxStack ++ Option.toList none } = m
      obtain ⟨v, _ | l⟩ := m
      · exact .inr rfl
      · rcases h x.ctx carry.2 x.arg l v with hs | hs
        · left
          simp only
          generalize F x.ctx carry.2 x.arg l v = r at hs
          obtain ⟨r1, r2⟩ := r
          simp only at hs
          subst hs
          rfl
        · right
          simp only [hs]
    rcases key with hs | hs
    · left
      simp only
      generalize insideTrace j none (mergeAndRun d (axes ++ [bcast, carry.1]) (F x.ctx carry.2 x.arg)) w = r at hs
      obtain ⟨r1, r2⟩ := r
      simp only at hs
      subst hs
      rfl
    · right
      simp only [hs]

theorem laxScan_mono {step step' : State (PyVal α) × C → StepIn α κ A → World α → World α × Except Err ((State (PyVal α) × C) × StepOut α B)}
    (h : ∀ c x w, EqOr e (step c x w) (step' c x w)) (xs : List (StepIn α κ A)) : ∀ (c : State (PyVal α) × C) (w : World α),
    EqOr e (laxScan step c xs w) (laxScan step' c xs w) := by
  induction xs with
  | nil => exact fun _ _ => .inr rfl
  | cons x xs ih =>
    intro c w
    unfold laxScan
    rcases h c x w with hs | hs
    · left
      generalize step c x w = r at hs
      obtain ⟨r1, r2⟩ := r
      simp only at hs
      subst hs
      rfl
    · rw [hs]
      generalize step' c x w = r
      obtain ⟨v, _ | ⟨c', y⟩⟩ := r
      · exact .inr rfl
      · simp only
        split
        · rcases ih c' v with hs | hs
          · left
            generalize laxScan step c' xs v = r at hs
            obtain ⟨r1, r2⟩ := r
            simp only at hs
            subst hs
            rfl
          · right
            rw [hs]
        · exact .inr rfl

theorem laxScanDir_mono {step step' : State (PyVal α) × C → StepIn α κ A → World α → World α × Except Err ((State (PyVal α) × C) × StepOut α B)}
    (h : ∀ c x w, EqOr e (step c x w) (step' c x w)) (rev : Bool) (xs : List (StepIn α κ A)) (c : State (PyVal α) × C) (w : World α) :
    EqOr e (laxScanDir rev step c xs w) (laxScanDir rev step' c xs w) := by
  cases rev with
  | false => exact laxScan_mono h xs c w
  | true =>
    simp only [laxScanDir, if_true]
    rcases laxScan_mono h xs.reverse c w with hs | hs
    · left
      generalize laxScan step c xs.reverse w = r at hs
      obtain ⟨r1, r2⟩ := r
      simp only at hs
      subst hs
      rfl
    · right
      rw [hs]

theorem scanRun_mono (h : ∀ ctx c x l w, EqOr e (F ctx c x l w) (G ctx c x l w)) (R : Arrays α) (fuel : Nat) (o : ScanOptions α) (j : Nat)
    (d : ModuleDef α) (bcast : State (PyVal α)) (l : Loc) (carry : State (PyVal α) × C) (xs : List (StepIn α κ A)) (w : World α) :
    EqOr e (scanRun R fuel o j d bcast l F carry xs w) (scanRun R fuel o j d bcast l G carry xs w) := by
  have hstep : ∀ (bcast : State (PyVal α)) (c : State (PyVal α) × C) (x : StepIn α κ A) (w : World α),
      EqOr e (scanFn fuel o j d bcast F c x w) (scanFn fuel o j d bcast G c x w) := fun bcast c x w => scanFn_mono h fuel o j d bcast c x w
  unfold scanRun
  cases (if o.reverse then xs.getLast? else xs.head?) with
  | none => exact .inr rfl
  | some x =>
    simp only
    rcases hstep bcast carry x w with hs | hs
    · left
      generalize scanFn fuel o j d bcast F carry x w = r at hs
      obtain ⟨r1, r2⟩ := r
      simp only at hs
      subst hs
      rfl
    rw [hs]
    generalize scanFn fuel o j d bcast G carry x w = r
    obtain ⟨v, _ | ⟨c', y⟩⟩ := r
    · exact .inr rfl
    simp only
    split
    · rcases laxScanDir_mono (hstep bcast) o.reverse (xs.take 1) carry w with hs | hs
      · left
        generalize laxScanDir o.reverse (scanFn fuel o j d bcast F) carry (xs.take 1) w = r at hs
        obtain ⟨r1, r2⟩ := r
        simp only at hs
        subst hs
        rfl
      rw [hs]
      generalize laxScanDir o.reverse (scanFn fuel o j d bcast G) carry (xs.take 1) w = r
      obtain ⟨v, _ | ⟨c1, ys1⟩⟩ := r
      · exact .inr rfl
      simp only
      split
      · next y1 =>
        rcases laxScanDir_mono (hstep (bcast.merge [y1.bcastNew])) o.reverse (xs.drop 1) (c1.1.merge [y1.carryNew], c1.2) v with hs | hs
        · left
          generalize laxScanDir o.reverse (scanFn fuel o j d (bcast.merge [y1.bcastNew]) F) (c1.1.merge [y1.carryNew], c1.2) (xs.drop 1) v = r
            at hs
          obtain ⟨r1, r2⟩ := r
          simp only at hs
          subst hs
          rfl
        · right
          rw [hs]
      · exact .inr rfl
    · rcases laxScanDir_mono (hstep bcast) o.reverse xs carry w with hs | hs
      · left
        generalize laxScanDir o.reverse (scanFn fuel o j d bcast F) carry xs w = r at hs
        obtain ⟨r1, r2⟩ := r
        simp only at hs
        subst hs
        rfl
      · right
        rw [hs]

/-- If the functions have the same outcome or the first raises `e`, so for their scans. -/
theorem scanApply_mono (h : ∀ ctx c x l w, EqOr e (F ctx c x l w) (G ctx c x l w)) (R : Arrays α) (split : κ → Nat → Nat → κ) (fuel : Nat)
    (o : ScanOptions α) (j : Nat) (l : Loc) (c : C) (xs : Option (List A)) (ctx : Option (PureContext κ)) (w : World α) :
    EqOr e (scanApply R split fuel o j l F c xs ctx w) (scanApply R split fuel o j l G c xs ctx w) := by
  unfold scanApply
  split
  · exact .inr rfl
  split
  · exact .inr rfl
  split
  · exact .inr rfl
  split
  · exact .inr rfl
  split
  · exact .inr rfl
  split
  · exact .inr rfl
  exact scanRun_mono h R fuel o j _ _ l _ _ w

end Nnx
