import Verif.Spec.ScanArgs
import Verif.Proofs.TreeOf
/-
Trees of axes: the functions of the model and the relation `UpTo` of the specification.
-/
namespace Nnx
variable {α : Type}

/-! ### Composition -/

/-- Inversion of a tree relation at a tuple. -/
theorem TreeOf.tup_inv {g : List α → α → Prop} {us : List (PyVal α)} {v : PyVal α} {vs : List (PyVal α)} (t : TreeOf g us (.tup (v :: vs))) :
    ∃ ws : List (PyVal α × List (PyVal α)), us = ws.map (fun u => .tup (u.1 :: u.2)) ∧ TreeOf g (ws.map (·.1)) v ∧
      TreeOf g (ws.map (.tup ·.2)) (.tup vs) := by
  cases t with
  | tupCons h1 h2 => exact ⟨_, rfl, h1, h2⟩

theorem TreeOf.dict_inv {g : List α → α → Prop} {us : List (PyVal α)} {n : Str} {v : PyVal α} {vs : List (Str × PyVal α)}
    (t : TreeOf g us (.dict ((n, v) :: vs))) :
    ∃ ws : List (PyVal α × List (Str × PyVal α)), us = ws.map (fun u => .dict ((n, u.1) :: u.2)) ∧ TreeOf g (ws.map (·.1)) v ∧
      TreeOf g (ws.map (.dict ·.2)) (.dict vs) := by
  cases t with
  | dictCons h1 h2 => exact ⟨_, rfl, h1, h2⟩

/-- One tree after the other. -/
theorem TreeOf.comp {g h k : List α → α → Prop} (hk : ∀ as m b, g as m → h [m] b → k as b) {vs : List (PyVal α)} {z : PyVal α}
    (t2 : TreeOf h vs z) : ∀ {us : List (PyVal α)} {v : PyVal α}, vs = [v] → TreeOf g us v → TreeOf k us z := by
  induction t2 with
  | none n =>
    intro us v hv t1
    rw [replicate_eq_one hv] at t1
    cases t1; exact .none _
  | array hh =>
    intro us v hv t1
    obtain ⟨m, rfl, rfl⟩ := map_eq_one hv
    cases t1 with
    | array hg => exact .array (hk _ _ _ hg hh)
  | cont t ih =>
    intro us v hv t1
    obtain ⟨m, rfl, rfl⟩ := map_eq_one hv
    cases t1 with
    | cont t1 => exact .cont (ih rfl t1)
  | tupNil n =>
    intro us v hv t1
    rw [replicate_eq_one hv] at t1
    cases t1; exact .tupNil _
  | tupCons t ts ih ihs =>
    intro us v hv t1
    obtain ⟨m, rfl, rfl⟩ := map_eq_one hv
    obtain ⟨ws, rfl, h1, h2⟩ := t1.tup_inv
    exact .tupCons (ih rfl h1) (ihs rfl h2)
  | dictNil n =>
    intro us v hv t1
    rw [replicate_eq_one hv] at t1
    cases t1; exact .dictNil _
  | dictCons t ts ih ihs =>
    intro us v hv t1
    obtain ⟨m, rfl, rfl⟩ := map_eq_one hv
    obtain ⟨ws, rfl, h1, h2⟩ := t1.dict_inv
    exact .dictCons (ih rfl h1) (ihs rfl h2)

/-- A tree by way of another. -/
theorem TreeOf.factor {g h k : List α → α → Prop} (hk : ∀ as b, k as b → ∃ m, g as m ∧ h [m] b) {us : List (PyVal α)} {z : PyVal α}
    (t : TreeOf k us z) : ∃ v, TreeOf g us v ∧ TreeOf h [v] z := by
  induction t with
  | none n => exact ⟨_, .none n, .none 1⟩
  | array hh =>
    obtain ⟨m, h1, h2⟩ := hk _ _ hh
    exact ⟨_, .array h1, .array (as := [m]) h2⟩
  | cont t ih =>
    obtain ⟨v, h1, h2⟩ := ih
    exact ⟨_, .cont h1, .cont (us := [v]) h2⟩
  | tupNil n => exact ⟨_, .tupNil n, .tupNil 1⟩
  | tupCons t ts ih ihs =>
    obtain ⟨v, h1, h2⟩ := ih
    obtain ⟨vs, h3, h4⟩ := ihs
    cases vs with
    | tup vs => exact ⟨_, .tupCons h1 h3, .tupCons (us := [(v, vs)]) h2 h4⟩
    | _ => generalize hz : [_] = us' at h4; cases h4 <;> first | (have := replicate_eq_one hz.symm; cases this) | (obtain ⟨_, _, h⟩ := map_eq_one hz.symm; cases h)
  | dictNil n => exact ⟨_, .dictNil n, .dictNil 1⟩
  | dictCons t ts ih ihs =>
    obtain ⟨v, h1, h2⟩ := ih
    obtain ⟨vs, h3, h4⟩ := ihs
    cases vs with
    | dict vs => exact ⟨_, .dictCons h1 h3, .dictCons (us := [(v, vs)]) h2 h4⟩
    | _ => generalize hz : [_] = us' at h4; cases h4 <;> first | (have := replicate_eq_one hz.symm; cases this) | (obtain ⟨_, _, h⟩ := map_eq_one hz.symm; cases h)

theorem TreeOf.mono {g h : List α → α → Prop} (hk : ∀ as b, g as b → h as b) {us : List (PyVal α)} {z : PyVal α}
    (t : TreeOf g us z) : TreeOf h us z := by
  induction t with
  | none n => exact .none n
  | array hh => exact .array (hk _ _ hh)
  | cont t ih => exact .cont ih
  | tupNil n => exact .tupNil n
  | tupCons t ts ih ihs => exact .tupCons ih ihs
  | dictNil n => exact .dictNil n
  | dictCons t ts ih ihs => exact .dictCons ih ihs

/-! ### Prefixes -/

variable {P Q S : Int → List (PyVal α) → PyVal α → Prop}

theorem UpTo.mono (h : ∀ a us v, P a us v → Q a us v) {axes : SpecTree Int} {us : List (PyVal α)} {v : PyVal α} (t : UpTo P axes us v) :
    UpTo Q axes us v := by
  induction t with
  | none n => exact .none n
  | axis hh => exact .axis (h _ _ _ hh)
  | tupNil n => exact .tupNil n
  | tupCons t ts ih ihs => exact .tupCons ih ihs
  | dictNil n => exact .dictNil n
  | dictCons t ts ih ihs => exact .dictCons ih ihs

theorem UpTo.tup_inv {t : SpecTree Int} {ts : List (SpecTree Int)} {us : List (PyVal α)} {z : PyVal α} (h : UpTo P (.tup (t :: ts)) us z) :
    ∃ (ws : List (PyVal α × List (PyVal α))) (v : PyVal α) (vs : List (PyVal α)), us = ws.map (fun u => .tup (u.1 :: u.2)) ∧ z = .tup (v :: vs) ∧
      UpTo P t (ws.map (·.1)) v ∧ UpTo P (.tup ts) (ws.map (.tup ·.2)) (.tup vs) := by
  cases h with
  | tupCons h1 h2 => exact ⟨_, _, _, rfl, rfl, h1, h2⟩

theorem UpTo.dict_inv {n : Str} {t : SpecTree Int} {ts : List (Str × SpecTree Int)} {us : List (PyVal α)} {z : PyVal α}
    (h : UpTo P (.dict ((n, t) :: ts)) us z) :
    ∃ (ws : List (PyVal α × List (Str × PyVal α))) (v : PyVal α) (vs : List (Str × PyVal α)), us = ws.map (fun u => .dict ((n, u.1) :: u.2)) ∧
      z = .dict ((n, v) :: vs) ∧ UpTo P t (ws.map (·.1)) v ∧ UpTo P (.dict ts) (ws.map (.dict ·.2)) (.dict vs) := by
  cases h with
  | dictCons h1 h2 => exact ⟨_, _, _, rfl, rfl, h1, h2⟩

/-- First the trees, then up to the axes. -/
theorem UpTo.after {g : List α → α → Prop} (h : ∀ a us v z, TreeOf g us v → Q a [v] z → P a us z) {axes : SpecTree Int} {vs : List (PyVal α)}
    {z : PyVal α} (t2 : UpTo Q axes vs z) : ∀ {us : List (PyVal α)} {v : PyVal α}, vs = [v] → TreeOf g us v → UpTo P axes us z := by
  induction t2 with
  | none n =>
    intro us v hv t1
    rw [replicate_eq_one hv] at t1
    cases t1; exact .none _
  | axis hq =>
    intro us v hv t1
    subst hv
    exact .axis (h _ _ _ _ t1 hq)
  | tupNil n =>
    intro us v hv t1
    rw [replicate_eq_one hv] at t1
    cases t1; exact .tupNil _
  | tupCons t ts ih ihs =>
    intro us v hv t1
    obtain ⟨m, rfl, rfl⟩ := map_eq_one hv
    obtain ⟨ws, rfl, h1, h2⟩ := t1.tup_inv
    exact .tupCons (ih rfl h1) (ihs rfl h2)
  | dictNil n =>
    intro us v hv t1
    rw [replicate_eq_one hv] at t1
    cases t1; exact .dictNil _
  | dictCons t ts ih ihs =>
    intro us v hv t1
    obtain ⟨m, rfl, rfl⟩ := map_eq_one hv
    obtain ⟨ws, rfl, h1, h2⟩ := t1.dict_inv
    exact .dictCons (ih rfl h1) (ihs rfl h2)

/-- By way of a tree. -/
theorem UpTo.factor {g : List α → α → Prop} (h : ∀ a us z, P a us z → ∃ v, TreeOf g us v ∧ Q a [v] z) {axes : SpecTree Int}
    {us : List (PyVal α)} {z : PyVal α} (t : UpTo P axes us z) : ∃ v, TreeOf g us v ∧ UpTo Q axes [v] z := by
  induction t with
  | none n => exact ⟨_, .none n, .none 1⟩
  | axis hp =>
    obtain ⟨v, h1, h2⟩ := h _ _ _ hp
    exact ⟨v, h1, .axis h2⟩
  | tupNil n => exact ⟨_, .tupNil n, .tupNil 1⟩
  | tupCons t ts ih ihs =>
    obtain ⟨v, h1, h2⟩ := ih
    obtain ⟨vs, h3, h4⟩ := ihs
    cases vs with
    | tup vs => exact ⟨_, .tupCons h1 h3, .tupCons (us := [(v, vs)]) h2 h4⟩
    | _ => generalize hz : [_] = us' at h4; cases h4 <;> first | (have := replicate_eq_one hz.symm; cases this) | (obtain ⟨_, _, h⟩ := map_eq_one hz.symm; cases h)
  | dictNil n => exact ⟨_, .dictNil n, .dictNil 1⟩
  | dictCons t ts ih ihs =>
    obtain ⟨v, h1, h2⟩ := ih
    obtain ⟨vs, h3, h4⟩ := ihs
    cases vs with
    | dict vs => exact ⟨_, .dictCons h1 h3, .dictCons (us := [(v, vs)]) h2 h4⟩
    | _ => generalize hz : [_] = us' at h4; cases h4 <;> first | (have := replicate_eq_one hz.symm; cases this) | (obtain ⟨_, _, h⟩ := map_eq_one hz.symm; cases h)

/-- First up to the axes, then the trees. -/
theorem UpTo.before {g : List α → α → Prop} (h : ∀ a us v z, Q a us v → TreeOf g [v] z → P a us z) {axes : SpecTree Int} {us : List (PyVal α)}
    {v : PyVal α} (t1 : UpTo Q axes us v) : ∀ {z : PyVal α}, TreeOf g [v] z → UpTo P axes us z := by
  induction t1 with
  | none n =>
    intro z t2
    generalize hz : [PyVal.none] = us' at t2
    cases t2 <;> first | exact .none n | (have := replicate_eq_one hz.symm; cases this) | (obtain ⟨_, _, h⟩ := map_eq_one hz.symm; cases h)
  | axis hq => intro z t2; exact .axis (h _ _ _ _ hq t2)
  | tupNil n =>
    intro z t2
    generalize hz : [PyVal.tup []] = us' at t2
    cases t2 <;> first | exact .tupNil n | (have := replicate_eq_one hz.symm; cases this) | (obtain ⟨_, _, h⟩ := map_eq_one hz.symm; cases h)
  | tupCons t ts ih ihs =>
    intro z t2
    generalize hz : [PyVal.tup _] = us' at t2
    cases t2 <;> first | (have := replicate_eq_one hz.symm; cases this) | (obtain ⟨_, rfl, h⟩ := map_eq_one hz.symm)
    all_goals cases h
    next h1 h2 => exact .tupCons (ih h1) (ihs h2)
  | dictNil n =>
    intro z t2
    generalize hz : [PyVal.dict []] = us' at t2
    cases t2 <;> first | exact .dictNil n | (have := replicate_eq_one hz.symm; cases this) | (obtain ⟨_, _, h⟩ := map_eq_one hz.symm; cases h)
  | dictCons t ts ih ihs =>
    intro z t2
    generalize hz : [PyVal.dict _] = us' at t2
    cases t2 <;> first | (have := replicate_eq_one hz.symm; cases this) | (obtain ⟨_, rfl, h⟩ := map_eq_one hz.symm)
    all_goals cases h
    next h1 h2 => exact .dictCons (ih h1) (ihs h2)

/-- Two prefixes of the same value. -/
theorem UpTo.both {g : List α → α → Prop} (h : ∀ a u v z, Q a [u] v → P a [u] z → TreeOf g [v] z) {axes : SpecTree Int} {us : List (PyVal α)}
    {v : PyVal α} (t1 : UpTo Q axes us v) : ∀ {u z : PyVal α}, us = [u] → UpTo P axes [u] z → TreeOf g [v] z := by
  induction t1 with
  | none n => intro u z hu t2; generalize [u] = vs at t2; cases t2; exact .none 1
  | axis hq =>
    intro u z hu t2
    subst hu
    cases t2 with
    | axis hp => exact h _ _ _ _ hq hp
  | tupNil n => intro u z hu t2; generalize [u] = vs at t2; cases t2; exact .tupNil 1
  | @tupCons _ _ us v vs t ts ih ihs =>
    intro u z hu t2
    obtain ⟨u, rfl, rfl⟩ := map_eq_one hu
    obtain ⟨ws, y, ys, h1, rfl, h2, h3⟩ := t2.tup_inv
    obtain ⟨w, rfl, h6⟩ := map_eq_one h1.symm
    simp only [PyVal.tup.injEq, List.cons.injEq] at h6
    obtain ⟨h4, h5⟩ := h6
    simp only [List.map_cons, List.map_nil, h4] at h2
    simp only [List.map_cons, List.map_nil, h5] at h3
    exact .tupCons (us := [(v, vs)]) (ih rfl h2) (ihs rfl h3)
  | dictNil n => intro u z hu t2; generalize [u] = vs at t2; cases t2; exact .dictNil 1
  | @dictCons _ _ _ us v vs t ts ih ihs =>
    intro u z hu t2
    obtain ⟨u, rfl, rfl⟩ := map_eq_one hu
    obtain ⟨ws, y, ys, h1, rfl, h2, h3⟩ := t2.dict_inv
    obtain ⟨w, rfl, h6⟩ := map_eq_one h1.symm
    simp only [PyVal.dict.injEq, List.cons.injEq, Prod.mk.injEq, true_and] at h6
    obtain ⟨h4, h5⟩ := h6
    simp only [List.map_cons, List.map_nil, h4] at h2
    simp only [List.map_cons, List.map_nil, h5] at h3
    exact .dictCons (us := [(v, vs)]) (ih rfl h2) (ihs rfl h3)

/-! ### The function -/

variable {f : Int → PyVal α → Except Err (PyVal α)}

mutual
theorem mapUpTo_rel : ∀ (axes : SpecTree Int) {x y : PyVal α}, mapUpTo f axes x = .ok y →
    UpTo (fun a us v => ∃ u, us = [u] ∧ f a u = .ok v) axes [x] y
  | .none, x, y, h => by
    cases x <;> simp only [mapUpTo, reduceCtorEq] at h
    cases h; exact .none 1
  | .leaf a, x, y, h => .axis ⟨x, rfl, by simpa only [mapUpTo] using h⟩
  | .tup ts, x, y, h => by
    cases x <;> simp only [mapUpTo, reduceCtorEq] at h
    split at h
    · cases h
    next ys hys => cases h; exact mapUpToL_rel ts hys
  | .dict ts, x, y, h => by
    cases x <;> simp only [mapUpTo, reduceCtorEq] at h
    split at h
    · cases h
    next ys hys => cases h; exact mapUpToM_rel ts hys
theorem mapUpToL_rel : ∀ (ts : List (SpecTree Int)) {xs ys : List (PyVal α)}, mapUpToL f ts xs = .ok ys →
    UpTo (fun a us v => ∃ u, us = [u] ∧ f a u = .ok v) (.tup ts) [.tup xs] (.tup ys)
  | [], xs, ys, h => by
    cases xs <;> simp only [mapUpToL, reduceCtorEq] at h
    cases h; exact .tupNil 1
  | t :: ts, xs, ys, h => by
    cases xs <;> simp only [mapUpToL, reduceCtorEq] at h
    next x xs =>
    split at h
    · cases h
    next y hy =>
    split at h
    · cases h
    next ys hys =>
    cases h
    exact .tupCons (us := [(x, xs)]) (mapUpTo_rel t hy) (mapUpToL_rel ts hys)
theorem mapUpToM_rel : ∀ (ts : List (Str × SpecTree Int)) {xs ys : List (Str × PyVal α)}, mapUpToM f ts xs = .ok ys →
    UpTo (fun a us v => ∃ u, us = [u] ∧ f a u = .ok v) (.dict ts) [.dict xs] (.dict ys)
  | [], xs, ys, h => by
    cases xs <;> simp only [mapUpToM, reduceCtorEq] at h
    cases h; exact .dictNil 1
  | (m, t) :: ts, xs, ys, h => by
    cases xs <;> simp only [mapUpToM, reduceCtorEq] at h
    next x xs =>
    obtain ⟨n, x⟩ := x
    simp only at h
    split at h
    · next hmn =>
      subst hmn
      split at h
      · cases h
      next y hy =>
      split at h
      · cases h
      next ys hys =>
      cases h
      exact .dictCons (us := [(x, xs)]) (mapUpTo_rel t hy) (mapUpToM_rel ts hys)
    · cases h
end

theorem rel_mapUpTo {axes : SpecTree Int} {us : List (PyVal α)} {y : PyVal α}
    (t : UpTo (fun a us v => ∃ u, us = [u] ∧ f a u = .ok v) axes us y) : ∀ {x : PyVal α}, us = [x] → mapUpTo f axes x = .ok y := by
  induction t with
  | none n => intro x h; rw [replicate_eq_one h]; rfl
  | axis hh =>
    intro x h
    obtain ⟨u, rfl, hu⟩ := hh
    cases h
    simpa only [mapUpTo] using hu
  | tupNil n => intro x h; rw [replicate_eq_one h]; rfl
  | tupCons t ts ih ihs =>
    intro x h
    obtain ⟨u, rfl, rfl⟩ := map_eq_one h
    have h2 := ihs rfl
    simp only [mapUpTo] at h2
    split at h2
    · cases h2
    next ys hys =>
    cases h2
    simp only [mapUpTo, mapUpToL, ih rfl, hys]
  | dictNil n => intro x h; rw [replicate_eq_one h]; rfl
  | dictCons t ts ih ihs =>
    intro x h
    obtain ⟨u, rfl, rfl⟩ := map_eq_one h
    have h2 := ihs rfl
    simp only [mapUpTo] at h2
    split at h2
    · cases h2
    next ys hys =>
    cases h2
    simp only [mapUpTo, mapUpToM, if_true, ih rfl, hys]

theorem mapUpTo_iff {axes : SpecTree Int} {x y : PyVal α} :
    mapUpTo f axes x = .ok y ↔ UpTo (fun a us v => ∃ u, us = [u] ∧ f a u = .ok v) axes [x] y :=
  ⟨mapUpTo_rel axes, fun h => rel_mapUpTo h rfl⟩

mutual
theorem mapUpTo_error (hf : ∀ a x e, f a x = .error e → e = .valueError) : ∀ (axes : SpecTree Int) {x : PyVal α} {e : Err},
    mapUpTo f axes x = .error e → e = .valueError
  | .none, x, e, h => by cases x <;> simp only [mapUpTo, reduceCtorEq] at h <;> cases h <;> rfl
  | .leaf a, x, e, h => hf a x e (by simpa only [mapUpTo] using h)
  | .tup ts, x, e, h => by
    cases x <;> simp only [mapUpTo, reduceCtorEq] at h
    case tup xs =>
      split at h
      · next e' he => cases h; exact mapUpToL_error hf ts he
      · cases h
    all_goals cases h; rfl
  | .dict ts, x, e, h => by
    cases x <;> simp only [mapUpTo, reduceCtorEq] at h
    case dict xs =>
      split at h
      · next e' he => cases h; exact mapUpToM_error hf ts he
      · cases h
    all_goals cases h; rfl
theorem mapUpToL_error (hf : ∀ a x e, f a x = .error e → e = .valueError) : ∀ (ts : List (SpecTree Int)) {xs : List (PyVal α)} {e : Err},
    mapUpToL f ts xs = .error e → e = .valueError
  | [], xs, e, h => by cases xs <;> simp only [mapUpToL, reduceCtorEq] at h; cases h; rfl
  | t :: ts, xs, e, h => by
    cases xs <;> simp only [mapUpToL, reduceCtorEq] at h
    case nil => cases h; rfl
    next x xs =>
    split at h
    · next e' he => cases h; exact mapUpTo_error hf t he
    split at h
    · next e' he => cases h; exact mapUpToL_error hf ts he
    · cases h
theorem mapUpToM_error (hf : ∀ a x e, f a x = .error e → e = .valueError) : ∀ (ts : List (Str × SpecTree Int)) {xs : List (Str × PyVal α)} {e : Err},
    mapUpToM f ts xs = .error e → e = .valueError
  | [], xs, e, h => by cases xs <;> simp only [mapUpToM, reduceCtorEq] at h; cases h; rfl
  | (m, t) :: ts, xs, e, h => by
    cases xs <;> simp only [mapUpToM, reduceCtorEq] at h
    case nil => cases h; rfl
    next x xs =>
    obtain ⟨n, x⟩ := x
    simp only at h
    split at h
    · split at h
      · next e' he => cases h; exact mapUpTo_error hf t he
      split at h
      · next e' he => cases h; exact mapUpToM_error hf ts he
      · cases h
    · cases h; rfl
end

theorem moveNode_ok {move : Int → Int → α → Option α} {s d : Int} {x y : PyVal α} :
    moveNode move s d x = .ok y ↔ TreeOf (fun as b => ∃ z, as = [z] ∧ move s d z = some b) [x] y := by
  unfold moveNode
  constructor
  · intro h
    split at h
    · cases h
    next y' hy => cases h; exact mapLeaves_tree x hy
  · intro h
    rw [tree_mapLeaves h rfl]

theorem moveNode_error {move : Int → Int → α → Option α} {s d : Int} {x : PyVal α} {e : Err} (h : moveNode move s d x = .error e) :
    e = .valueError := by
  unfold moveNode at h
  split at h
  · cases h; rfl
  · cases h

/-! ### The argument -/

variable {R : Arrays α} {move : Int → Int → α → Option α}

theorem TreeOf.one {g : List α → α → Prop} {P : α → Prop} (h : ∀ a b, g [a] b → P b) {us : List (PyVal α)} {y : PyVal α} (t : TreeOf g us y) :
    ∀ {x}, us = [x] → AllArrays P y := by
  induction t with
  | none n => intro _ _; exact .none 1
  | @array _ as b hg =>
    intro x hx
    obtain ⟨a, rfl, rfl⟩ := map_eq_one hx
    exact .array (as := [b]) ⟨rfl, h _ _ hg⟩
  | @cont _ _ us v t ih =>
    intro x hx
    obtain ⟨a, rfl, rfl⟩ := map_eq_one hx
    exact .cont (us := [v]) (ih rfl)
  | tupNil n => intro _ _; exact .tupNil 1
  | @tupCons us v vs t ts ih ihs =>
    intro x hx
    obtain ⟨a, rfl, rfl⟩ := map_eq_one hx
    exact .tupCons (us := [(v, vs)]) (ih rfl) (ihs rfl)
  | dictNil n => intro _ _; exact .dictNil 1
  | @dictCons _ us v vs t ts ih ihs =>
    intro x hx
    obtain ⟨a, rfl, rfl⟩ := map_eq_one hx
    exact .dictCons (us := [(v, vs)]) (ih rfl) (ihs rfl)

theorem TreeOf.exists {g h : List α → α → Prop} (hk : ∀ as b, g as b → ∃ c, h as c) {us : List (PyVal α)} {z : PyVal α}
    (t : TreeOf g us z) : ∃ y, TreeOf h us y := by
  obtain ⟨y, h1, _⟩ := t.factor (g := h) (h := fun _ _ => True) (fun as b hb => by
    obtain ⟨c, hc⟩ := hk as b hb
    exact ⟨c, hc, trivial⟩)
  exact ⟨y, h1⟩

theorem AllArrays.tup_inv {P : α → Prop} {v : PyVal α} {vs : List (PyVal α)} (h : AllArrays P (.tup (v :: vs))) :
    AllArrays P v ∧ AllArrays P (.tup vs) := by
  obtain ⟨ws, h1, h2, h3⟩ := TreeOf.tup_inv h
  obtain ⟨w, rfl, h4⟩ := map_eq_one h1.symm
  simp only [PyVal.tup.injEq, List.cons.injEq] at h4
  obtain ⟨rfl, rfl⟩ := h4
  exact ⟨h2, h3⟩

theorem AllArrays.dict_inv {P : α → Prop} {n : Str} {v : PyVal α} {vs : List (Str × PyVal α)} (h : AllArrays P (.dict ((n, v) :: vs))) :
    AllArrays P v ∧ AllArrays P (.dict vs) := by
  obtain ⟨ws, h1, h2, h3⟩ := TreeOf.dict_inv h
  obtain ⟨w, rfl, h4⟩ := map_eq_one h1.symm
  simp only [PyVal.dict.injEq, List.cons.injEq, Prod.mk.injEq, true_and] at h4
  obtain ⟨rfl, rfl⟩ := h4
  exact ⟨h2, h3⟩

theorem AllArrays.cont_inv {P : α → Prop} {c : Cls} {v : PyVal α} {m : Md α} (h : AllArrays P (.cont c v m)) : AllArrays P v := by
  obtain ⟨ls, h1, h2⟩ := allArrays_iff.1 h
  exact allArrays_iff.2 ⟨ls, by simpa only [PyVal.leaves] using h1, h2⟩

theorem AllArrays.data_inv {P : α → Prop} {c : Cls} {a : α} (h : AllArrays P (.data c a)) : P a := by
  obtain ⟨ls, h1, h2⟩ := allArrays_iff.1 h
  cases h1
  exact h2 a List.mem_cons_self

/-- What holds of the arrays of the image, said of the arrays of the tree. -/
theorem TreeOf.diag {g : List α → α → Prop} {S P : α → Prop} (h : ∀ a b, g [a] b → S b → P a) {us : List (PyVal α)} {v : PyVal α}
    (t : TreeOf g us v) : ∀ {u}, us = [u] → AllArrays S v → AllArrays P u := by
  induction t with
  | none n => intro u hu _; rw [replicate_eq_one hu]; exact .none 1
  | array hg =>
    intro u hu hs
    obtain ⟨a, rfl, rfl⟩ := map_eq_one hu
    exact .array (as := [a]) ⟨rfl, h _ _ hg hs.data_inv⟩
  | cont t ih =>
    intro u hu hs
    obtain ⟨a, rfl, rfl⟩ := map_eq_one hu
    exact .cont (us := [a]) (ih rfl hs.cont_inv)
  | tupNil n => intro u hu _; rw [replicate_eq_one hu]; exact .tupNil 1
  | tupCons t ts ih ihs =>
    intro u hu hs
    obtain ⟨a, rfl, rfl⟩ := map_eq_one hu
    exact .tupCons (us := [a]) (ih rfl hs.tup_inv.1) (ihs rfl hs.tup_inv.2)
  | dictNil n => intro u hu _; rw [replicate_eq_one hu]; exact .dictNil 1
  | dictCons t ts ih ihs =>
    intro u hu hs
    obtain ⟨a, rfl, rfl⟩ := map_eq_one hu
    exact .dictCons (us := [a]) (ih rfl hs.dict_inv.1) (ihs rfl hs.dict_inv.2)

theorem UpTo.diag {T : α → Prop} (h : ∀ a u v, Q a [u] v → AllArrays T v → P a [u] u) {axes : SpecTree Int} {us : List (PyVal α)} {v : PyVal α}
    (t : UpTo Q axes us v) : ∀ {u}, us = [u] → AllArrays T v → UpTo P axes [u] u := by
  induction t with
  | none n => intro u hu _; rw [replicate_eq_one hu]; exact .none 1
  | axis hq => intro u hu hs; subst hu; exact .axis (h _ _ _ hq hs)
  | tupNil n => intro u hu _; rw [replicate_eq_one hu]; exact .tupNil 1
  | tupCons t ts ih ihs =>
    intro u hu hs
    obtain ⟨a, rfl, rfl⟩ := map_eq_one hu
    exact .tupCons (us := [a]) (ih rfl hs.tup_inv.1) (ihs rfl hs.tup_inv.2)
  | dictNil n => intro u hu _; rw [replicate_eq_one hu]; exact .dictNil 1
  | dictCons t ts ih ihs =>
    intro u hu hs
    obtain ⟨a, rfl, rfl⟩ := map_eq_one hu
    exact .dictCons (us := [a]) (ih rfl hs.dict_inv.1) (ihs rfl hs.dict_inv.2)

/-- A property of arrays, said up to the axes. -/
theorem UpTo.flat {T : α → Prop} (h : ∀ a us v, Q a us v → AllArrays T v) {axes : SpecTree Int} {us : List (PyVal α)} {v : PyVal α}
    (t : UpTo Q axes us v) : AllArrays T v := by
  induction t with
  | none n => exact .none 1
  | axis hq => exact h _ _ _ hq
  | tupNil n => exact .tupNil 1
  | @tupCons _ _ us v vs t ts ih ihs => exact .tupCons (us := [(v, vs)]) ih ihs
  | dictNil n => exact .dictNil 1
  | @dictCons _ _ _ us v vs t ts ih ihs => exact .dictCons (us := [(v, vs)]) ih ihs

theorem UpTo.exists (h : ∀ a us v, P a us v → ∃ z, Q a us z) {axes : SpecTree Int} {us : List (PyVal α)} {v : PyVal α}
    (t : UpTo P axes us v) : ∃ z, UpTo Q axes us z := by
  induction t with
  | none n => exact ⟨_, .none n⟩
  | axis hp =>
    obtain ⟨z, hz⟩ := h _ _ _ hp
    exact ⟨z, .axis hz⟩
  | tupNil n => exact ⟨_, .tupNil n⟩
  | tupCons t ts ih ihs =>
    obtain ⟨y, hy⟩ := ih
    obtain ⟨ys, hys⟩ := ihs
    obtain ⟨zs, rfl⟩ : ∃ zs, ys = .tup zs := by
      generalize List.map _ _ = q at hys
      cases hys <;> exact ⟨_, rfl⟩
    exact ⟨_, .tupCons hy hys⟩
  | dictNil n => exact ⟨_, .dictNil n⟩
  | dictCons t ts ih ihs =>
    obtain ⟨y, hy⟩ := ih
    obtain ⟨ys, hys⟩ := ihs
    obtain ⟨zs, rfl⟩ : ∃ zs, ys = .dict zs := by
      generalize List.map _ _ = q at hys
      cases hys <;> exact ⟨_, rfl⟩
    exact ⟨_, .dictCons hy hys⟩

theorem moveIn_iff {axes : SpecTree Int} {x y : PyVal α} : moveIn move axes x = .ok y ↔
    UpTo (fun a us v => ∃ u, us = [u] ∧ TreeOf (fun as b => ∃ z, as = [z] ∧ move a 0 z = some b) [u] v) axes [x] y := by
  unfold moveIn
  rw [mapUpTo_iff]
  constructor <;> refine UpTo.mono ?_ <;> rintro a us v ⟨u, rfl, h⟩
  · exact ⟨u, rfl, moveNode_ok.1 h⟩
  · exact ⟨u, rfl, moveNode_ok.2 h⟩

/-- An argument whose axes have been moved to the front: its slices and its lengths. -/
theorem moveIn_spec (laws : MoveLaws R move) {axes : SpecTree Int} {x x' : PyVal α} (h : moveIn move axes x = .ok x') :
    (∃ ls, x'.leaves = some ls ∧ ∀ y ∈ ls, (R.size 0 y).isSome) ∧
    (∀ n, ArgLength R axes x n ↔ AllArrays (fun y => R.size 0 y = some n) x') ∧
    (∀ i y, ArgSlice R axes i x y ↔ x'.mapLeaves (R.index 0 i) = some y) ∧
    (AllArrays (fun _ => False) x ↔ AllArrays (fun _ => False) x') := by
  rw [moveIn_iff] at h
  have hdiag : ∀ (T : α → Prop) (P' : Int → α → Prop), (∀ a y z, move a 0 y = some z → T z → P' a y) → AllArrays T x' →
      UpTo (fun a us v => us = [v] ∧ AllArrays (P' a) v) axes [x] x := by
    intro T P' hTP hT
    refine h.diag (T := T) ?_ rfl hT
    rintro a u v ⟨_, hu, ht⟩ hv
    cases hu
    refine ⟨rfl, ht.diag ?_ rfl hv⟩
    rintro a' b ⟨z, hz, hm⟩ hb
    cases hz
    exact hTP _ _ _ hm hb
  have hfwd : ∀ (T : α → Prop) (P' : Int → α → Prop), (∀ a y z, move a 0 y = some z → P' a y → T z) →
      UpTo (fun a us v => us = [v] ∧ AllArrays (P' a) v) axes [x] x → AllArrays T x' := by
    intro T P' hPT hP
    refine TreeOf.mono (g := fun as b => as = [b] ∧ T b) (fun _ _ h => h) ?_
    have h2 := UpTo.both (g := fun _ b => T b) (Q := fun a us v => us = [v] ∧ AllArrays (P' a) v) (v := x) (z := x') ?_ hP rfl h
    · exact h2.one (fun a b hb => hb) rfl
    · rintro a u v z ⟨hu, hall⟩ ⟨_, hu', ht⟩
      cases hu; cases hu'
      have := TreeOf.comp (g := fun as b => as = [b] ∧ P' a b) (k := fun _ b => T b) ?_ ht rfl hall
      · exact this
      · rintro as m b ⟨_, hp⟩ ⟨z, hz, hm⟩
        cases hz
        exact hPT _ _ _ hm hp
  refine ⟨?_, ?_, ?_, ?_⟩
  · have : AllArrays (fun y => (R.size 0 y).isSome) x' := by
      refine h.flat ?_
      rintro a us v ⟨u, rfl, ht⟩
      refine ht.one ?_ rfl
      rintro a' b ⟨z, hz, hm⟩
      cases hz
      obtain ⟨h1, h2, _⟩ := laws.front _ _ _ hm
      rw [h1]; exact h2
    exact allArrays_iff.1 this
  · intro n
    constructor
    · exact hfwd _ (fun a y => R.size a y = some n) (fun a y z hm hp => by rw [(laws.front _ _ _ hm).1]; exact hp)
    · exact hdiag _ (fun a y => R.size a y = some n) (fun a y z hm hp => by rw [← (laws.front _ _ _ hm).1]; exact hp)
  · intro i y
    rw [← sliceVal_iff]
    constructor
    · intro hs
      refine UpTo.both ?_ h rfl hs
      rintro a u v z ⟨_, hu, ht⟩ ⟨_, hu', hs⟩
      cases hu; cases hu'
      have hall : AllArrays (fun y => (move a 0 y).isSome) u := by
        refine ht.diag (S := fun _ => True) ?_ rfl (ht.one (fun _ _ _ => trivial) rfl)
        rintro a' b ⟨z, hz, hm⟩ _
        cases hz
        rw [hm]; rfl
      have hk : TreeOf (fun as b => ∃ z, as = [z] ∧ R.index a i z = some b ∧ (move a 0 z).isSome) [u] z := by
        refine TreeOf.comp (g := fun as b => as = [b] ∧ (move a 0 b).isSome) ?_ hs rfl hall
        rintro as m b ⟨rfl, hm⟩ ⟨z, hz, hi⟩
        cases hz
        exact ⟨m, rfl, hi, hm⟩
      obtain ⟨v', h1, h2⟩ := hk.factor (g := fun as b => ∃ z, as = [z] ∧ move a 0 z = some b)
        (h := fun as b => ∃ z, as = [z] ∧ R.index 0 i z = some b) (by
          rintro as b ⟨z, rfl, hi, hm⟩
          obtain ⟨m, hm⟩ := Option.isSome_iff_exists.1 hm
          exact ⟨m, ⟨z, rfl, hm⟩, m, rfl, by rw [(laws.front _ _ _ hm).2.2]; exact hi⟩)
      have e1 := tree_mapLeaves h1 rfl
      have e2 := tree_mapLeaves ht rfl
      rw [e1, Option.some.injEq] at e2
      rw [← e2]; exact h2
    · intro hs
      refine UpTo.before ?_ h hs
      rintro a us v z ⟨u, rfl, ht⟩ hs
      refine ⟨u, rfl, TreeOf.comp ?_ hs rfl ht⟩
      rintro as m b ⟨y, rfl, hm⟩ ⟨z, hz, hi⟩
      cases hz
      exact ⟨y, rfl, by rw [← (laws.front _ _ _ hm).2.2]; exact hi⟩
  · constructor
    · intro hx
      refine hfwd _ (fun _ _ => False) (fun _ _ _ _ h => h) ?_
      have hup : UpTo (fun a us v => us = [v]) axes [x] x := by
        refine h.diag (T := fun _ => True) ?_ rfl ?_
        · rintro a u v _ _; rfl
        · refine h.flat ?_
          rintro a us v ⟨u, rfl, ht⟩
          exact ht.one (fun _ _ _ => trivial) rfl
      clear hdiag hfwd h
      suffices ∀ (us : List (PyVal α)) (v : PyVal α), UpTo (fun a us v => us = [v]) axes us v → us = [v] → AllArrays (fun _ => False) v →
          UpTo (fun a us v => us = [v] ∧ AllArrays (fun _ => False) v) axes us v from this _ _ hup rfl hx
      intro us v t
      clear hup hx
      induction t with
      | none n => intro _ _; exact .none n
      | axis hp => intro h1 h2; exact .axis ⟨h1, h2⟩
      | tupNil n => intro _ _; exact .tupNil n
      | tupCons t ts ih ihs =>
        intro h1 h2
        obtain ⟨u, rfl, h3⟩ := map_eq_one h1
        simp only [PyVal.tup.injEq, List.cons.injEq] at h3
        refine .tupCons (ih ?_ h2.tup_inv.1) (ihs ?_ h2.tup_inv.2)
        · simp [h3.1]
        · simp [h3.2]
      | dictNil n => intro _ _; exact .dictNil n
      | dictCons t ts ih ihs =>
        intro h1 h2
        obtain ⟨u, rfl, h3⟩ := map_eq_one h1
        simp only [PyVal.dict.injEq, List.cons.injEq, Prod.mk.injEq, true_and] at h3
        refine .dictCons (ih ?_ h2.dict_inv.1) (ihs ?_ h2.dict_inv.2)
        · simp [h3.1]
        · simp [h3.2]
    · intro hx
      exact (hdiag _ (fun _ _ => False) (fun _ _ _ _ h => h) hx).flat fun a us v h => h.2

/-- An argument with a length can be moved. -/
theorem moveIn_exists (laws : MoveLaws R move) {axes : SpecTree Int} {x : PyVal α} {n : Nat} (h : ArgLength R axes x n) :
    ∃ x', moveIn move axes x = .ok x' := by
  obtain ⟨x', hx⟩ := UpTo.exists (Q := fun a us v => ∃ u, us = [u] ∧ TreeOf (fun as b => ∃ z, as = [z] ∧ move a 0 z = some b) [u] v) (by
    rintro a us v ⟨rfl, hv⟩
    obtain ⟨z, hz⟩ := TreeOf.exists (h := fun as b => ∃ z, as = [z] ∧ move a 0 z = some b) (by
      rintro as b ⟨rfl, hs⟩
      obtain ⟨c, hc⟩ := Option.isSome_iff_exists.1 (laws.there a b (by rw [hs]; rfl))
      exact ⟨c, b, rfl, hc⟩) hv
    exact ⟨z, v, rfl, hz⟩) h
  exact ⟨x', moveIn_iff.2 hx⟩

theorem moveIn_error {axes : SpecTree Int} {x : PyVal α} {e : Err} (h : moveIn move axes x = .error e) : e = .valueError :=
  mapUpTo_error (fun _ _ _ h => moveNode_error h) axes h

theorem moveOut_error {axes : SpecTree Int} {x : PyVal α} {e : Err} (h : moveOut move axes x = .error e) : e = .valueError :=
  mapUpTo_error (fun _ _ _ h => moveNode_error h) axes h

/-! ### The output -/

variable [DecidableEq α]

/-- Stacking along a leading axis which is then moved. -/
theorem stack_moveOut (laws : MoveLaws R move) {axes : SpecTree Int} {us : List (PyVal α)} (hne : us ≠ []) {v : PyVal α} :
    OutStacked R axes us v ↔ ∃ st, stackVals R 0 us = some st ∧ moveOut move axes st = .ok v := by
  unfold moveOut
  constructor
  · intro h
    obtain ⟨st, h1, h2⟩ := UpTo.factor (g := fun as b => R.stack 0 as = some b) (Q := fun a us v => ∃ u, us = [u] ∧ moveNode move 0 a u = .ok v) (by
      rintro a us z ⟨_, ht⟩
      obtain ⟨st, h1, h2⟩ := ht.factor (g := fun as b => R.stack 0 as = some b) (h := fun as b => ∃ z, as = [z] ∧ move 0 a z = some b) (by
        intro as b hb
        obtain ⟨s, h1, h2⟩ := (laws.stack a as b).1 hb
        exact ⟨s, h1, s, rfl, h2⟩)
      exact ⟨st, h1, st, rfl, moveNode_ok.2 h2⟩) h
    exact ⟨st, stackedVal_iff.1 ⟨hne, h1⟩, mapUpTo_iff.2 h2⟩
  · rintro ⟨st, h1, h2⟩
    obtain ⟨_, h3⟩ := stackedVal_iff.2 h1
    have hP : UpTo (fun a us v => TreeOf (fun as b => R.stack a as = some b) us v) axes us v := by
      refine UpTo.after ?_ (mapUpTo_iff.1 h2) rfl h3
      rintro a us v z ht ⟨_, hu, hm⟩
      cases hu
      refine TreeOf.comp ?_ (moveNode_ok.1 hm) rfl ht
      rintro as m b hg ⟨z, hz, hm⟩
      cases hz
      exact (laws.stack _ _ _).2 ⟨m, hg, hm⟩
    rename_i hne'
    clear h1 h2 h3 hne'
    unfold OutStacked
    induction hP with
    | none n => exact .none n
    | axis hp => exact .axis ⟨hne, hp⟩
    | tupNil n => exact .tupNil n
    | tupCons t ts ih ihs => exact .tupCons (ih (by simpa using hne)) (ihs (by simpa using hne))
    | dictNil n => exact .dictNil n
    | dictCons t ts ih ihs => exact .dictCons (ih (by simpa using hne)) (ihs (by simpa using hne))

end Nnx
