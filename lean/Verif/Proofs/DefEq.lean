import Verif.Proofs.Canon
import Verif.Spec.ModuleDef
import Verif.Model.ModuleHash
/-
Definitions that compare equal, and merging them.
-/
namespace Nnx
variable {α : Type}

/-! ### Numbering -/

/-- The definitions in `s` are numbered consecutively, in order, from `i` up to (not including) `j`. -/
def Subs.numbered : Subs α → Nat → Nat → Prop
  | .nil, i, j => i = j
  | .ref _ _ r, i, j => r.numbered i j
  | .sub _ _ k s _ _ r, i, j => k = i ∧ ∃ m, s.numbered (i + 1) m ∧ r.numbered m j

theorem numbered_attrs {h : Heap α} {f : Nat}
    (ih : ∀ l S d T, makeDefRec h f l S = some (d, T) → match d with
      | .inl _ => T = S
      | .inr d => d.index = S.length ∧ d.subs.numbered (S.length + 1) T.length) :
    ∀ (as : List (Str × Attr α)) S subs st T, makeDefAttrs (makeDefRec h f) as S = some (subs, st, T) →
      subs.numbered S.length T.length := by
  intro as
  induction as with
  | nil =>
    intro S subs st T e
    simp only [makeDefAttrs, Option.some.injEq, Prod.mk.injEq] at e
    obtain ⟨rfl, rfl, rfl⟩ := e
    simp [Subs.numbered]
  | cons x as iha =>
    intro S subs st T e
    obtain ⟨n, a⟩ := x
    cases a with
    | val v =>
      simp only [makeDefAttrs] at e
      split at e
      · cases e
      next s1 t1 i1 h1 =>
      have := iha _ _ _ _ h1
      split at e <;> (cases e; exact this)
    | ref l =>
      simp only [makeDefAttrs] at e
      split at e
      · cases e
      next d1 j1 g1 =>
      split at e
      · cases e
      next s1 t1 i1 h1 =>
      have h2 := iha _ _ _ _ h1
      have h3 := ih _ _ _ _ g1
      cases e
      cases d1 with
      | inl i => simp only at h3; subst h3; exact h2
      | inr d =>
        simp only at h3
        exact ⟨h3.1, _, h3.2, h2⟩

theorem numbered_def {h : Heap α} : ∀ (f : Nat) l S d T, makeDefRec h f l S = some (d, T) → match d with
      | .inl _ => T = S
      | .inr d => d.index = S.length ∧ d.subs.numbered (S.length + 1) T.length := by
  intro f
  induction f with
  | zero => intro l S d T e; simp [makeDefRec] at e
  | succ f ih =>
    intro l S d T e
    simp only [makeDefRec] at e
    split at e
    · cases e
    · split at e
      · cases e; rfl
      · split at e
        · cases e
        · next s1 t1 i1 h1 =>
          have := numbered_attrs ih _ _ _ _ _ h1
          cases e
          simpa using this

theorem getModuleDef_numbered {h : Heap α} {f : Nat} {l : Loc} {d : ModuleDef α} (e : getModuleDef f h l = some d) :
    d.index = 0 ∧ ∃ j, d.subs.numbered 1 j := by
  unfold getModuleDef at e
  split at e
  · next h1 =>
    cases e
    have := numbered_def _ _ _ _ _ h1
    exact ⟨this.1, _, this.2⟩
  · cases e

/-! ### Forgetting the flags -/

/-- The definitions without flags. -/
def Subs.noFlags : Subs α → Subs α
  | .nil => .nil
  | .ref n i r => .ref n i r.noFlags
  | .sub n c i s st _ r => .sub n c i s.noFlags st false r.noFlags

/-- A definition without flags. -/
def ModuleDef.noFlags (d : ModuleDef α) : ModuleDef α := { d with subs := d.subs.noFlags, isInit := false }

section
variable [DecidableEq α]

theorem Subs.noFlags_eq {s t : Subs α} : ∀ {i j j' : Nat}, s.eqv t = true → s.numbered i j → t.numbered i j' →
    s.noFlags = t.noFlags ∧ j = j' := by
  induction s generalizing t with
  | nil =>
    intro i j j' e h1 h2
    cases t <;> simp [Subs.eqv] at e
    exact ⟨rfl, h1.symm.trans h2⟩
  | ref n k r ih =>
    intro i j j' e h1 h2
    cases t <;> simp [Subs.eqv] at e
    obtain ⟨⟨rfl, rfl⟩, e⟩ := e
    obtain ⟨h3, h4⟩ := ih e h1 h2
    exact ⟨by simp [Subs.noFlags, h3], h4⟩
  | sub n c k s st b r ihs ihr =>
    intro i j j' e h1 h2
    cases t <;> simp [Subs.eqv] at e
    obtain ⟨⟨⟨⟨rfl, rfl⟩, e1⟩, rfl⟩, e2⟩ := e
    obtain ⟨rfl, m, hs, hr⟩ := h1
    obtain ⟨rfl, m', hs', hr'⟩ := h2
    obtain ⟨h3, rfl⟩ := ihs e1 hs hs'
    obtain ⟨h4, rfl⟩ := ihr e2 hr hr'
    exact ⟨by simp [Subs.noFlags, h3, h4], rfl⟩

theorem ModuleDef.noFlags_eq {h h' : Heap α} {f f' : Nat} {l l' : Loc} {d e : ModuleDef α}
    (hd : getModuleDef f h l = some d) (he : getModuleDef f' h' l' = some e) (heq : d.eqv e = true) :
    d.noFlags = e.noFlags := by
  obtain ⟨i1, j, n1⟩ := getModuleDef_numbered hd
  obtain ⟨i2, j', n2⟩ := getModuleDef_numbered he
  simp only [ModuleDef.eqv, Bool.and_eq_true, decide_eq_true_eq] at heq
  obtain ⟨⟨h1, h2⟩, h3⟩ := heq
  obtain ⟨h4, _⟩ := Subs.noFlags_eq h2 n1 n2
  cases d; cases e
  simp_all [ModuleDef.noFlags]

end

theorem noFlags_curTrace (w : World α) : w.noFlags.curTrace = w.curTrace := rfl

theorem noFlags_allocDummy (w : World α) (c : Cls) : (w.allocDummy c).noFlags = w.noFlags.allocDummy c := by
  simp [World.noFlags, World.allocDummy]

theorem noFlags_finish (w : World α) (l : Loc) (c : Cls) (st : List (Str × PyVal α)) (subs : List (Str × Loc)) (b : Bool) :
    (w.finish l c st subs b).noFlags = w.noFlags.finish l c st subs false := by
  simp only [World.noFlags, World.finish, List.map_set, World.mk.injEq, and_true, true_and]
  rfl

/-- The result of building, without flags. -/
def dropFlags {A B : Type} : Except Err (A × World α × B) → Except Err (A × World α × B)
  | .error e => .error e
  | .ok (a, w, b) => .ok (a, w.noFlags, b)

theorem noFlags_buildSubs (s : Subs α) : ∀ (w : World α) (im : Dict Nat Loc),
    dropFlags (buildSubs s w im) = buildSubs s.noFlags w.noFlags im := by
  induction s with
  | nil => intro w im; rfl
  | ref n i r ih =>
    intro w im
    simp only [buildSubs, Subs.noFlags]
    cases dget im i with
    | none => rfl
    | some l =>
      simp only
      rw [← ih w im]
      cases buildSubs r w im with
      | error e => rfl
      | ok x => obtain ⟨a, b, c⟩ := x; rfl
  | sub n c i s st b r ihs ihr =>
    intro w im
    simp only [buildSubs, Subs.noFlags]
    by_cases hd : dhas im i = true
    · simp [hd, dropFlags]
    · simp only [hd, if_false, Bool.false_eq_true]
      have hl : w.noFlags.heap.length = w.heap.length := by simp [World.noFlags]
      rw [hl, ← noFlags_allocDummy, ← ihs]
      cases buildSubs s (w.allocDummy c) (dset im i w.heap.length) with
      | error e => rfl
      | ok x =>
        obtain ⟨ch, w1, im1⟩ := x
        simp only [dropFlags]
        rw [← noFlags_finish w1 w.heap.length c st ch b, ← ihr]
        cases buildSubs r (w1.finish w.heap.length c st ch b) im1 with
        | error e => rfl
        | ok y => obtain ⟨a, b, c⟩ := y; rfl

theorem noFlags_buildModule (d : ModuleDef α) (w : World α) :
    (match buildModule d w with
      | .error e => .error e
      | .ok (l, w) => .ok (l, w.noFlags)) = buildModule d.noFlags w.noFlags := by
  simp only [buildModule, ModuleDef.noFlags]
  have hl : w.noFlags.heap.length = w.heap.length := by simp [World.noFlags]
  rw [hl, ← noFlags_allocDummy, ← noFlags_buildSubs]
  cases buildSubs d.subs (w.allocDummy d.cls) (dset [] d.index w.heap.length) with
  | error e => rfl
  | ok x =>
    obtain ⟨ch, w1, im1⟩ := x
    simp only [dropFlags, noFlags_finish]

section
variable [DecidableEq α]

omit [DecidableEq α] in
theorem noFlags_get (w : World α) (l : Loc) : w.noFlags.heap[l]? = (w.heap[l]?).map (fun o => { o with isInit := false }) := by
  simp [World.noFlags]

theorem noFlags_setAttr (w : World α) (l : Loc) (n : Str) (a : Attr α) :
    (setAttr w l n a).map World.noFlags = setAttr w.noFlags l n a := by
  unfold setAttr
  rw [noFlags_get]
  cases w.heap[l]? with
  | none => rfl
  | some o =>
    simp only [Option.map_some]
    have ht : w.noFlags.traceValid o.trace = w.traceValid o.trace := rfl
    rw [ht]
    split
    · rfl
    · split
      · rfl
      · cases storedAttr (dget o.attrs n) a with
        | error e => rfl
        | ok x =>
          simp [Except.map, World.noFlags, World.setAttrs, List.map_set]

theorem noFlags_varsGet (w : World α) (l : Loc) (n : Str) : varsGet w.noFlags.heap l n = varsGet w.heap l n := by
  unfold varsGet
  rw [noFlags_get]
  cases w.heap[l]? <;> rfl

theorem noFlags_setValueAtPath (w : World α) : ∀ (p : List Str) (a : Attr α) (v : PyVal α),
    (setValueAtPath w a p v).map World.noFlags = setValueAtPath w.noFlags a p v := by
  intro p
  induction p with
  | nil => intro a v; cases a <;> rfl
  | cons x p ih =>
    intro a v
    cases a with
    | val y => cases p <;> rfl
    | ref l =>
      cases p with
      | nil => exact noFlags_setAttr w l x _
      | cons y p =>
        simp only [setValueAtPath, noFlags_varsGet]
        cases varsGet w.heap l x with
        | error e => rfl
        | ok b => exact ih b v

theorem noFlags_assignAll (root : Loc) : ∀ (es : List (Str × PyVal α)) (w : World α),
    ((assignAll root es w).1.noFlags, (assignAll root es w).2) = assignAll root es w.noFlags := by
  intro es
  induction es with
  | nil => intro w; rfl
  | cons x es ih =>
    intro w
    obtain ⟨k, v⟩ := x
    simp only [assignAll]
    rw [← noFlags_setValueAtPath]
    cases setValueAtPath w (.ref root) (splitSlash k) v with
    | error e => rfl
    | ok w1 => exact ih w1

theorem noFlags_mergeDef (d : ModuleDef α) (ss : List (State (PyVal α))) (w : World α) :
    ((mergeDef d ss w).1.noFlags, (mergeDef d ss w).2) = mergeDef d.noFlags ss w.noFlags := by
  unfold mergeDef
  rw [← noFlags_buildModule]
  cases buildModule d w with
  | error e => rfl
  | ok x =>
    obtain ⟨l, w1⟩ := x
    simp only [updateModule]
    rw [← noFlags_assignAll]
    generalize assignAll l _ w1 = y
    obtain ⟨w2, r⟩ := y
    cases r <;> rfl

end

/-! ### Equality and hashing of definitions -/

variable [DecidableEq α]

theorem Subs.eqv_refl (s : Subs α) : s.eqv s = true := by
  induction s with
  | nil => rfl
  | ref n i r ih => simp [Subs.eqv, ih]
  | sub n c i s st b r ihs ihr => simp [Subs.eqv, ihs, ihr]

theorem Subs.eqv_symm {s t : Subs α} : s.eqv t = true → t.eqv s = true := by
  induction s generalizing t with
  | nil => intro e; cases t <;> simp [Subs.eqv] at e ⊢
  | ref n i r ih =>
    intro e; cases t <;> simp [Subs.eqv] at e ⊢
    exact ⟨⟨e.1.1.symm, e.1.2.symm⟩, ih e.2⟩
  | sub n c i s st b r ihs ihr =>
    intro e; cases t <;> simp [Subs.eqv] at e ⊢
    obtain ⟨⟨⟨⟨rfl, rfl⟩, e1⟩, rfl⟩, e2⟩ := e
    exact ⟨⟨⟨⟨rfl, rfl⟩, ihs e1⟩, rfl⟩, ihr e2⟩

theorem Subs.eqv_trans {s t u : Subs α} : s.eqv t = true → t.eqv u = true → s.eqv u = true := by
  induction s generalizing t u with
  | nil => intro e e'; cases t <;> simp [Subs.eqv] at e; exact e'
  | ref n i r ih =>
    intro e e'; cases t <;> simp [Subs.eqv] at e
    cases u <;> simp [Subs.eqv] at e' ⊢
    exact ⟨⟨e.1.1.trans e'.1.1, e.1.2.trans e'.1.2⟩, ih e.2 e'.2⟩
  | sub n c i s st b r ihs ihr =>
    intro e e'; cases t <;> simp [Subs.eqv] at e
    cases u <;> simp [Subs.eqv] at e' ⊢
    obtain ⟨⟨⟨⟨rfl, rfl⟩, e1⟩, rfl⟩, e2⟩ := e
    obtain ⟨⟨⟨⟨rfl, rfl⟩, e3⟩, rfl⟩, e4⟩ := e'
    exact ⟨⟨⟨⟨rfl, rfl⟩, ihs e1 e3⟩, rfl⟩, ihr e2 e4⟩

theorem Hashing.subs_eqv (H : Hashing α) {s t : Subs α} : s.eqv t = true → H.subs s = H.subs t := by
  induction s generalizing t with
  | nil => intro e; cases t <;> simp [Subs.eqv] at e; rfl
  | ref n i r ih =>
    intro e; cases t <;> simp [Subs.eqv] at e
    obtain ⟨⟨rfl, rfl⟩, e⟩ := e
    simp [Hashing.subs, ih e]
  | sub n c i s st b r ihs ihr =>
    intro e; cases t <;> simp [Subs.eqv] at e
    obtain ⟨⟨⟨⟨rfl, rfl⟩, e1⟩, rfl⟩, e2⟩ := e
    simp only [Hashing.subs, ihs e1, ihr e2]

end Nnx
