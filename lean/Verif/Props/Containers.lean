import Verif.Proofs.Containers
/-
Properties C36 - C39: containers.
-/
namespace Nnx
variable {α : Type} [DecidableEq α]

/-- `Param(7, sharding=("in", None), k=1)` -/
def exC : PyVal Nat := .cont cParam (.data cArray 7)
  [(py! "sharding", .tup [.str (py! "in"), .none]), (py! "k", .data cArray 1)]

theorem exC_wf : WFContainer exC :=
  .mk trivial (by decide) (by decide) (by decide) (fun _ _ => ⟨_, _, rfl⟩)

/-! ### C36 -/

/-- **C36.** Calling a container class `d` with keyword metadata `md` on an existing container `x` of class `c`
succeeds exactly when the result has `x`'s class and metadata, and then it *is* `x` (same class, same value,
same metadata entries). In all other cases an exception is raised: ValueError, or TypeError when the
keywords themselves are not acceptable to the class. -/
theorem C36_wrapping_locks_kind {c d : Cls} {v : PyVal α} {m md : Md α} (hx : WFContainer (.cont c v m))
    (hmd : DNodup md) :
    ((∃ y, construct d (.cont c v m) md = .ok y) ↔
      d = c ∧ py! "value" ∉ dkeys md ∧ (d.isSub cStatic = true → md = []) ∧ ∀ k, declaredMd d md k = dget m k) ∧
    (∀ y, construct d (.cont c v m) md = .ok y → ∃ n, y = .cont c v n ∧ MdSame n m) ∧
    (∀ e, construct d (.cont c v m) md = .error e → e = .valueError ∨ e = .typeError) := by
  rcases classInit_plain_cases hx.plain hmd (c := d) with ⟨he, hr⟩ | ⟨n, he, hval, hst, hwf, hget⟩
  · have hcon : construct d (.cont c v m) md = .error .typeError := by simp [construct, he]
    refine ⟨⟨?_, ?_⟩, ?_, ?_⟩
    · rintro ⟨y, hy⟩; rw [hcon] at hy; simp at hy
    · rintro ⟨_, h1, h2, _⟩
      rcases hr with hr | ⟨hr1, hr2⟩
      · exact absurd hr h1
      · exact absurd (h2 hr1) hr2
    · intro y hy; rw [hcon] at hy; simp at hy
    · intro e h; rw [hcon] at h; simp at h; right; exact h.symm
  · have hiff : isEquivalent (.cont c v m) (.cont d v n) = true ↔ c = d ∧ MdSame m n := by
      simp only [isEquivalent, Bool.and_eq_true, decide_eq_true_eq]
      rw [mdEq_iff hx.nodup hwf.nodup]
    by_cases hq : isEquivalent (.cont c v m) (.cont d v n) = true
    · have hcon : construct d (.cont c v m) md = .ok (.cont d v n) := by simp [construct, he, hq]
      obtain ⟨rfl, hs⟩ := hiff.1 hq
      refine ⟨⟨fun _ => ⟨rfl, hval, hst, fun k => ?_⟩, fun _ => ⟨_, hcon⟩⟩, ?_, ?_⟩
      · rw [← hget k, hs k]
      · intro y hy
        rw [hcon] at hy
        simp only [Except.ok.injEq] at hy
        exact ⟨n, hy.symm, fun k => (hs k).symm⟩
      · intro e h; rw [hcon] at h; simp at h
    · have hcon : construct d (.cont c v m) md = .error .valueError := by simp [construct, he, hq]
      refine ⟨⟨?_, ?_⟩, ?_, ?_⟩
      · rintro ⟨y, hy⟩; rw [hcon] at hy; simp at hy
      · rintro ⟨rfl, _, _, h⟩
        exfalso; apply hq; rw [hiff]
        exact ⟨rfl, fun k => by rw [hget k, h k]⟩
      · intro y hy; rw [hcon] at hy; simp at hy
      · intro e h; rw [hcon] at h; simp at h; left; exact h.symm

/-- **C36, double wrapping.** `T(T(x, **md), **md)` equals `T(x, **md)` whenever the inner call succeeds. -/
theorem C36_double_wrap {c : Cls} {v y : PyVal α} {md : Md α} (hv : v.Plain) (hmd : DNodup md)
    (h : construct c v md = .ok y) : ∃ z, construct c y md = .ok z ∧ containerEq y z = true := by
  rw [construct_plain hv] at h
  rcases classInit_plain_cases hv hmd (c := c) with ⟨he, _⟩ | ⟨m, he, hval, hst, hwf, hget⟩
  · rw [he] at h; simp at h
  · rw [he] at h
    simp only [Except.ok.injEq] at h
    subst h
    refine ⟨.cont c v m, ?_, ?_⟩
    · simp [construct, he, isEquivalent, mdEq_refl hwf.nodup]
    · simp [containerEq, mdEq_refl hwf.nodup]

/-- Non-vacuity for C36: `Param(Param(7, sharding=.., k=1), sharding=.., k=1)` succeeds, while
`BatchStat(...)` and dropping the metadata fail. -/
example : construct cParam exC [(py! "sharding", .tup [.str (py! "in"), .none]), (py! "k", .data cArray 1)] = .ok exC
    ∧ construct cBatchStat exC [(py! "sharding", .tup [.str (py! "in"), .none]), (py! "k", .data cArray 1)] = .error .valueError
    ∧ construct cParam exC [] = .error .valueError ∧ construct cStatic exC [(py! "k", .none)] = .error .typeError := by
  decide

/-! ### C37 -/

/-- **C37.** `x.replace(**kw)` on a well-formed container, with distinct keywords and a plain new value
(if any): it raises ValueError iff some keyword is not a field of `x`; otherwise the result has `x`'s class,
the given values at the given keys and `x`'s own elsewhere. `x` itself is a value and so is unchanged. -/
theorem C37_replace {c : Cls} {v : PyVal α} {m kw : Md α} (hx : WFContainer (.cont c v m))
    (hst : c.isSub cStatic = false) (hkw : DNodup kw)
    (hplain : ∀ w, dget kw (py! "value") = some w → w.Plain) :
    ((∃ k ∈ dkeys kw, k ∉ py! "value" :: dkeys m) → replace (.cont c v m) kw = .error .valueError) ∧
    ((∀ k ∈ dkeys kw, k ∈ py! "value" :: dkeys m) → ∃ w n, replace (.cont c v m) kw = .ok (.cont c w n) ∧
      w = (dget kw (py! "value")).getD v ∧
      (∀ k, k ≠ py! "value" → dget n k = (dget kw k).orElse (fun _ => dget m k)) ∧
      WFContainer (.cont c w n)) := by
  have hwf := hx
  cases hx with
  | mk plain nodup novalue static shardingFirst =>
  have hunw : replaceUnwrap (.cont c v m) kw = .ok kw := by
    unfold replaceUnwrap
    split
    · next d w n h => exact absurd (hplain _ h) (by simp [PyVal.Plain])
    · rfl
  have hmemv : ∀ k, k ∈ dkeys (varsOf v m) ↔ k ∈ py! "value" :: dkeys m := by
    intro k
    simp only [varsOf, dkeys, List.map_append, List.mem_append, List.map_cons, List.map_nil, List.mem_cons,
      List.not_mem_nil, or_false]
    tauto
  constructor
  · rintro ⟨k, hk, hk'⟩
    have hany : kw.any (fun kv => !dhas (varsOf v m) kv.1) = true := by
      obtain ⟨kv, hkv, rfl⟩ := List.mem_map.1 hk
      rw [List.any_eq_true]
      refine ⟨kv, hkv, ?_⟩
      have : dget (varsOf v m) kv.1 = none := dget_eq_none.2 (fun h => hk' ((hmemv _).1 h))
      simp [dhas, this]
    simp [replace, hunw, hany]
  · intro hall
    have hany : kw.any (fun kv => !dhas (varsOf v m) kv.1) = false := by
      rw [Bool.eq_false_iff]
      intro h
      rw [List.any_eq_true] at h
      obtain ⟨kv, hkv, h⟩ := h
      have := (hmemv kv.1).2 (hall kv.1 (List.mem_map.2 ⟨kv, hkv, rfl⟩))
      rw [← dget_isSome] at this
      simp [dhas, this] at h
    have hvn : DNodup (varsOf v m) := by
      simp only [DNodup, varsOf, dkeys, List.map_append, List.map_cons, List.map_nil]
      rw [List.nodup_append]
      refine ⟨nodup, by simp, ?_⟩
      intro a ha b hb
      simp at hb
      subst hb
      intro e; subst e; exact novalue ha
    have hupn : DNodup (dupdate (varsOf v m) kw) := dnodup_dupdate hvn kw
    have hget : ∀ k, dget (dupdate (varsOf v m) kw) k = (dget kw k).orElse (fun _ => dget (varsOf v m) k) := by
      intro k; rw [dget_dupdate, lastOf_eq_dget hkw]
    have hval : dget (dupdate (varsOf v m) kw) (py! "value") = some ((dget kw (py! "value")).getD v) := by
      rw [hget, dget_varsOf_value novalue]
      cases dget kw (py! "value") <;> simp
    have hwp : ((dget kw (py! "value")).getD v).Plain := by
      cases h : dget kw (py! "value") with
      | none => simpa using plain
      | some w => simpa using hplain w h
    -- the metadata passed to the constructor is again well formed
    have hn1 : DNodup (ddel (dupdate (varsOf v m) kw) (py! "value")) := dnodup_ddel hupn _
    have hn2 : py! "value" ∉ dkeys (ddel (dupdate (varsOf v m) kw) (py! "value")) := by
      rw [← dget_eq_none, dget_ddel hupn]; simp
    have key : ∀ (e d : Md α) (x : PyVal α), ∃ x' d', dupdate ((py! "sharding", x) :: d) e = (py! "sharding", x') :: d' := by
      intro e
      induction e with
      | nil => intro d x; exact ⟨x, d, rfl⟩
      | cons kv e ih =>
        intro d x
        simp only [dupdate, List.foldl_cons, dset] at ih ⊢
        split
        · exact ih _ _
        · exact ih _ _
    have hwfn : WFContainer (.cont c ((dget kw (py! "value")).getD v)
        (ddel (dupdate (varsOf v m) kw) (py! "value"))) := by
      refine .mk hwp hn1 hn2 (fun h => by simp [hst] at h) ?_
      intro h1 h2
      obtain ⟨x, rest, e⟩ := shardingFirst h1 h2
      subst e
      obtain ⟨x', d', e⟩ := key kw (rest ++ [(py! "value", v)]) x
      refine ⟨x', ddel d' (py! "value"), ?_⟩
      have e' : dupdate (varsOf v ((py! "sharding", x) :: rest)) kw = (py! "sharding", x') :: d' := e
      rw [e']
      simp [ddel]
    refine ⟨_, _, ?_, rfl, ?_, hwfn⟩
    · simp only [replace, hunw, hany, hval]
      simp only [construct_plain hwp, classInit_wf hwfn hwp]
      rfl
    · intro k hk
      rw [dget_ddel hupn, if_neg (fun e => hk e.symm), hget]
      have : dget (varsOf v m) k = dget m k := by
        rw [varsOf, dget_append]
        have : dget [(py! "value", v)] k = none := by
          simp only [dget]
          rw [if_neg (fun e => hk e.symm)]
        rw [this]; cases dget m k <;> rfl
      rw [this]

/-- **C37, container as value.** Replacing the value by a container takes that container's value if and only
if its class and metadata are the same; otherwise ValueError. -/
theorem C37_replace_by_container {c d : Cls} {v w : PyVal α} {m n : Md α} (hx : WFContainer (.cont c v m))
    (hy : WFContainer (.cont d w n)) :
    (c = d ∧ MdSame m n → replace (.cont c v m) [(py! "value", .cont d w n)] = .ok (.cont c w m)) ∧
    (¬ (c = d ∧ MdSame m n) → replace (.cont c v m) [(py! "value", .cont d w n)] = .error .valueError) := by
  rw [replace_value_cont hx hy.plain]
  constructor
  · intro h; rw [if_pos ⟨h.1, (mdEq_iff hx.nodup hy.nodup).2 h.2⟩]
  · intro h; rw [if_neg (fun h' => h ⟨h'.1, (mdEq_iff hx.nodup hy.nodup).1 h'.2⟩)]

example : replace exC [(py! "k", .none), (py! "value", .data cArray 8)] =
      .ok (.cont cParam (.data cArray 8) [(py! "sharding", .tup [.str (py! "in"), .none]), (py! "k", .none)])
    ∧ replace exC [(py! "zzz", .none)] = .error .valueError
    ∧ replace exC [(py! "value", .cont cBatchStat (.data cArray 1) [(py! "sharding", .none)])] = .error .valueError := by
  decide

/-! ### C38 -/

/-- **C38, nodes.** A node container flattens to exactly one child, its value; unflattening with any plain
child gives the container with only the value replaced, and with its own child gives it back. -/
theorem C38_node_roundtrip {c : Cls} {v w : PyVal α} {m : Md α} (hx : WFContainer (.cont c v m))
    (hc : c.isSub cNodeBase = true) (hw : w.Plain) :
    ∃ aux, flattenContainer (.cont c v m) = some ([v], aux) ∧
      unflattenContainer aux [v] = .ok (.cont c v m) ∧ unflattenContainer aux [w] = .ok (.cont c w m) := by
  refine ⟨(c, m, none), by simp [flattenContainer, hc], ?_, ?_⟩
  · simp only [unflattenContainer, construct_plain hx.plain, classInit_wf hx hx.plain]
  · simp only [unflattenContainer, construct_plain hw, classInit_wf hx hw]

/-- **C38, Static.** `Static` contributes no leaves, and rebuilding it gives it back. -/
theorem C38_static_roundtrip {v : PyVal α} (hv : v.Plain) :
    ∃ aux, flattenContainer (.cont cStatic v []) = some ([], aux) ∧
      unflattenContainer aux [] = .ok (.cont cStatic v []) := by
  have hns : Cls.isSub cStatic cNodeBase = false := by decide
  have hss : Cls.isSub cStatic cStatic = true := by decide
  refine ⟨(cStatic, [], some v), by simp [flattenContainer, hns], ?_⟩
  simp only [unflattenContainer, construct_plain hv]
  simp [classInit, hss, dhas, dget, containerInit_plain hv]

/-- **C38, copy and equality.** `copy()` returns an equal container; `==` holds iff class, value and metadata
agree, and is an equivalence relation. -/
theorem C38_copy_eq {x : PyVal α} (hx : WFContainer x) : copy x = .ok x ∧ containerEq x x = true := by
  refine ⟨copy_wf hx, ?_⟩
  cases hx with
  | mk plain nodup novalue static shardingFirst => simp [containerEq, mdEq_refl nodup]

theorem C38_eq_iff {c d : Cls} {v w : PyVal α} {m n : Md α} (hm : DNodup m) (hn : DNodup n) :
    containerEq (.cont c v m) (.cont d w n) = true ↔ c = d ∧ v = w ∧ MdSame m n := by
  simp only [containerEq, Bool.and_eq_true, decide_eq_true_eq, mdEq_iff hn hm]
  constructor
  · rintro ⟨⟨h1, h2⟩, h3⟩; exact ⟨h1, h2, fun k => (h3 k).symm⟩
  · rintro ⟨h1, h2, h3⟩; exact ⟨⟨h1, h2⟩, fun k => (h3 k).symm⟩

/-- A container equals no other kind of object. -/
theorem C38_eq_other {c : Cls} {v : PyVal α} {m : Md α} {y : PyVal α} :
    containerEq (.cont c v m) y = true → ∃ w n, y = .cont c w n := by
  cases y with
  | cont d w n =>
    simp only [containerEq, Bool.and_eq_true, decide_eq_true_eq]
    rintro ⟨⟨rfl, -⟩, -⟩
    exact ⟨w, n, rfl⟩
  | _ => intro h; simp [containerEq] at h

theorem C38_eq_equivalence {x y z : PyVal α} (hx : WFContainer x) (hy : WFContainer y) (hz : WFContainer z) :
    containerEq x x = true ∧ (containerEq x y = true → containerEq y x = true) ∧
    (containerEq x y = true → containerEq y z = true → containerEq x z = true) := by
  cases hx with
  | mk _ hx' _ _ _ =>
  cases hy with
  | mk _ hy' _ _ _ =>
  cases hz with
  | mk _ hz' _ _ _ =>
  rw [C38_eq_iff hx' hx', C38_eq_iff hx' hy', C38_eq_iff hy' hx', C38_eq_iff hy' hz', C38_eq_iff hx' hz']
  refine ⟨⟨rfl, rfl, fun _ => rfl⟩, ?_, ?_⟩
  · rintro ⟨rfl, rfl, h⟩; exact ⟨rfl, rfl, fun k => (h k).symm⟩
  · rintro ⟨rfl, rfl, h⟩ ⟨rfl, rfl, h'⟩; exact ⟨rfl, rfl, fun k => (h k).trans (h' k)⟩

example : WFContainer exC ∧ Cls.isSub cParam cNodeBase = true ∧ PyVal.Plain (.data cArray 3 : PyVal Nat) :=
  ⟨exC_wf, by decide, trivial⟩

/-! ### C39 -/

/-- **C39.** A container built from the result of `with_metadata(init, **md)` has the initializer's value and
every entry of `md`, overriding the keyword arguments of the call (such as `sharding`); the keyword
arguments not mentioned in `md` are kept. -/
theorem C39_with_metadata {A : Type} {c : Cls} {init : A → PyVal α} {md kw : Md α} (args : A)
    (hst : c.isSub cStatic = false) (hmd : DNodup md) (hkw : DNodup kw)
    (hv1 : py! "value" ∉ dkeys kw) :
    ∃ m, construct c (withMetadata init md args) kw = .ok (.cont c (init args) m) ∧
      ∀ k, k ≠ py! "value" → dget m k = (dget md k).orElse (fun _ => declaredMd c kw k) := by
  have hval : dhas kw (py! "value") = false := by rw [dhas, dget_eq_none.2 hv1]; rfl
  by_cases hvar : c.isSub cVariable = true
  · refine ⟨ddel (dupdate (dupdate [(py! "sharding", .none)] kw) md) (py! "value"), ?_, ?_⟩
    · simp [withMetadata, construct, classInit, hval, hst, hvar, containerInit]
    · intro k hk
      have hn : DNodup (dupdate (dupdate [(py! "sharding", (PyVal.none : PyVal α))] kw) md) :=
        dnodup_dupdate (dnodup_dupdate (by simp [DNodup]) _) _
      rw [dget_ddel hn, if_neg (fun e => hk e.symm), dget_dupdate, lastOf_eq_dget hmd,
        dget_dupdate, lastOf_eq_dget hkw, declaredMd]
      cases dget md k with
      | some w => simp
      | none =>
        cases dget kw k with
        | some w => simp
        | none =>
          by_cases hs : py! "sharding" = k
          · simp [dget, ← hs, hst, hvar]
          · have : ¬ k = py! "sharding" := fun e => hs e.symm
            simp [dget, hs, this]
  · refine ⟨ddel (dupdate kw md) (py! "value"), ?_, ?_⟩
    · simp [withMetadata, construct, classInit, hval, hst, hvar, containerInit]
    · intro k hk
      have hn : DNodup (dupdate kw md) := dnodup_dupdate hkw _
      rw [dget_ddel hn, if_neg (fun e => hk e.symm), dget_dupdate, lastOf_eq_dget hmd, declaredMd]
      cases dget md k with
      | some w => simp
      | none => cases dget kw k <;> simp [hvar]

example : construct cParam (withMetadata (fun n : Nat => .data cArray n) [(py! "sharding", .str (py! "x")), (py! "q", .none)] 5)
      [(py! "sharding", .str (py! "y")), (py! "r", .none)] =
    .ok (.cont cParam (.data cArray 5)
      [(py! "sharding", .str (py! "x")), (py! "r", .none), (py! "q", .none)]) := by decide

/-- **C39, nested `with_metadata` is not supported** (a limitation of the code): only the outer layer is
unwrapped, the value of the container is then itself a `ContainerMetadata`. -/
theorem C39_nested_not_unwrapped (c : Cls) (hst : c.isSub cStatic = false) (v : PyVal α) (m1 m2 : Md α) :
    ∃ m, construct c (withMetadata (fun _ : Unit => withMetadata (fun _ : Unit => v) m1 ()) m2 ()) []
      = .ok (.cont c (.cmeta v m1) m) := by
  by_cases hvar : c.isSub cVariable = true
  · refine ⟨_, by simp [withMetadata, construct, classInit, dhas, dget, hst, hvar, containerInit]; rfl⟩
  · refine ⟨_, by simp [withMetadata, construct, classInit, dhas, dget, hst, hvar, containerInit]; rfl⟩

end Nnx
