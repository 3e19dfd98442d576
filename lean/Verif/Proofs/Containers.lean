import Verif.Spec.Containers
/-
Lemmas about containers.
-/
namespace Nnx
variable {α : Type} [DecidableEq α]

theorem mdEq_iff {m n : Md α} (hm : DNodup m) (hn : DNodup n) : mdEq m n = true ↔ MdSame m n := by
  simp only [mdEq, Bool.and_eq_true, List.all_eq_true, decide_eq_true_eq]
  constructor
  · rintro ⟨h1, h2⟩ k
    cases hk : dget m k with
    | some v => rw [h1 _ (dget_mem hk)]
    | none =>
      cases hk' : dget n k with
      | none => rfl
      | some w => rw [h2 _ (dget_mem hk')] at hk; simp at hk
  · intro h
    constructor
    · rintro ⟨k, v⟩ hkv
      rw [← h k, mem_dget hm hkv]
    · rintro ⟨k, v⟩ hkv
      rw [h k, mem_dget hn hkv]

theorem mdEq_refl {m : Md α} (hm : DNodup m) : mdEq m m = true := (mdEq_iff hm hm).2 (fun _ => rfl)

omit [DecidableEq α] in
theorem containerInit_plain {c : Cls} {v : PyVal α} (hv : v.Plain) (md : Md α) :
    containerInit c v md = .cont c v md := by
  cases v <;> simp_all [containerInit, PyVal.Plain]

omit [DecidableEq α] in
theorem dupdate_cons_head {k : Str} {x y : PyVal α} {rest : Md α} (h : DNodup ((k, y) :: rest)) :
    dupdate [(k, x)] ((k, y) :: rest) = (k, y) :: rest := by
  have e : dupdate [(k, x)] ((k, y) :: rest) = dupdate [] ((k, y) :: rest) := by
    simp [dupdate, dset]
  rw [e]
  exact dofList_of_nodup h

omit [DecidableEq α] in
/-- Calling the class again with the metadata of a well-formed container reproduces it. -/
theorem classInit_wf {c : Cls} {v w : PyVal α} {m : Md α} (h : WFContainer (.cont c v m)) (hw : w.Plain) :
    classInit c w m = .ok (.cont c w m) := by
  cases h with
  | mk plain nodup novalue static shardingFirst =>
    have hv : dhas m (py! "value") = false := by
      rw [dhas, dget_eq_none.2 novalue]; rfl
    unfold classInit
    rw [if_neg (by simp [hv])]
    by_cases hs : c.isSub cStatic = true
    · rw [if_pos hs]
      have := static hs
      subst this
      simp [containerInit_plain hw]
    · rw [if_neg hs]
      by_cases hvar : c.isSub cVariable = true
      · rw [if_pos hvar]
        obtain ⟨x, rest, e⟩ := shardingFirst (by simpa using hs) hvar
        subst e
        rw [dupdate_cons_head nodup, containerInit_plain hw]
      · rw [if_neg hvar, containerInit_plain hw]

theorem construct_plain {c : Cls} {w : PyVal α} (hw : w.Plain) (m : Md α) :
    construct c w m = classInit c w m := by
  cases w <;> simp_all [construct, PyVal.Plain]

theorem copy_wf {x : PyVal α} (h : WFContainer x) : copy x = .ok x := by
  cases h with
  | mk plain nodup novalue static shardingFirst =>
    rw [copy, construct_plain plain]
    exact classInit_wf (.mk plain nodup novalue static shardingFirst) plain

omit [DecidableEq α] in
theorem ddel_varsOf {v : PyVal α} {m : Md α} (h : py! "value" ∉ dkeys m) :
    ddel (varsOf v m) (py! "value") = m := by
  unfold varsOf
  induction m with
  | nil => simp [ddel]
  | cons kv m ih =>
    obtain ⟨k, x⟩ := kv
    simp only [dkeys, List.map_cons, List.mem_cons, not_or] at h ih
    simp only [List.cons_append, ddel]
    rw [if_neg (fun e => h.1 e.symm), ih h.2]

omit [DecidableEq α] in
theorem dset_varsOf {v w : PyVal α} {m : Md α} (h : py! "value" ∉ dkeys m) :
    dset (varsOf v m) (py! "value") w = varsOf w m := by
  unfold varsOf
  induction m with
  | nil => simp [dset]
  | cons kv m ih =>
    obtain ⟨k, x⟩ := kv
    simp only [dkeys, List.map_cons, List.mem_cons, not_or] at h ih
    simp only [List.cons_append, dset]
    rw [if_neg (fun e => h.1 e.symm), ih h.2]

omit [DecidableEq α] in
theorem dget_varsOf_value {v : PyVal α} {m : Md α} (h : py! "value" ∉ dkeys m) :
    dget (varsOf v m) (py! "value") = some v := by
  rw [varsOf, dget_append, dget_eq_none.2 h]
  simp [dget]

/-- Assigning to a well-formed container attribute: keep class and metadata, take the new value; a
container as the new value must be equivalent. -/
theorem replace_value_plain {c : Cls} {v w : PyVal α} {m : Md α} (h : WFContainer (.cont c v m)) (hw : w.Plain) :
    replace (.cont c v m) [(py! "value", w)] = .ok (.cont c w m) := by
  have hwf := h
  cases h with
  | mk plain nodup novalue static shardingFirst =>
    have hunw : replaceUnwrap (.cont c v m) [(py! "value", w)] = .ok [(py! "value", w)] := by
      simp only [replaceUnwrap, dget, if_true]
      cases w <;> simp_all [PyVal.Plain]
    have hany : [(py! "value", w)].any (fun kv => !dhas (varsOf v m) kv.1) = false := by
      simp [dhas, dget_varsOf_value novalue]
    simp only [replace, hunw, hany]
    have hup : dupdate (varsOf v m) [(py! "value", w)] = varsOf w m := by
      simp [dupdate, dset_varsOf novalue]
    rw [hup, dget_varsOf_value novalue, ddel_varsOf novalue]
    simp [construct_plain hw, classInit_wf hwf hw]

theorem replace_value_cont {c d : Cls} {v w : PyVal α} {m n : Md α} (h : WFContainer (.cont c v m))
    (hw : w.Plain) : replace (.cont c v m) [(py! "value", .cont d w n)] =
      if c = d ∧ mdEq m n = true then .ok (.cont c w m) else .error .valueError := by
  have hwf := h
  cases h with
  | mk plain nodup novalue static shardingFirst =>
    by_cases hq : c = d ∧ mdEq m n = true
    · rw [if_pos hq]
      have hunw : replaceUnwrap (.cont c v m) [(py! "value", .cont d w n)] = .ok [(py! "value", w)] := by
        simp [replaceUnwrap, dget, isEquivalent, hq.1, hq.2, dset]
      have hany : [(py! "value", w)].any (fun kv => !dhas (varsOf v m) kv.1) = false := by
        simp [dhas, dget_varsOf_value novalue]
      simp only [replace, hunw, hany]
      have hup : dupdate (varsOf v m) [(py! "value", w)] = varsOf w m := by
        simp [dupdate, dset_varsOf novalue]
      rw [hup, dget_varsOf_value novalue, ddel_varsOf novalue]
      simp [construct_plain hw, classInit_wf hwf hw]
    · rw [if_neg hq]
      have hunw : replaceUnwrap (.cont c v m) [(py! "value", .cont d w n)] = .error .valueError := by
        have hq' : isEquivalent (.cont c v m) (.cont d w n) = false := by
          by_contra hh
          apply hq
          simpa [isEquivalent] using hh
        simp [replaceUnwrap, dget, hq']
      simp only [replace, hunw]

omit [DecidableEq α] in
theorem WFContainer.with_value {c : Cls} {v w : PyVal α} {m : Md α} (h : WFContainer (.cont c v m)) (hw : w.Plain) :
    WFContainer (.cont c w m) := by
  cases h with
  | mk plain nodup novalue static shardingFirst => exact .mk hw nodup novalue static shardingFirst

omit [DecidableEq α] in
theorem WFContainer.nodup {c : Cls} {v : PyVal α} {m : Md α} (h : WFContainer (.cont c v m)) : DNodup m := by
  cases h with | mk _ nodup _ _ _ => exact nodup

omit [DecidableEq α] in
theorem WFContainer.plain {c : Cls} {v : PyVal α} {m : Md α} (h : WFContainer (.cont c v m)) : v.Plain := by
  cases h with | mk plain _ _ _ _ => exact plain

omit [DecidableEq α] in
/-- What calling a container class on a plain value gives. -/
theorem classInit_plain_cases {c : Cls} {v : PyVal α} (hv : v.Plain) {md : Md α} (hn : DNodup md) :
    (classInit c v md = .error .typeError ∧
      (py! "value" ∈ dkeys md ∨ (c.isSub cStatic = true ∧ md ≠ []))) ∨
    (∃ m, classInit c v md = .ok (.cont c v m) ∧ py! "value" ∉ dkeys md ∧
      (c.isSub cStatic = true → md = []) ∧ WFContainer (.cont c v m) ∧ ∀ k, dget m k = declaredMd c md k) := by
  unfold classInit
  by_cases hval : dhas md (py! "value") = true
  · left
    rw [if_pos hval]
    exact ⟨rfl, Or.inl (dget_isSome.1 hval)⟩
  · have hval' : py! "value" ∉ dkeys md := fun h => hval (dget_isSome.2 h)
    rw [if_neg hval]
    by_cases hs : c.isSub cStatic = true
    · rw [if_pos hs]
      cases md with
      | nil =>
        right
        refine ⟨[], by simp [containerInit_plain hv], hval', fun _ => rfl,
          .mk hv (by simp [DNodup]) (by simp) (fun _ => rfl) (fun h => by simp [hs] at h), ?_⟩
        intro k; simp [declaredMd, dget, hs]
      | cons x xs => left; simp [hs]
    · rw [if_neg hs]
      have hs' : c.isSub cStatic = false := by simpa using hs
      by_cases hvar : c.isSub cVariable = true
      · right
        rw [if_pos hvar, containerInit_plain hv]
        have hnod : DNodup (dupdate [(py! "sharding", (PyVal.none : PyVal α))] md) :=
          dnodup_dupdate (by simp [DNodup]) md
        have hget : ∀ k, dget (dupdate [(py! "sharding", (PyVal.none : PyVal α))] md) k = declaredMd c md k := by
          intro k
          rw [dget_dupdate, lastOf_eq_dget hn, declaredMd]
          cases dget md k with
          | some w => simp
          | none =>
            simp only [Option.orElse_none, dget, hs', hvar]
            by_cases hk : py! "sharding" = k
            · simp [← hk]
            · have : ¬ k = py! "sharding" := fun e => hk e.symm
              simp [hk, this]
        refine ⟨_, rfl, hval', fun h => absurd h hs, .mk hv hnod ?_ (fun h => absurd h hs) ?_, hget⟩
        · rw [mem_dkeys_dupdate]; simpa using hval'
        · intro _ _
          -- sharding stays first
          have key : ∀ (e : Md α) (x : PyVal α) (rest : Md α),
              ∃ x' rest', dupdate ((py! "sharding", x) :: rest) e = (py! "sharding", x') :: rest' := by
            intro e
            induction e with
            | nil => intro x rest; exact ⟨x, rest, rfl⟩
            | cons kv e ih =>
              intro x rest
              simp only [dupdate, List.foldl_cons, dset] at ih ⊢
              split
              · exact ih _ _
              · exact ih _ _
          exact key md .none []
      · right
        rw [if_neg hvar, containerInit_plain hv]
        refine ⟨md, rfl, hval', fun h => absurd h hs,
          .mk hv hn hval' (fun h => absurd h hs) (fun _ h => absurd h hvar), ?_⟩
        intro k
        simp only [declaredMd, hvar]
        cases dget md k <;> simp

end Nnx
