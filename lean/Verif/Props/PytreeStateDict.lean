import Verif.Props.PytreeReplace
/-
C43: flax state dicts of Pytree objects.
-/
namespace Nnx
variable {α : Type}

theorem toStateDictVars_eq : ∀ vars : Md α, toStateDictVars vars =
    (vars.filter (fun kv => kv.2.isNode)).map (fun kv => (kv.1, toStateDict (unwrap kv.2)))
  | [] => rfl
  | (k, .cont c v m) :: rest => by
    rw [toStateDictVars, toStateDictVars_eq rest]
    cases h : (PyVal.cont c v m).isNode <;> simp [h, unwrap]
  | (k, .none) :: rest => by
    rw [toStateDictVars, toStateDictVars_eq rest]; cases h : (PyVal.none : PyVal α).isNode <;> simp [h, unwrap]
    simp
  | (k, .str s) :: rest => by
    rw [toStateDictVars, toStateDictVars_eq rest]; cases h : (PyVal.str s : PyVal α).isNode <;> simp [h, unwrap]
    simp
  | (k, .data c a) :: rest => by
    rw [toStateDictVars, toStateDictVars_eq rest]; cases h : (PyVal.data c a : PyVal α).isNode <;> simp [h, unwrap]
    simp
  | (k, .tup xs) :: rest => by
    rw [toStateDictVars, toStateDictVars_eq rest]; cases h : (PyVal.tup xs : PyVal α).isNode <;> simp [h, unwrap]
    simp
  | (k, .cmeta v m) :: rest => by
    rw [toStateDictVars, toStateDictVars_eq rest]; cases h : (PyVal.cmeta v m : PyVal α).isNode <;> simp [h, unwrap]
    simp
  | (k, .tree c m) :: rest => by
    rw [toStateDictVars, toStateDictVars_eq rest]; cases h : (PyVal.tree c m : PyVal α).isNode <;> simp [h, unwrap]
    simp
  | (k, .dict m) :: rest => by
    rw [toStateDictVars, toStateDictVars_eq rest]; cases h : (PyVal.dict m : PyVal α).isNode <;> simp [h, unwrap]
    simp

/-- **C43**, contents: the state dict of an object has exactly its node fields as keys, each with the state dict of the attribute. -/
theorem C43_to_state_dict {c : Cls} {vars : Md α} (hn : DNodup vars) :
    ∃ st, toStateDict (.tree c vars) = .dict st ∧
      ∀ k x, dget st k = some x ↔ ∃ v, dget vars k = some v ∧ v.isNode = true ∧ x = toStateDict (unwrap v) := by
  refine ⟨_, by rw [toStateDict, toStateDictVars_eq], fun k x => ?_⟩
  have e := dget_map_val (fun (_ : Str) (v : PyVal α) => toStateDict (unwrap v)) (vars.filter (fun kv => kv.2.isNode)) k
  rw [e, dget_filter hn (fun _ v => v.isNode)]
  cases dget vars k with
  | none => simp
  | some v =>
    cases h : v.isNode with
    | false => simp [h]
    | true =>
      simp only [Option.filter_some, h, if_true, Option.map_some, Option.some.injEq]
      exact ⟨fun e => ⟨v, rfl, h, e.symm⟩, fun ⟨v', e, _, e'⟩ => by rw [e', e]⟩

variable [DecidableEq α]

/-- What `from_state_dict` reads from the state of field value `v`. -/
def RestoredAs (v q : PyVal α) : Prop :=
  match v with
  | .cont _ w _ => q = w ∧ w.Leaf
  | v => PySame v q ∧ q.Plain

theorem restoreVars_round {env : PEnv α} : ∀ {vars : Md α}, DNodup vars →
    (∀ kv ∈ vars, kv.2.isNode = true → ∃ q, fromStateDict env kv.2 (toStateDict (unwrap kv.2)) = .ok q ∧ RestoredAs kv.2 q) →
    ∃ updates, restoreVars env vars (toStateDictVars vars) = .ok (updates, []) ∧
      dkeys updates = dkeys (vars.filter (fun kv => kv.2.isNode)) ∧
      ∀ kq ∈ updates, ∃ v, (kq.1, v) ∈ vars ∧ v.isNode = true ∧ RestoredAs v kq.2
  | [], _, _ => ⟨[], by rw [toStateDictVars_eq]; rfl, rfl, fun _ h => by simp at h⟩
  | (k, v) :: rest, hn, h => by
    simp only [DNodup, dkeys, List.map_cons, List.nodup_cons] at hn
    obtain ⟨updates, e, hk, hu⟩ := restoreVars_round (env := env) (vars := rest) hn.2 (fun kv hkv => h kv (List.mem_cons_of_mem _ hkv))
    rw [toStateDictVars_eq] at e ⊢
    cases hv : v.isNode with
    | false =>
      refine ⟨updates, ?_, ?_, fun kq hkq => ?_⟩
      · simp only [List.filter_cons, hv, restoreVars, Bool.false_eq_true, if_false]
        exact e
      · simp only [List.filter_cons, hv, Bool.false_eq_true, if_false]; exact hk
      · obtain ⟨v', hm, r⟩ := hu kq hkq
        exact ⟨v', List.mem_cons_of_mem _ hm, r⟩
    | true =>
      obtain ⟨q, hq, hr⟩ := h (k, v) (by simp) hv
      refine ⟨(k, q) :: updates, ?_, ?_, fun kq hkq => ?_⟩
      · simp only at hq
        simp only [List.filter_cons, hv, if_true, List.map_cons, restoreVars, dget, hq, ddel]
        rw [e]
      · simp only [List.filter_cons, hv, if_true]
        simp only [dkeys, List.map_cons] at hk ⊢
        rw [hk]
      · rcases List.mem_cons.1 hkq with rfl | hkq
        · exact ⟨v, by simp, hv, hr⟩
        · obtain ⟨v', hm, r⟩ := hu kq hkq
          exact ⟨v', List.mem_cons_of_mem _ hm, r⟩

omit [DecidableEq α] in
theorem RestoredAs.plain {v q : PyVal α} (h : RestoredAs v q) : q.Plain := by
  cases v with
  | cont c w m =>
    obtain ⟨rfl, hl⟩ := h
    cases q <;> simp_all [PyVal.Leaf, PyVal.Plain]
  | _ => exact h.2

omit [DecidableEq α] in
theorem RestoredAs.stored {v q x : PyVal α} (h : RestoredAs v q) (hs : Stored (some v) q x) : PySame v x := by
  cases hs with
  | new hn =>
    cases v with
    | cont c w m => exact absurd rfl (hn c w m)
    | _ => exact h.1
  | keep hp => obtain ⟨rfl, _⟩ := h; exact .refl _
  | unwrap hm =>
    have := h.plain
    exact absurd this (by simp [PyVal.Plain])

omit [DecidableEq α] in
theorem notNode_tup (xs : List (PyVal α)) : (PyVal.tup xs).isNode = false := rfl

/-- `replace` with the restored values. -/
theorem replaceVal_same {env : PEnv α} {c : Cls} {vars updates : Md α} (wf : WFPytree vars)
    (decl : ∀ fs fr, (env c).dataclass = some (fs, fr) → Declared fs vars)
    (hk : dkeys updates = dkeys (vars.filter (fun kv => kv.2.isNode)))
    (hu : ∀ kq ∈ updates, ∃ v, (kq.1, v) ∈ vars ∧ v.isNode = true ∧ RestoredAs v kq.2) :
    ∃ vars', replaceVal env c vars updates = .ok (.tree c vars') ∧ PySame (.tree c vars) (.tree c vars') := by
  have hn := wf.nodup
  have hnu : DNodup updates := by
    unfold DNodup; rw [hk]; exact dnodup_filter hn _
  have hget : ∀ k q, dget updates k = some q → ∃ v, dget vars k = some v ∧ v.isNode = true ∧ RestoredAs v q := by
    intro k q hq
    obtain ⟨v, hm, r⟩ := hu (k, q) (dget_mem hq)
    exact ⟨v, mem_dget hn hm, r⟩
  have hin : ∀ k ∈ dkeys updates, k ∈ dkeys vars ∧ k ≠ kSorted := by
    intro k hk'
    obtain ⟨q, hq⟩ := Option.isSome_iff_exists.1 (dget_isSome.2 hk')
    obtain ⟨v, hv, hv2, _⟩ := hget k q hq
    refine ⟨dget_isSome.1 (by rw [hv]; rfl), ?_⟩
    rintro rfl
    rw [wf.sorted] at hv
    cases hv
    rw [notNode_tup] at hv2; cases hv2
  have hplain : ∀ k q, dget updates k = some q → q.Plain := fun k q hq => by
    obtain ⟨_, _, _, r⟩ := hget k q hq; exact r.plain
  have hl : ([(c, vars)] : PHeap α)[0]? = some (c, vars) := rfl
  have main : ∃ vars', hReplace env 0 updates [(c, vars)] = ([(c, vars)] ++ [(c, vars')], .ok 1) ∧
      ∀ k, ReplacedAt vars updates vars' k := by
    cases hd : (env c).dataclass with
    | none =>
      rcases C42_replace (env := env) hl wf hd hnu (fun k v hv => Or.inl (hplain k v hv)) hin with ⟨vars', e, _, r⟩ | ⟨_, k, v, _, hv, href⟩
      · exact ⟨vars', e, r⟩
      · obtain ⟨_, _, _, d, u, n, _, rfl, _⟩ := href
        exact absurd (hplain k _ hv) (by simp [PyVal.Plain])
    | some fsr =>
      obtain ⟨fs, fr⟩ := fsr
      have hdecl := decl fs fr hd
      obtain ⟨vars', e, _, _, r⟩ := C42_dataclass (env := env) (kw := updates) hl wf hd hdecl hplain (fun k hk' => by
        obtain ⟨h1, h2⟩ := hin k hk'
        rcases (hdecl.dom k).1 h1 with h | h
        · exact absurd h h2
        · exact h)
      exact ⟨vars', e, r⟩
  obtain ⟨vars', e, r⟩ := main
  refine ⟨vars', by rw [replaceVal, e]; rfl, .tree (fun k => ?_) (fun k v w hv hw => ?_)⟩
  · have := r k
    unfold ReplacedAt at this
    cases hq : dget updates k with
    | none => rw [hq] at this; simp only at this; rw [this]
    | some q =>
      rw [hq] at this
      obtain ⟨x, _, hx⟩ := this
      obtain ⟨v, hv, _⟩ := hget k q hq
      simp [hv, hx]
  · have := r k
    unfold ReplacedAt at this
    cases hq : dget updates k with
    | none =>
      rw [hq] at this
      simp only at this
      rw [this, hv] at hw
      cases hw
      exact .refl _
    | some q =>
      rw [hq] at this
      obtain ⟨x, hs, hx⟩ := this
      obtain ⟨v', hv', _, hr⟩ := hget k q hq
      rw [hv] at hv' hs
      cases hv'
      rw [hw] at hx
      cases hx
      exact hr.stored hs

omit [DecidableEq α] in
theorem toStateDict_leaf {v : PyVal α} (h : v.Leaf) : toStateDict v = v ∧ unwrap v = v := by
  cases v <;> simp_all [PyVal.Leaf, toStateDict, unwrap]

theorem restored_of_restorable {env : PEnv α} {v : PyVal α} (h : Restorable env v) :
    ∃ q, fromStateDict env v (toStateDict (unwrap v)) = .ok q ∧ RestoredAs v q := by
  induction h with
  | @leaf v h =>
    obtain ⟨h1, h2⟩ := toStateDict_leaf h
    rw [h2, h1]
    refine ⟨v, ?_, ?_⟩
    · cases v <;> simp_all [PyVal.Leaf, fromStateDict]
    · cases v <;> simp_all [PyVal.Leaf, RestoredAs, PyVal.Plain] <;> exact .refl _
  | @box c v m h wf =>
    refine ⟨v, ?_, rfl, h⟩
    rw [unwrap, (toStateDict_leaf h).1, fromStateDict]
    all_goals simp
  | @tree c vars wf decl fields ih =>
    obtain ⟨updates, e, hk, hu⟩ := restoreVars_round (env := env) wf.nodup (fun kv hkv hnode => ih kv.1 kv.2 (mem_dget wf.nodup hkv) hnode)
    obtain ⟨vars', e', hs⟩ := replaceVal_same (env := env) (c := c) wf decl hk hu
    refine ⟨.tree c vars', ?_, hs, trivial⟩
    rw [unwrap, toStateDict, fromStateDict, e]
    · exact e'
    all_goals simp

/-- **C43**, round trip (part): for objects whose node fields are arrays, containers of values without parts, or such objects, nested to
any depth, restoring the object's own state dict gives an object of the same class with the same fields. Missing: node fields that are
*containers* of Pytrees, dicts or tuples, for which the property is false (`C43_boxed_pytree_lost`). -/
theorem C43_round_trip_partial {env : PEnv α} {c : Cls} {vars : Md α} (h : Restorable env (.tree c vars)) :
    ∃ q, fromStateDict env (.tree c vars) (toStateDict (.tree c vars)) = .ok q ∧ PySame (.tree c vars) q := by
  obtain ⟨q, h1, h2⟩ := restored_of_restorable h
  exact ⟨q, h1, h2.1⟩

/-- **C43 fails as stated** for a Pytree inside a `Node`: the restored field is a `Node` of a dict. -/
theorem C43_boxed_pytree_lost :
    let env : PEnv Nat := fun _ => { mutable := false, dataclass := none }
    let inner : PyVal Nat := .tree cPytree [(kSorted, .tup [.str kSorted, .str (py! "b")]), (py! "b", .cont cNode (.data cArray 2) [])]
    let p : PyVal Nat := .tree cPytree [(kSorted, .tup [.str kSorted, .str (py! "bar")]), (py! "bar", .cont cNode inner [])]
    fromStateDict env p (toStateDict p) = .ok (.tree cPytree [(kSorted, .tup [.str kSorted, .str (py! "bar")]),
      (py! "bar", .cont cNode (.dict [(py! "b", .data cArray 2)]) [])]) := by rfl

/-! ### Restoring other state dicts -/

theorem restoreVars_spec {env : PEnv α} : ∀ {vars st updates rest : Md α}, DNodup vars → DNodup st →
    restoreVars env vars st = .ok (updates, rest) →
    dkeys updates = dkeys (vars.filter (fun kv => kv.2.isNode)) ∧ DNodup rest ∧
    (∀ k ∈ dkeys updates, k ∈ dkeys st) ∧
    (∀ k, dget rest k = if k ∈ dkeys updates then none else dget st k)
  | [], st, updates, rest, _, hs, h => by
    cases h
    exact ⟨rfl, hs, fun _ h => by simp [dkeys] at h, fun k => by simp [dkeys]⟩
  | (name, v) :: vars, st, updates, rest, hn, hs, h => by
    simp only [DNodup, dkeys, List.map_cons, List.nodup_cons] at hn
    rw [restoreVars] at h
    cases hv : v.isNode with
    | false =>
      rw [hv] at h
      obtain ⟨h1, h2, h3, h4⟩ := restoreVars_spec (env := env) hn.2 hs h
      refine ⟨by simp only [List.filter_cons, hv, Bool.false_eq_true, if_false]; exact h1, h2, h3, h4⟩
    | true =>
      rw [hv] at h
      simp only [if_true] at h
      cases hd : dget st name with
      | none => rw [hd] at h; cases h
      | some vs =>
        rw [hd] at h
        simp only at h
        cases hf : fromStateDict env v vs with
        | error e => rw [hf] at h; cases h
        | ok x =>
          rw [hf] at h
          simp only at h
          cases hr : restoreVars env vars (ddel st name) with
          | error e => rw [hr] at h; cases h
          | ok ur =>
            obtain ⟨u, r⟩ := ur
            rw [hr] at h
            cases h
            obtain ⟨h1, h2, h3, h4⟩ := restoreVars_spec (env := env) hn.2 (dnodup_ddel hs name) hr
            refine ⟨?_, h2, ?_, ?_⟩
            · simp only [List.filter_cons, hv, if_true]
              simp only [dkeys, List.map_cons] at h1 ⊢
              rw [h1]
            · intro k hk
              simp only [dkeys, List.map_cons, List.mem_cons] at hk
              rcases hk with rfl | hk
              · exact dget_isSome.1 (by rw [hd]; rfl)
              · exact ((mem_dkeys_ddel hs name k).1 (h3 k hk)).2
            · intro k
              rw [h4 k, dget_ddel hs]
              simp only [dkeys, List.map_cons, List.mem_cons]
              by_cases e : k = name
              · subst e; simp
              · have e' : ¬ name = k := fun h => e h.symm
                simp only [e, e', false_or, if_false]

/-- **C43**, keys: if restoring a state dict succeeds, for an object with any nested parts, its keys are exactly the node fields. -/
theorem C43_keys_match {env : PEnv α} {c : Cls} {vars st : Md α} {q : PyVal α} (hn : DNodup vars) (hs : DNodup st)
    (h : fromStateDict env (.tree c vars) (.dict st) = .ok q) :
    ∀ k, k ∈ dkeys st ↔ ∃ v, dget vars k = some v ∧ v.isNode = true := by
  rw [fromStateDict] at h
  cases hr : restoreVars env vars st with
  | error e => rw [hr] at h; cases h
  | ok ur =>
    obtain ⟨u, r⟩ := ur
    rw [hr] at h
    cases r with
    | cons a b => cases h
    | nil =>
      obtain ⟨h1, _, h3, h4⟩ := restoreVars_spec (env := env) hn hs hr
      have hnode : ∀ k, k ∈ dkeys u ↔ ∃ v, dget vars k = some v ∧ v.isNode = true := by
        intro k
        rw [h1, ← dget_isSome, dget_filter hn (fun _ v => v.isNode)]
        cases dget vars k with
        | none => simp
        | some v => cases hv : v.isNode <;> simp [hv]
      intro k
      rw [← hnode k]
      constructor
      · intro hk
        have := h4 k
        by_cases hu : k ∈ dkeys u
        · exact hu
        · rw [if_neg hu] at this
          obtain ⟨x, hx⟩ := Option.isSome_iff_exists.1 (dget_isSome.2 hk)
          rw [hx] at this
          simp [dget] at this
      · exact h3 k

/-- An object whose node fields have no parts: arrays, or containers of anything. -/
def FlatFields (vars : Md α) : Prop :=
  ∀ k v, dget vars k = some v → v.isNode = true → v.Leaf ∨ ∃ c w m, v = .cont c w m

theorem fromStateDict_flat {env : PEnv α} {v st : PyVal α} (h : v.Leaf ∨ ∃ c w m, v = .cont c w m) : fromStateDict env v st = .ok st := by
  rcases h with h | ⟨c, w, m, rfl⟩
  · cases v <;> simp_all [PyVal.Leaf, fromStateDict]
  · simp [fromStateDict]

/-- The loop for such objects. -/
theorem restoreVars_flat {env : PEnv α} : ∀ {vars st : Md α}, DNodup vars → DNodup st →
    (∀ kv ∈ vars, kv.2.isNode = true → kv.2.Leaf ∨ ∃ c w m, kv.2 = .cont c w m) →
    ((∀ kv ∈ vars, kv.2.isNode = true → kv.1 ∈ dkeys st) →
      ∃ updates rest, restoreVars env vars st = .ok (updates, rest) ∧ ∀ k ∈ dkeys updates, dget updates k = dget st k) ∧
    ((∃ kv ∈ vars, kv.2.isNode = true ∧ kv.1 ∉ dkeys st) → restoreVars env vars st = .error .valueError)
  | [], st, _, _, _ => ⟨fun _ => ⟨[], st, rfl, fun _ h => by simp [dkeys] at h⟩, fun ⟨_, h, _⟩ => by simp at h⟩
  | (name, v) :: vars, st, hn, hs, hf => by
    simp only [DNodup, dkeys, List.map_cons, List.nodup_cons] at hn
    have hf' := fun kv (hkv : kv ∈ vars) => hf kv (List.mem_cons_of_mem _ hkv)
    have hne : ∀ kv ∈ vars, kv.1 ≠ name := fun kv hkv e => hn.1 (List.mem_map.2 ⟨kv, hkv, e⟩)
    rw [restoreVars]
    cases hv : v.isNode with
    | false =>
      obtain ⟨h1, h2⟩ := restoreVars_flat (env := env) hn.2 hs hf'
      simp only [Bool.false_eq_true, if_false]
      refine ⟨fun hall => h1 (fun kv hkv => hall kv (List.mem_cons_of_mem _ hkv)), ?_⟩
      rintro ⟨kv, hkv, hnode, hk⟩
      rcases List.mem_cons.1 hkv with rfl | hkv
      · rw [hv] at hnode; cases hnode
      · exact h2 ⟨kv, hkv, hnode, hk⟩
    | true =>
      simp only [if_true]
      cases hd : dget st name with
      | none =>
        refine ⟨fun hall => ?_, fun _ => rfl⟩
        exact absurd (hall (name, v) (by simp) hv) (dget_eq_none.1 hd)
      | some vs =>
        have hfl := fromStateDict_flat (env := env) (st := vs) (hf (name, v) (by simp) hv)
        simp only at hfl
        simp only [hfl]
        have hmem : ∀ kv ∈ vars, (kv.1 ∈ dkeys (ddel st name) ↔ kv.1 ∈ dkeys st) := by
          intro kv hkv
          rw [mem_dkeys_ddel hs]
          exact ⟨fun h => h.2, fun h => ⟨hne kv hkv, h⟩⟩
        obtain ⟨h1, h2⟩ := restoreVars_flat (env := env) hn.2 (dnodup_ddel hs name) hf'
        constructor
        · intro hall
          obtain ⟨u, r, e, hu⟩ := h1 (fun kv hkv hnode => (hmem kv hkv).2 (hall kv (List.mem_cons_of_mem _ hkv) hnode))
          refine ⟨(name, vs) :: u, r, by rw [e], fun k hk => ?_⟩
          rw [dget]
          by_cases e' : name = k
          · simp only [e', if_true]; rw [← e', hd]
          · simp only [e', if_false]
            simp only [dkeys, List.map_cons, List.mem_cons] at hk
            rcases hk with rfl | hk
            · exact absurd rfl e'
            · rw [hu k hk, dget_ddel hs, if_neg e']
        · rintro ⟨kv, hkv, hnode, hk⟩
          rcases List.mem_cons.1 hkv with rfl | hkv'
          · exact absurd (dget_isSome.1 (by rw [hd]; rfl)) hk
          · rw [h2 ⟨kv, hkv', hnode, fun hq => hk ((hmem kv hkv').1 hq)⟩]

/-- **C43**, errors: for an object whose node fields have no parts, a missing node field or an extra key is a ValueError. -/
theorem C43_missing_or_extra {env : PEnv α} {c : Cls} {vars st : Md α} (hn : DNodup vars) (hs : DNodup st) (hf : FlatFields vars)
    (hbad : (∃ k v, dget vars k = some v ∧ v.isNode = true ∧ k ∉ dkeys st) ∨
      (∃ k ∈ dkeys st, ∀ v, dget vars k = some v → v.isNode = false)) :
    fromStateDict env (.tree c vars) (.dict st) = .error .valueError := by
  obtain ⟨h1, h2⟩ := restoreVars_flat (env := env) hn hs (fun kv hkv => hf kv.1 kv.2 (mem_dget hn hkv))
  rw [fromStateDict]
  by_cases hm : ∃ kv ∈ vars, kv.2.isNode = true ∧ kv.1 ∉ dkeys st
  · rw [h2 hm]
  · have hall : ∀ kv ∈ vars, kv.2.isNode = true → kv.1 ∈ dkeys st := by
      intro kv hkv hnode
      apply Classical.byContradiction
      intro hk
      exact hm ⟨kv, hkv, hnode, hk⟩
    obtain ⟨u, r, e, hu⟩ := h1 hall
    rw [e]
    obtain ⟨e1, _, _, e4⟩ := restoreVars_spec (env := env) hn hs e
    rcases hbad with ⟨k, v, hv, hnode, hk⟩ | ⟨k, hk, hnot⟩
    · exact absurd (hall (k, v) (dget_mem hv) hnode) hk
    · have hku : k ∉ dkeys u := by
        rw [e1, ← dget_isSome, dget_filter hn (fun _ v => v.isNode)]
        cases hv : dget vars k with
        | none => simp
        | some v => simp [hnot v hv]
      have := e4 k
      rw [if_neg hku] at this
      obtain ⟨x, hx⟩ := Option.isSome_iff_exists.1 (dget_isSome.2 hk)
      rw [hx] at this
      cases r with
      | nil => simp [dget] at this
      | cons a b => rfl

/-- **C43**, restoring changes node fields only: for an object whose node fields have no parts and a state dict with exactly the node fields
as keys and no containers as values, the result is an object of the same class in which each node field took the value from the state dict (in its
container, if it has one) and the other fields are as they were. -/
theorem C43_restore {env : PEnv α} {c : Cls} {vars st : Md α} (wf : WFPytree vars) (hs : DNodup st) (hf : FlatFields vars)
    (decl : ∀ fs fr, (env c).dataclass = some (fs, fr) → Declared fs vars)
    (hkeys : ∀ k, k ∈ dkeys st ↔ ∃ v, dget vars k = some v ∧ v.isNode = true) (hplain : ∀ k x, dget st k = some x → x.Plain) :
    ∃ vars', fromStateDict env (.tree c vars) (.dict st) = .ok (.tree c vars') ∧ ∀ k, ReplacedAt vars st vars' k := by
  have hn := wf.nodup
  obtain ⟨h1, _⟩ := restoreVars_flat (env := env) hn hs (fun kv hkv => hf kv.1 kv.2 (mem_dget hn hkv))
  obtain ⟨u, r, e, hu⟩ := h1 (fun kv hkv hnode => (hkeys kv.1).2 ⟨kv.2, mem_dget hn hkv, hnode⟩)
  obtain ⟨e1, e2, e3, e4⟩ := restoreVars_spec (env := env) hn hs e
  have hnode : ∀ k, k ∈ dkeys u ↔ k ∈ dkeys st := by
    intro k
    rw [hkeys, e1, ← dget_isSome, dget_filter hn (fun _ v => v.isNode)]
    cases dget vars k with
    | none => simp
    | some v => cases hv : v.isNode <;> simp [hv]
  have hget : ∀ k, dget u k = dget st k := by
    intro k
    by_cases hk : k ∈ dkeys u
    · exact hu k hk
    · rw [dget_eq_none.2 hk, dget_eq_none.2 (fun h => hk ((hnode k).2 h))]
  have hr : r = [] := by
    cases r with
    | nil => rfl
    | cons a b =>
      have := e4 a.1
      rw [dget] at this
      simp only [if_true] at this
      split at this
      · cases this
      · rename_i hk
        rw [dget_eq_none.2 (fun h => hk ((hnode _).2 h))] at this
        cases this
  subst hr
  have hnu : DNodup u := by unfold DNodup; rw [e1]; exact dnodup_filter hn _
  have hin : ∀ k ∈ dkeys u, k ∈ dkeys vars ∧ k ≠ kSorted := by
    intro k hk
    obtain ⟨v, hv, hv2⟩ := (hkeys k).1 ((hnode k).1 hk)
    refine ⟨dget_isSome.1 (by rw [hv]; rfl), ?_⟩
    rintro rfl
    rw [wf.sorted] at hv
    cases hv
    rw [notNode_tup] at hv2; cases hv2
  have hl : ([(c, vars)] : PHeap α)[0]? = some (c, vars) := rfl
  have main : ∃ vars', hReplace env 0 u [(c, vars)] = ([(c, vars)] ++ [(c, vars')], .ok 1) ∧ ∀ k, ReplacedAt vars u vars' k := by
    cases hd : (env c).dataclass with
    | none =>
      rcases C42_replace (env := env) hl wf hd hnu (fun k v hv => Or.inl (hplain k v (by rw [← hget]; exact hv))) hin with
        ⟨vars', e, _, r⟩ | ⟨_, k, v, _, hv, href⟩
      · exact ⟨vars', e, r⟩
      · obtain ⟨_, _, _, d, u', n, _, rfl, _⟩ := href
        exact absurd (hplain k _ (by rw [← hget]; exact hv)) (by simp [PyVal.Plain])
    | some fsr =>
      obtain ⟨fs, fr⟩ := fsr
      have hdecl := decl fs fr hd
      obtain ⟨vars', e, _, _, r⟩ := C42_dataclass (env := env) (kw := u) hl wf hd hdecl (fun k v hv => hplain k v (by rw [← hget]; exact hv))
        (fun k hk' => by
          obtain ⟨h1, h2⟩ := hin k hk'
          rcases (hdecl.dom k).1 h1 with h | h
          · exact absurd h h2
          · exact h)
      exact ⟨vars', e, r⟩
  obtain ⟨vars', em, hrep⟩ := main
  refine ⟨vars', by rw [fromStateDict, e]; simp only [replaceVal, em]; rfl, fun k => ?_⟩
  have := hrep k
  unfold ReplacedAt at this ⊢
  rw [hget] at this
  exact this

/-- The nested object of tests/test_pytree.py: `Foo(bar=Bar(a=1, b=Node 2), c=Node 3, d=4)`. -/
def exBar : Md Nat :=
  [(kSorted, .tup [.str kSorted, .str (py! "a"), .str (py! "b")]), (py! "a", .data cNoneType 1), (py! "b", .cont cNode (.data cArray 2) [])]
def exFoo : Md Nat :=
  [(kSorted, .tup [.str kSorted, .str (py! "bar"), .str (py! "c"), .str (py! "d")]), (py! "bar", .tree cPytree exBar),
   (py! "c", .cont cNode (.data cArray 3) []), (py! "d", .data cNoneType 4)]

example : toStateDict (.tree cPytree exFoo) = .dict [(py! "bar", .dict [(py! "b", .data cArray 2)]), (py! "c", .data cArray 3)] := by rfl

/-- `exFoo` meets the hypothesis of `C43_round_trip_partial`. -/
example : Restorable (fun _ => { mutable := false, dataclass := none }) (.tree cPytree exFoo) := by
  have wfNode : ∀ n : Nat, WFContainer (.cont cNode (.data cArray n) [] : PyVal Nat) := fun n =>
    .mk trivial (by simp [DNodup]) (by simp) (fun _ => rfl) (fun _ h => absurd h (by decide))
  have wfBar : WFPytree exBar := by
    refine { nodup := by unfold DNodup; decide, noInit := by decide, noMut := by decide, sorted := by decide, good := ?_ }
    intro k v hk
    have := dget_mem hk
    simp only [exBar, List.mem_cons, List.not_mem_nil, or_false, Prod.mk.injEq] at this
    rcases this with ⟨_, rfl⟩ | ⟨_, rfl⟩ | ⟨_, rfl⟩
    · exact Or.inl trivial
    · exact Or.inl trivial
    · exact Or.inr (wfNode 2)
  refine .tree ?_ (fun fs fr h => by cases h) ?_
  · refine { nodup := by unfold DNodup; decide, noInit := by decide, noMut := by decide, sorted := by decide, good := ?_ }
    intro k v hk
    have := dget_mem hk
    simp only [exFoo, List.mem_cons, List.not_mem_nil, or_false, Prod.mk.injEq] at this
    rcases this with ⟨_, rfl⟩ | ⟨_, rfl⟩ | ⟨_, rfl⟩ | ⟨_, rfl⟩
    · exact Or.inl trivial
    · exact Or.inl trivial
    · exact Or.inr (wfNode 3)
    · exact Or.inl trivial
  · intro k v hk hn
    have := dget_mem hk
    simp only [exFoo, List.mem_cons, List.not_mem_nil, or_false, Prod.mk.injEq] at this
    rcases this with ⟨_, rfl⟩ | ⟨_, rfl⟩ | ⟨_, rfl⟩ | ⟨_, rfl⟩
    · cases hn
    · refine .tree wfBar (fun fs fr h => by cases h) ?_
      intro k v hk hn
      have := dget_mem hk
      simp only [exBar, List.mem_cons, List.not_mem_nil, or_false, Prod.mk.injEq] at this
      rcases this with ⟨_, rfl⟩ | ⟨_, rfl⟩ | ⟨_, rfl⟩
      · cases hn
      · exact .leaf trivial
      · exact .box trivial (wfNode 2)
    · exact .box trivial (wfNode 3)
    · exact .leaf trivial

end Nnx
