import Verif.Props.PytreeStateDict
import Verif.Spec.PytreeState
/-
C43 for state dicts of nested objects.
-/
namespace Nnx
variable {α : Type} [DecidableEq α]

/-- What `from_state_dict` returns for the state `s` of field value `v`. -/
def ReadAs (env : PEnv α) (v s q : PyVal α) : Prop :=
  match v with
  | .tree c vars => RestoredTo (.tree c vars) s q ∧ q.Plain ∧ (SavedArrays (.tree c vars) s → Built env q)
  | _ => q = s ∧ s.Plain

theorem ReadAs.plain {env : PEnv α} {v s q : PyVal α} (h : ReadAs env v s q) : q.Plain := by
  cases v with
  | tree c vars => exact h.2.1
  | _ => obtain ⟨rfl, h⟩ := h; exact h

theorem ReadAs.stored {env : PEnv α} {v s q x : PyVal α} (hf : v.Leaf ∨ (∃ c w m, v = .cont c w m) ∨ ∃ c vars, v = .tree c vars) (h : ReadAs env v s q)
    (hs : Stored (some v) q x) : RestoredTo v s x := by
  cases hs with
  | new hn =>
    rcases hf with hl | ⟨c, w, m, rfl⟩ | ⟨c, vars, rfl⟩
    · have : q = s := by
        cases v with
        | tree => cases hl
        | _ => exact h.1
      subst this; exact .leaf hl
    · exact absurd rfl (hn c w m)
    · exact h.1
  | keep hp => obtain ⟨rfl, _⟩ := h; exact .box
  | unwrap hm => exact absurd h.plain (by simp [PyVal.Plain])

theorem Built.shape {env : PEnv α} {v : PyVal α} (h : Built env v) : v.Leaf ∨ (∃ c w m, v = .cont c w m) ∨ ∃ c vars, v = .tree c vars := by
  cases h with
  | part h => rcases h with h | h
              · exact .inl h
              · exact .inr (.inl h)
  | tree => exact .inr (.inr ⟨_, _, rfl⟩)

theorem ReadAs.built {env : PEnv α} {v s q x : PyVal α} (hf : v.Leaf ∨ (∃ c w m, v = .cont c w m) ∨ ∃ c vars, v = .tree c vars)
    (h : ReadAs env v s q) (hs : Stored (some v) q x) (ha : SavedArrays v s) : Built env x := by
  cases hs with
  | new hn =>
    rcases hf with hl | ⟨c, w, m, rfl⟩ | ⟨c, vars, rfl⟩
    · have : q = s := by
        cases v with
        | tree => cases hl
        | _ => exact h.1
      subst this
      cases ha with
      | leaf _ h => exact .part (.inl h)
      | box => cases hl
      | tree => cases hl
    · exact absurd rfl (hn c w m)
    · exact h.2.2 ha
  | keep hp => exact .part (.inr ⟨_, _, _, rfl⟩)
  | unwrap hm => exact .part (.inr ⟨_, _, _, rfl⟩)

/-- The loop over the fields, when each field is either restored or refused. -/
theorem restoreVars_nested {env : PEnv α} : ∀ {vars st : Md α}, DNodup vars → DNodup st →
    (∀ kv ∈ vars, kv.2.isNode = true → ∀ s, dget st kv.1 = some s →
      (KeysFit kv.2 s ∧ ∃ q, fromStateDict env kv.2 s = .ok q ∧ ReadAs env kv.2 s q) ∨
      (¬ KeysFit kv.2 s ∧ fromStateDict env kv.2 s = .error .valueError)) →
    ((∀ kv ∈ vars, kv.2.isNode = true → ∃ s, dget st kv.1 = some s ∧ KeysFit kv.2 s) ∧
      ∃ u r, restoreVars env vars st = .ok (u, r) ∧
        ∀ kq ∈ u, ∃ v s, (kq.1, v) ∈ vars ∧ v.isNode = true ∧ dget st kq.1 = some s ∧ ReadAs env v s kq.2) ∨
    (¬ (∀ kv ∈ vars, kv.2.isNode = true → ∃ s, dget st kv.1 = some s ∧ KeysFit kv.2 s) ∧
      restoreVars env vars st = .error .valueError)
  | [], st, _, _, _ => .inl ⟨fun _ h => by simp at h, [], st, rfl, fun _ h => by simp at h⟩
  | (name, v) :: vars, st, hn, hs, hf => by
    simp only [DNodup, dkeys, List.map_cons, List.nodup_cons] at hn
    have hne : ∀ kv ∈ vars, name ≠ kv.1 := fun kv hkv e => hn.1 (List.mem_map.2 ⟨kv, hkv, e.symm⟩)
    rw [restoreVars]
    cases hv : v.isNode with
    | false =>
      simp only [Bool.false_eq_true, if_false]
      rcases restoreVars_nested (env := env) hn.2 hs (fun kv hkv => hf kv (List.mem_cons_of_mem _ hkv)) with ⟨h1, u, r, e, hu⟩ | ⟨h1, e⟩
      · refine .inl ⟨fun kv hkv hnode => ?_, u, r, e, fun kq hkq => ?_⟩
        · rcases List.mem_cons.1 hkv with rfl | hkv
          · rw [hv] at hnode; cases hnode
          · exact h1 kv hkv hnode
        · obtain ⟨v', s, hm, k⟩ := hu kq hkq
          exact ⟨v', s, List.mem_cons_of_mem _ hm, k⟩
      · exact .inr ⟨fun hall => h1 (fun kv hkv => hall kv (List.mem_cons_of_mem _ hkv)), e⟩
    | true =>
      simp only [if_true]
      cases hd : dget st name with
      | none =>
        refine .inr ⟨fun hall => ?_, rfl⟩
        obtain ⟨s, h, _⟩ := hall (name, v) (by simp) hv
        simp only at h
        rw [hd] at h; cases h
      | some s =>
        have hdel : ∀ kv ∈ vars, dget (ddel st name) kv.1 = dget st kv.1 := fun kv hkv => by
          rw [dget_ddel hs, if_neg (hne kv hkv)]
        rcases hf (name, v) (by simp) hv s hd with ⟨hfit, q, hq, hr⟩ | ⟨hfit, hq⟩
        · simp only at hq hfit hr
          simp only [hq]
          rcases restoreVars_nested (env := env) hn.2 (dnodup_ddel hs name)
            (fun kv hkv hnode s' hs' => hf kv (List.mem_cons_of_mem _ hkv) hnode s' (by rw [← hdel kv hkv]; exact hs')) with ⟨h1, u, r, e, hu⟩ | ⟨h1, e⟩
          · refine .inl ⟨fun kv hkv hnode => ?_, (name, q) :: u, r, by rw [e], fun kq hkq => ?_⟩
            · rcases List.mem_cons.1 hkv with rfl | hkv
              · exact ⟨s, hd, hfit⟩
              · rw [← hdel kv hkv]; exact h1 kv hkv hnode
            · rcases List.mem_cons.1 hkq with rfl | hkq
              · exact ⟨v, s, by simp, hv, hd, hr⟩
              · obtain ⟨v', s', hm, hnode, hs', k⟩ := hu kq hkq
                exact ⟨v', s', List.mem_cons_of_mem _ hm, hnode, by rw [← hdel _ hm]; exact hs', k⟩
          · refine .inr ⟨fun hall => h1 (fun kv hkv hnode => ?_), by rw [e]⟩
            rw [hdel kv hkv]
            exact hall kv (List.mem_cons_of_mem _ hkv) hnode
        · simp only at hq hfit
          simp only [hq]
          refine .inr ⟨fun hall => ?_, by trivial⟩
          obtain ⟨s', h, hfit'⟩ := hall (name, v) (by simp) hv
          simp only at h hfit'
          rw [hd] at h; cases h
          exact hfit hfit'

/-- `replace` with plain values for some of the node fields. -/
theorem replaceVal_plain {env : PEnv α} {c : Cls} {vars u : Md α} (wf : WFPytree vars)
    (decl : ∀ fs fr, (env c).dataclass = some (fs, fr) → Declared fs vars) (hnu : DNodup u)
    (hin : ∀ k ∈ dkeys u, ∃ v, dget vars k = some v ∧ v.isNode = true) (hplain : ∀ k x, dget u k = some x → x.Plain) :
    ∃ vars', replaceVal env c vars u = .ok (.tree c vars') ∧ WFPytree vars' ∧
      (∀ fs fr, (env c).dataclass = some (fs, fr) → Declared fs vars') ∧ ∀ k, ReplacedAt vars u vars' k := by
  have hin : ∀ k ∈ dkeys u, k ∈ dkeys vars ∧ k ≠ kSorted := by
    intro k hk
    obtain ⟨v, hv, hv2⟩ := hin k hk
    refine ⟨dget_isSome.1 (by rw [hv]; rfl), ?_⟩
    rintro rfl
    rw [wf.sorted] at hv
    cases hv
    rw [notNode_tup] at hv2; cases hv2
  have hl : ([(c, vars)] : PHeap α)[0]? = some (c, vars) := rfl
  have main : ∃ vars', hReplace env 0 u [(c, vars)] = ([(c, vars)] ++ [(c, vars')], .ok 1) ∧ WFPytree vars' ∧
      (∀ fs fr, (env c).dataclass = some (fs, fr) → Declared fs vars') ∧ ∀ k, ReplacedAt vars u vars' k := by
    cases hd : (env c).dataclass with
    | none =>
      rcases C42_replace (env := env) hl wf hd hnu (fun k v hv => Or.inl (hplain k v hv)) hin with ⟨vars', e, w, r⟩ | ⟨_, k, v, _, hv, href⟩
      · exact ⟨vars', e, w, fun fs fr h => by simp at h, r⟩
      · obtain ⟨_, _, _, d, u', n, _, rfl, _⟩ := href
        exact absurd (hplain k _ hv) (by simp [PyVal.Plain])
    | some fsr =>
      obtain ⟨fs, fr⟩ := fsr
      have hdecl := decl fs fr hd
      obtain ⟨vars', e, w, d, r⟩ := C42_dataclass (env := env) (kw := u) hl wf hd hdecl hplain (fun k hk' => by
        obtain ⟨h1, h2⟩ := hin k hk'
        rcases (hdecl.dom k).1 h1 with h | h
        · exact absurd h h2
        · exact h)
      exact ⟨vars', e, w, fun fs' fr' h => by cases h; exact d, r⟩
  obtain ⟨vars', em, hrep⟩ := main
  exact ⟨vars', by simp only [replaceVal, em]; rfl, hrep⟩

theorem restore_or_refuse {env : PEnv α} {v : PyVal α} (h : Built env v) : ∀ {s : PyVal α}, StateFor v s →
    (KeysFit v s ∧ ∃ q, fromStateDict env v s = .ok q ∧ ReadAs env v s q) ∨ (¬ KeysFit v s ∧ fromStateDict env v s = .error .valueError) := by
  induction h with
  | @part v h =>
    intro s hs
    refine .inl ⟨.part h, s, fromStateDict_flat h, ?_⟩
    cases hs with
    | part _ hp =>
      rcases h with h | ⟨c, w, m, rfl⟩
      · cases v with
        | tree => cases h
        | _ => exact ⟨rfl, hp⟩
      · exact ⟨rfl, hp⟩
    | tree => rcases h with h | ⟨_, _, _, h⟩ <;> cases h
  | @tree c vars wf decl fields ih =>
    intro s hs
    cases hs with
    | part h => rcases h with h | ⟨_, _, _, h⟩ <;> cases h
    | @tree _ _ st hnst hst =>
      have hn := wf.nodup
      rcases restoreVars_nested (env := env) hn hnst
        (fun kv hkv hnode s hs' => ih kv.1 kv.2 (mem_dget hn hkv) hnode (hst kv.1 kv.2 s (mem_dget hn hkv) hnode hs')) with ⟨hall, u, r, e, hu⟩ | ⟨hall, e⟩
      · obtain ⟨e1, e2, e3, e4⟩ := restoreVars_spec (env := env) hn hnst e
        have hku : ∀ k, k ∈ dkeys u ↔ ∃ v, dget vars k = some v ∧ v.isNode = true := by
          intro k
          rw [e1, ← dget_isSome, dget_filter hn (fun _ v => v.isNode)]
          cases dget vars k with
          | none => simp
          | some v => cases hv : v.isNode <;> simp [hv]
        have hnu : DNodup u := by unfold DNodup; rw [e1]; exact dnodup_filter hn _
        rw [fromStateDict, e]
        cases r with
        | cons a b =>
          refine .inr ⟨fun hfit => ?_, rfl⟩
          cases hfit with
          | part h => rcases h with h | ⟨_, _, _, h⟩ <;> cases h
          | tree keys _ =>
            have ha := e4 a.1
            simp only [dget, if_true] at ha
            split at ha
            · cases ha
            · rename_i hk
              refine hk ((hku _).2 ((keys _).1 (dget_isSome.1 (by rw [← ha]; rfl))))
        | nil =>
          have hget : ∀ k q, dget u k = some q → ∃ v s, dget vars k = some v ∧ v.isNode = true ∧ dget st k = some s ∧ ReadAs env v s q := by
            intro k q hq
            obtain ⟨v, s, hm, k'⟩ := hu (k, q) (dget_mem hq)
            exact ⟨v, s, mem_dget hn hm, k'⟩
          obtain ⟨vars', e', wf', decl', hrep⟩ := replaceVal_plain (env := env) (c := c) wf decl hnu (fun k hk => (hku k).1 hk)
            (fun k x hx => by obtain ⟨_, _, _, _, _, h⟩ := hget k x hx; exact h.plain)
          have hstored : ∀ k v, dget vars k = some v → v.isNode = true →
              ∃ s x q, dget st k = some s ∧ dget vars' k = some q ∧ ReadAs env v s x ∧ Stored (some v) x q := by
            intro k v hv hnode
            obtain ⟨x, hx⟩ := Option.isSome_iff_exists.1 (dget_isSome.2 ((hku k).2 ⟨v, hv, hnode⟩))
            obtain ⟨v', s', hv', _, hs'', hr⟩ := hget k x hx
            rw [hv] at hv'; cases hv'
            have := hrep k
            unfold ReplacedAt at this
            rw [hx, hv] at this
            obtain ⟨y, hst', hy⟩ := this
            exact ⟨s', x, y, hs'', hy, hr, hst'⟩
          have hother : ∀ k, (∀ v, dget vars k = some v → v.isNode = false) → dget vars' k = dget vars k := by
            intro k hk
            have := hrep k
            unfold ReplacedAt at this
            have hnone : dget u k = none := dget_eq_none.2 (fun hk' => by
              obtain ⟨v, hv, hv2⟩ := (hku k).1 hk'
              rw [hk v hv] at hv2; cases hv2)
            rw [hnone] at this
            exact this
          refine .inl ⟨.tree (fun k => ⟨fun hk => ?_, fun hk => e3 k ((hku k).2 hk)⟩) (fun k v s hv hnode hs' => ?_), .tree c vars', e',
            .tree hother (fun k v hv hnode => ?_) (fun k v s q hv hnode hs' hq => ?_), trivial, fun harr => .tree wf' decl' (fun k q hq hnode => ?_)⟩
          · have := e4 k
            by_cases hk' : k ∈ dkeys u
            · exact (hku k).1 hk'
            · rw [if_neg hk'] at this
              obtain ⟨x, hx⟩ := Option.isSome_iff_exists.1 (dget_isSome.2 hk)
              rw [hx] at this; simp [dget] at this
          · obtain ⟨s', h1, h2⟩ := hall (k, v) (dget_mem hv) hnode
            simp only at h1 h2
            rw [hs'] at h1; cases h1; exact h2
          · obtain ⟨s, _, q, h1, h2, _⟩ := hstored k v hv hnode
            exact ⟨s, q, h1, h2⟩
          · obtain ⟨s', x, q', h1, h2, hr, hst'⟩ := hstored k v hv hnode
            rw [hs'] at h1; cases h1
            rw [hq] at h2; cases h2
            exact hr.stored (fields k v hv hnode).shape hst'
          · by_cases hk : ∀ v, dget vars k = some v → v.isNode = false
            · rw [hother k hk] at hq
              rw [hk q hq] at hnode; cases hnode
            · simp only [not_forall] at hk
              obtain ⟨v, hv, hv2⟩ := hk
              have hv2 : v.isNode = true := by cases h : v.isNode <;> simp_all
              obtain ⟨s', x, q', h1, h2, hr, hst'⟩ := hstored k v hv hv2
              rw [hq] at h2; cases h2
              refine hr.built (fields k v hv hv2).shape hst' ?_
              cases harr with
              | leaf h => cases h
              | tree hfields => exact hfields k v s' hv hv2 h1
      · refine .inr ⟨fun hfit => hall (fun kv hkv hnode => ?_), by rw [fromStateDict, e]⟩
        cases hfit with
        | part h => rcases h with h | ⟨_, _, _, h⟩ <;> cases h
        | tree keys hfields =>
          have hk := (keys kv.1).2 ⟨kv.2, mem_dget hn hkv, hnode⟩
          obtain ⟨s, hs'⟩ := Option.isSome_iff_exists.1 (dget_isSome.2 hk)
          exact ⟨s, hs', hfields kv.1 kv.2 s (mem_dget hn hkv) hnode hs'⟩

/-- **C43**, nested: restoring a state dict succeeds exactly when, in the object and in every object nested in its fields, the keys are
exactly the node fields. Then the result is the object with the values of the state dict in the node fields, at every depth, and everything
else as it was; and otherwise, for a missing or an extra key at any depth, it is a ValueError. -/
theorem C43_restore_nested {env : PEnv α} {c : Cls} {vars : Md α} {s : PyVal α} (h : Built env (.tree c vars)) (hs : StateFor (.tree c vars) s) :
    (KeysFit (.tree c vars) s → ∃ q, fromStateDict env (.tree c vars) s = .ok q ∧ RestoredTo (.tree c vars) s q) ∧
    (¬ KeysFit (.tree c vars) s → fromStateDict env (.tree c vars) s = .error .valueError) := by
  rcases restore_or_refuse h hs with ⟨hf, q, e, r⟩ | ⟨hf, e⟩
  · exact ⟨fun _ => ⟨q, e, r.1⟩, fun h => absurd hf h⟩
  · exact ⟨fun h => absurd h hf, fun _ => e⟩

omit [DecidableEq α] in
theorem isNode_cont (c : Cls) (v w : PyVal α) (m : Md α) : (PyVal.cont c v m).isNode = (PyVal.cont c w m).isNode := rfl

omit [DecidableEq α] in
theorem isNode_tree (c : Cls) (m n : Md α) : (PyVal.tree c m).isNode = (PyVal.tree c n).isNode := rfl

omit [DecidableEq α] in
theorem RestoredTo.node {v s q : PyVal α} (h : RestoredTo v s q) (ha : SavedArrays v s) (hv : v.isNode = true) : q.isNode = true := by
  cases h with
  | leaf h =>
    cases ha with
    | leaf _ _ h => exact h
    | box => cases h
    | tree => cases h
  | box => exact hv
  | tree => exact hv

theorem saved_again {env : PEnv α} {v s q : PyVal α} (h : RestoredTo v s q) :
    Built env q → SavedArrays v s → KeysFit v s → DictSame (toStateDict (unwrap q)) s := by
  induction h with
  | @leaf v s h =>
    intro _ ha _
    cases ha with
    | leaf _ hs _ => rw [(toStateDict_leaf hs).2, (toStateDict_leaf hs).1]; exact .refl _
    | box => cases h
    | tree => cases h
  | @box c w s m =>
    intro _ ha _
    cases ha with
    | leaf h => cases h
    | box hs =>
      rw [unwrap]
      cases s with
      | tree d n => exact absurd rfl (hs d n)
      | _ => exact .refl _
  | @tree c vars st vars' others present fields ih =>
    intro hb ha hf
    cases hb with
    | part h => rcases h with h | ⟨_, _, _, h⟩ <;> cases h
    | tree wf' decl' hb =>
      cases ha with
      | leaf h => cases h
      | tree ha =>
        cases hf with
        | part h => rcases h with h | ⟨_, _, _, h⟩ <;> cases h
        | tree keys hf =>
          obtain ⟨st', e, hst'⟩ := C43_to_state_dict (c := c) wf'.nodup
          rw [unwrap, e]
          · have hback : ∀ k v', dget vars' k = some v' → v'.isNode = true →
                ∃ v s, dget vars k = some v ∧ v.isNode = true ∧ dget st k = some s := by
              intro k v' hv' hnode
              by_cases hk : ∀ v, dget vars k = some v → v.isNode = false
              · rw [others k hk] at hv'
                rw [hk v' hv'] at hnode; cases hnode
              · simp only [not_forall] at hk
                obtain ⟨v, hv, hv2⟩ := hk
                have hv2 : v.isNode = true := by cases h : v.isNode <;> simp_all
                obtain ⟨s, _, hs, _⟩ := present k v hv hv2
                exact ⟨v, s, hv, hv2, hs⟩
            refine .dict (fun k => ?_) (fun k x s hx hs => ?_)
            · constructor
              · intro hx
                apply Classical.byContradiction
                intro hs
                obtain ⟨s, hs⟩ := Option.isSome_iff_exists.1 (Option.isSome_iff_ne_none.2 hs)
                obtain ⟨v, hv, hv2⟩ := (keys k).1 (dget_isSome.1 (by rw [hs]; rfl))
                obtain ⟨_, q, _, hq⟩ := present k v hv hv2
                have := (hst' k _).2 ⟨q, hq, (fields k v s q hv hv2 hs hq).node (ha k v s hv hv2 hs) hv2, rfl⟩
                rw [hx] at this; cases this
              · intro hs
                apply Classical.byContradiction
                intro hx
                obtain ⟨x, hx⟩ := Option.isSome_iff_exists.1 (Option.isSome_iff_ne_none.2 hx)
                obtain ⟨v', hv', hn', _⟩ := (hst' k x).1 hx
                obtain ⟨v, s, _, _, hs'⟩ := hback k v' hv' hn'
                rw [hs] at hs'; cases hs'
            · obtain ⟨v', hv', hn', rfl⟩ := (hst' k x).1 hx
              obtain ⟨v, s', hv, hv2, hs'⟩ := hback k v' hv' hn'
              rw [hs] at hs'; cases hs'
              exact ih k v s v' hv hv2 hs hv' (hb k v' hv' hn') (ha k v s hv hv2 hs) (hf k v s hv hv2 hs)
          all_goals simp

/-- **C43**, the other round trip: after restoring a state dict of arrays that fits, the state dict of the result is the one that was
restored, up to the order of the keys; and the result is again an object that can be restored. -/
theorem C43_saved_again {env : PEnv α} {c : Cls} {vars : Md α} {s : PyVal α} (h : Built env (.tree c vars)) (hs : StateFor (.tree c vars) s)
    (ha : SavedArrays (.tree c vars) s) (hf : KeysFit (.tree c vars) s) :
    ∃ vars', fromStateDict env (.tree c vars) s = .ok (.tree c vars') ∧ Built env (.tree c vars') ∧
      DictSame (toStateDict (.tree c vars')) s := by
  rcases restore_or_refuse h hs with ⟨_, q, e, r⟩ | ⟨hf', _⟩
  · have hb := r.2.2 ha
    have hd := saved_again r.1 hb ha hf
    cases r.1 with
    | leaf h => cases h
    | tree => exact ⟨_, e, hb, hd⟩
  · exact absurd hf hf'

/-! ### `exFoo` (`Foo(bar=Bar(a=1, b=Node 2), c=Node 3, d=4)`), with other values, in another order -/

def exPlainEnv : PEnv Nat := fun _ => { mutable := false, dataclass := none }

/-- What a checkpoint may hold for `exFoo`. -/
def exLoaded : Md Nat := [(py! "c", .data cArray 30), (py! "bar", .dict [(py! "b", .data cArray 20)])]

theorem exBar_fields {k : Str} {v : PyVal Nat} (hk : dget exBar k = some v) (hn : v.isNode = true) :
    k = py! "b" ∧ v = .cont cNode (.data cArray 2) [] := by
  have := dget_mem hk
  simp only [exBar, List.mem_cons, List.not_mem_nil, or_false, Prod.mk.injEq] at this
  rcases this with ⟨_, rfl⟩ | ⟨_, rfl⟩ | ⟨rfl, rfl⟩
  · cases hn
  · cases hn
  · exact ⟨rfl, rfl⟩

theorem exFoo_fields {k : Str} {v : PyVal Nat} (hk : dget exFoo k = some v) (hn : v.isNode = true) :
    (k = py! "bar" ∧ v = .tree cPytree exBar) ∨ (k = py! "c" ∧ v = .cont cNode (.data cArray 3) []) := by
  have := dget_mem hk
  simp only [exFoo, List.mem_cons, List.not_mem_nil, or_false, Prod.mk.injEq] at this
  rcases this with ⟨_, rfl⟩ | ⟨rfl, rfl⟩ | ⟨rfl, rfl⟩ | ⟨_, rfl⟩
  · cases hn
  · exact .inl ⟨rfl, rfl⟩
  · exact .inr ⟨rfl, rfl⟩
  · cases hn

theorem exFoo_built : Built exPlainEnv (.tree cPytree exFoo) := by
  have wfNode : ∀ n : Nat, WFContainer (.cont cNode (.data cArray n) [] : PyVal Nat) := fun n =>
    .mk trivial (by simp [DNodup]) (by simp) (fun _ => rfl) (fun _ h => absurd h (by decide))
  refine .tree ?_ (fun fs fr h => by cases h) (fun k v hk hn => ?_)
  · refine { nodup := by unfold DNodup; decide, noInit := by decide, noMut := by decide, sorted := by decide, good := ?_ }
    intro k v hk
    have := dget_mem hk
    simp only [exFoo, List.mem_cons, List.not_mem_nil, or_false, Prod.mk.injEq] at this
    rcases this with ⟨_, rfl⟩ | ⟨_, rfl⟩ | ⟨_, rfl⟩ | ⟨_, rfl⟩
    · exact Or.inl trivial
    · exact Or.inl trivial
    · exact Or.inr (wfNode 3)
    · exact Or.inl trivial
  · rcases exFoo_fields hk hn with ⟨_, rfl⟩ | ⟨_, rfl⟩
    · refine .tree ?_ (fun fs fr h => by cases h) (fun k v hk hn => ?_)
      · refine { nodup := by unfold DNodup; decide, noInit := by decide, noMut := by decide, sorted := by decide, good := ?_ }
        intro k v hk
        have := dget_mem hk
        simp only [exBar, List.mem_cons, List.not_mem_nil, or_false, Prod.mk.injEq] at this
        rcases this with ⟨_, rfl⟩ | ⟨_, rfl⟩ | ⟨_, rfl⟩
        · exact Or.inl trivial
        · exact Or.inl trivial
        · exact Or.inr (wfNode 2)
      · obtain ⟨_, rfl⟩ := exBar_fields hk hn
        exact .part (.inr ⟨_, _, _, rfl⟩)
    · exact .part (.inr ⟨_, _, _, rfl⟩)

theorem exLoaded_state : StateFor (.tree cPytree exFoo) (.dict exLoaded) := by
  refine .tree (by unfold DNodup; decide) (fun k v s hk hn hs => ?_)
  rcases exFoo_fields hk hn with ⟨rfl, rfl⟩ | ⟨rfl, rfl⟩
  · cases hs
    refine .tree (by unfold DNodup; decide) (fun k v s hk hn hs => ?_)
    obtain ⟨rfl, rfl⟩ := exBar_fields hk hn
    cases hs
    exact .part (.inr ⟨_, _, _, rfl⟩) trivial
  · cases hs
    exact .part (.inr ⟨_, _, _, rfl⟩) trivial

theorem exLoaded_fits : KeysFit (.tree cPytree exFoo) (.dict exLoaded) := by
  refine .tree (fun k => ⟨fun h => ?_, fun ⟨v, hk, hn⟩ => ?_⟩) (fun k v s hk hn hs => ?_)
  · simp only [exLoaded, dkeys, List.map_cons, List.map_nil, List.mem_cons, List.not_mem_nil, or_false] at h
    rcases h with rfl | rfl
    · exact ⟨_, rfl, by decide⟩
    · exact ⟨_, rfl, by decide⟩
  · rcases exFoo_fields hk hn with ⟨rfl, _⟩ | ⟨rfl, _⟩ <;> decide
  · rcases exFoo_fields hk hn with ⟨rfl, rfl⟩ | ⟨rfl, rfl⟩
    · cases hs
      refine .tree (fun k => ⟨fun h => ?_, fun ⟨v, hk, hn⟩ => ?_⟩) (fun k v s hk hn hs => ?_)
      · simp only [dkeys, List.map_cons, List.map_nil, List.mem_cons, List.not_mem_nil, or_false] at h
        subst h
        exact ⟨_, rfl, by decide⟩
      · obtain ⟨rfl, _⟩ := exBar_fields hk hn; decide
      · obtain ⟨rfl, rfl⟩ := exBar_fields hk hn
        exact .part (.inr ⟨_, _, _, rfl⟩)
    · exact .part (.inr ⟨_, _, _, rfl⟩)

/-- All hypotheses of `C43_restore_nested` and `C43_saved_again` are met by it. -/
example : SavedArrays (.tree cPytree exFoo) (.dict exLoaded) := by
  refine .tree (fun k v s hk hn hs => ?_)
  rcases exFoo_fields hk hn with ⟨rfl, rfl⟩ | ⟨rfl, rfl⟩
  · cases hs
    refine .tree (fun k v s hk hn hs => ?_)
    obtain ⟨rfl, rfl⟩ := exBar_fields hk hn
    cases hs
    exact .box (fun _ _ h => by cases h)
  · cases hs
    exact .box (fun _ _ h => by cases h)

/-- A key is missing inside `bar`: it does not fit, and restoring it is an error. -/
example : ¬ KeysFit (.tree cPytree exFoo) (.dict [(py! "c", .data cArray 30), (py! "bar", .dict [])]) := by
  intro h
  cases h with
  | part h => rcases h with h | ⟨_, _, _, h⟩ <;> cases h
  | tree _ hf =>
    have := hf (py! "bar") _ _ rfl (by decide) rfl
    cases this with
    | part h => rcases h with h | ⟨_, _, _, h⟩ <;> cases h
    | tree keys _ => exact absurd ((keys (py! "b")).2 ⟨_, rfl, by decide⟩) (by decide)

example : fromStateDict exPlainEnv (.tree cPytree exFoo) (.dict [(py! "c", .data cArray 30), (py! "bar", .dict [])]) = .error .valueError := by rfl

example : (fromStateDict exPlainEnv (.tree cPytree exFoo) (.dict exLoaded)).map toStateDict =
    .ok (.dict [(py! "bar", .dict [(py! "b", .data cArray 20)]), (py! "c", .data cArray 30)]) := by rfl

end Nnx
