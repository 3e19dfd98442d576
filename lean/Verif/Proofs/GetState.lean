import Verif.Proofs.Dfs
import Verif.Proofs.State
/-
get_state computes the own entries of all visited modules.
-/
namespace Nnx
variable {α : Type} [DecidableEq α]

omit [DecidableEq α] in
/-- The state entries contributed by a list of attributes of a module with path `p`. -/
def ownAttrs (as : List (Str × Attr α)) (p : List Str) : List (Str × PyVal α) :=
  as.filterMap (fun na => match na.2 with
    | .val v => if v.isNode then some (joinSlash (p ++ [na.1]), v) else none
    | .ref _ => none)

omit [DecidableEq α] in
/-- The state entries contributed by one visited module. -/
def own (h : Heap α) (x : Loc × List Str) : List (Str × PyVal α) :=
  match h[x.1]? with
  | some o => ownAttrs (sortItems o.attrs) x.2
  | none => []

omit [DecidableEq α] in
theorem iterStateRec_dfs (h : Heap α) (f : Nat) : ∀ l S p ys S', iterStateRec h f l S p = some (ys, S') →
    ∃ vs, Dfs h sortItems f (.visit l p) S vs S' ∧ ys.Perm (vs.flatMap (own h)) := by
  induction f with
  | zero => intro l S p ys S' e; simp [iterStateRec] at e
  | succ f ih =>
    intro l S p ys S' e
    rw [iterStateRec] at e
    split at e
    · cases e
    · next o ho =>
      split at e
      · next hu =>
        simp only [Option.some.injEq, Prod.mk.injEq] at e
        obtain ⟨rfl, rfl⟩ := e
        exact ⟨[], .seen ho hu, by simp⟩
      · next hu =>
        have inner : ∀ (as : List (Str × Attr α)) (S : List Nat) (ys) (S'),
            iterStateAttrs (iterStateRec h f) as S p = some (ys, S') →
            ∃ vs, Dfs h sortItems f (.attrs as p) S vs S' ∧ ys.Perm (ownAttrs as p ++ vs.flatMap (own h)) := by
          intro as
          induction as with
          | nil =>
            intro S ys S' e
            simp only [iterStateAttrs, Option.some.injEq, Prod.mk.injEq] at e
            obtain ⟨rfl, rfl⟩ := e
            exact ⟨[], .nil, by simp [ownAttrs]⟩
          | cons a as iha =>
            intro S ys S' e
            obtain ⟨n, a⟩ := a
            cases a with
            | val v =>
              rw [iterStateAttrs] at e
              split at e
              · cases e
              · next zs S1 he =>
                obtain ⟨vs, d, hp⟩ := iha _ _ _ he
                split at e
                · next hv =>
                  simp only [Option.some.injEq, Prod.mk.injEq] at e
                  obtain ⟨rfl, rfl⟩ := e
                  refine ⟨vs, .val d, ?_⟩
                  simp only [ownAttrs, List.filterMap_cons, hv, if_true, List.cons_append]
                  exact hp.cons _
                · next hv =>
                  simp only [Option.some.injEq, Prod.mk.injEq] at e
                  obtain ⟨rfl, rfl⟩ := e
                  refine ⟨vs, .val d, ?_⟩
                  simpa [ownAttrs, List.filterMap_cons, hv] using hp
            | ref l' =>
              rw [iterStateAttrs] at e
              split at e
              · cases e
              · next zs S1 he =>
                obtain ⟨vs, d1, hp1⟩ := ih _ _ _ _ _ he
                split at e
                · cases e
                · next ws S2 he2 =>
                  obtain ⟨vs2, d2, hp2⟩ := iha _ _ _ he2
                  simp only [Option.some.injEq, Prod.mk.injEq] at e
                  obtain ⟨rfl, rfl⟩ := e
                  refine ⟨_, .ref d1 d2, ?_⟩
                  have : ownAttrs ((n, Attr.ref l') :: as) p = ownAttrs as p := by
                    simp [ownAttrs]
                  rw [this, List.flatMap_append]
                  refine (hp1.append hp2).trans ?_
                  rw [← List.append_assoc, ← List.append_assoc]
                  exact List.perm_append_comm.append_right _
        obtain ⟨vs, d, hp⟩ := inner _ _ _ _ e
        refine ⟨_, .visit ho hu d, ?_⟩
        simpa [own, ho] using hp

omit [DecidableEq α] in
theorem Dfs.iterState {h : Heap α} {f t S vs S'} (d : Dfs h sortItems f t S vs S') :
    match t with
    | .visit l p => ∃ ys, iterStateRec h f l S p = some (ys, S')
    | .attrs as p => ∃ ys, iterStateAttrs (iterStateRec h f) as S p = some (ys, S') := by
  induction d with
  | seen e hu => exact ⟨[], by simp [iterStateRec, e, hu]⟩
  | visit e hu d ih =>
    obtain ⟨ys, hy⟩ := ih
    exact ⟨ys, by simp [iterStateRec, e, hu, hy]⟩
  | nil => exact ⟨[], by simp [iterStateAttrs]⟩
  | val d ih =>
    obtain ⟨ys, hy⟩ := ih
    simp only [iterStateAttrs, hy]
    split
    · exact ⟨_, rfl⟩
    · exact ⟨_, rfl⟩
  | ref d1 d2 ih1 ih2 =>
    obtain ⟨ys, hy⟩ := ih1
    obtain ⟨zs, hz⟩ := ih2
    exact ⟨ys ++ zs, by simp only [iterStateAttrs, hy, hz]⟩

omit [DecidableEq α] in
theorem mem_own {h : Heap α} (wf : WFHeap h) {l : Loc} {p : List Str} {k : Str} {v : PyVal α} :
    (k, v) ∈ own h (l, p) ↔ ∃ n, attrAt h l n = some (.val v) ∧ v.isNode = true ∧ k = joinSlash (p ++ [n]) := by
  unfold own
  split
  · next o ho =>
    simp only [ownAttrs, List.mem_filterMap]
    constructor
    · rintro ⟨⟨n, a⟩, hm, he⟩
      cases a with
      | ref _ => simp at he
      | val v' =>
        simp only at he
        split at he
        · next hv =>
          simp only [Option.some.injEq, Prod.mk.injEq] at he
          obtain ⟨rfl, rfl⟩ := he
          exact ⟨n, attrAt_of_mem wf ho ((sortItems_perm _).mem_iff.1 hm), hv, rfl⟩
        · cases he
    · rintro ⟨n, ha, hv, rfl⟩
      refine ⟨(n, .val v), (sortItems_perm _).mem_iff.2 ?_, by simp [hv]⟩
      simp only [attrAt, ho] at ha
      exact dget_mem ha
  · next ho =>
    constructor
    · intro h; cases h
    · rintro ⟨n, ha, _⟩
      simp [attrAt, ho] at ha

omit [DecidableEq α] in
theorem joinSlash_path_inj {p q : List Str} {n m : Str} (hp : ∀ s ∈ p, NoSlash s) (hn : NoSlash n)
    (hq : ∀ s ∈ q, NoSlash s) (hm : NoSlash m) (e : joinSlash (p ++ [n]) = joinSlash (q ++ [m])) : p = q ∧ n = m := by
  have := join_inj (ps := p ++ [n]) (qs := q ++ [m]) (by simp) (by simp)
    (by intro s hs; rcases List.mem_append.1 hs with h | h
        · exact hp s h
        · simp at h; subst h; exact hn)
    (by intro s hs; rcases List.mem_append.1 hs with h | h
        · exact hq s h
        · simp at h; subst h; exact hm) e
  have := List.append_inj' this rfl
  simpa using this

omit [DecidableEq α] in
theorem Walk.noSlash {h : Heap α} (wf : WFHeap h) {a b : Loc} {p : List Str} (w : Walk h a p b) :
    ∀ s ∈ p, NoSlash s := by
  induction w with
  | here _ => simp
  | step ha _ ih =>
    intro s hs
    rcases List.mem_cons.1 hs with rfl | hs
    · exact wf.slash _ _ _ ha
    · exact ih s hs

omit [DecidableEq α] in
/-- The items yielded by the traversal have distinct paths. -/
theorem own_nodup {h : Heap α} (wf : WFHeap h) {root : Loc} {vs : List (Loc × List Str)}
    (hn : (vs.map (·.1)).Nodup) (hw : ∀ x ∈ vs, Walk h root x.2 x.1) : DNodup (vs.flatMap (own h)) := by
  induction vs with
  | nil => simp [DNodup]
  | cons x vs ih =>
    simp only [List.map_cons, List.nodup_cons] at hn
    have ih := ih hn.2 (fun y hy => hw y (List.mem_cons_of_mem _ hy))
    have hx := hw x List.mem_cons_self
    simp only [List.flatMap_cons, DNodup, dkeys, List.map_append]
    rw [List.nodup_append]
    refine ⟨?_, ih, ?_⟩
    · unfold own
      split
      · next o ho =>
        have hnd : DNodup (sortItems o.attrs) := dnodup_perm (sortItems_perm _).symm (wf.nodup _ _ ho)
        have hat : ∀ na ∈ sortItems o.attrs, NoSlash na.1 := by
          intro na hna
          exact wf.slash x.1 na.1 na.2 (attrAt_of_mem wf ho ((sortItems_perm _).mem_iff.1 hna))
        generalize sortItems o.attrs = as at hnd hat
        induction as with
        | nil => simp [ownAttrs]
        | cons a as iha =>
          have hnd' := hnd
          simp only [DNodup, dkeys, List.map_cons, List.nodup_cons] at hnd'
          have iha := iha hnd'.2 (fun na h => hat na (List.mem_cons_of_mem _ h))
          obtain ⟨n, a⟩ := a
          cases a with
          | ref _ => simpa [ownAttrs, List.filterMap_cons] using iha
          | val v =>
            by_cases hv : v.isNode = true
            · simp only [ownAttrs, List.filterMap_cons, hv, if_true, List.map_cons, List.nodup_cons] at iha ⊢
              refine ⟨?_, iha⟩
              intro hm
              simp only [List.mem_map, List.mem_filterMap] at hm
              obtain ⟨kv, ⟨⟨n', a'⟩, hm', he'⟩, hk⟩ := hm
              cases a' with
              | ref _ => simp at he'
              | val v' =>
                simp only at he'
                split at he'
                · simp only [Option.some.injEq] at he'
                  subst he'
                  have := joinSlash_path_inj (hx.noSlash wf) (hat _ (List.mem_cons_of_mem _ hm'))
                    (hx.noSlash wf) (hat _ List.mem_cons_self) hk
                  apply hnd'.1
                  rw [← this.2]
                  exact List.mem_map.2 ⟨_, hm', rfl⟩
                · cases he'
            · simpa [ownAttrs, List.filterMap_cons, hv] using iha
      · simp
    · intro k hk k' hk' he
      subst he
      obtain ⟨⟨_, v⟩, hkv, rfl⟩ := List.mem_map.1 hk
      obtain ⟨⟨_, v'⟩, hkv', he⟩ := List.mem_map.1 hk'
      simp only at he
      subst he
      obtain ⟨y, hy, hkv'⟩ := List.mem_flatMap.1 hkv'
      obtain ⟨n, ha, _, he⟩ := (mem_own wf).1 hkv
      obtain ⟨n', ha', _, he'⟩ := (mem_own wf).1 hkv'
      have hwy := hw y (List.mem_cons_of_mem _ hy)
      have := joinSlash_path_inj (hx.noSlash wf) (wf.slash _ _ _ ha) (hwy.noSlash wf) (wf.slash _ _ _ ha')
        (he.symm.trans he')
      have hpp := this.1
      apply hn.1
      have : y.1 = x.1 := by rw [← hpp] at hwy; exact (hx.functional hwy).symm
      exact List.mem_map.2 ⟨y, hy, this⟩

omit [DecidableEq α] in
/-- Characterisation of get_state: the traversal and what each path holds. -/
theorem getState_spec {h : Heap α} (wf : WFHeap h) {root : Loc} (hroot : root < h.length) {f : Nat}
    {s : State (PyVal α)} (e : getState f h root = some s) :
    ∃ vs S', Dfs h sortItems f (.visit root []) [] vs S' ∧ s.Canonical ∧
      (∀ k v, s.get k = some v ↔ ∃ x ∈ vs, ∃ n, attrAt h x.1 n = some (.val v) ∧ v.isNode = true ∧
        k = joinSlash (x.2 ++ [n])) := by
  unfold getState at e
  split at e
  · cases e
  · next items S' he =>
    simp only [Option.some.injEq] at e
    subst e
    obtain ⟨vs, d, hp⟩ := iterStateRec_dfs _ _ _ _ _ _ _ he
    obtain ⟨hn, hr, hw, hS⟩ := d.complete wf isOrder_sort hroot
    have hnd := own_nodup wf hn hw
    refine ⟨vs, S', d, State.new_strict _, ?_⟩
    intro k v
    rw [State.new_get_nodup (dnodup_perm hp.symm hnd), dget_iff_mem (dnodup_perm hp.symm hnd), hp.mem_iff,
      List.mem_flatMap]
    constructor
    · rintro ⟨⟨l, p⟩, hx, hkv⟩; exact ⟨_, hx, (mem_own wf).1 hkv⟩
    · rintro ⟨⟨l, p⟩, hx, hkv⟩; exact ⟨_, hx, (mem_own wf).2 hkv⟩

omit [DecidableEq α] in
theorem Dfs.getState {h : Heap α} {root f vs S'} (d : Dfs h sortItems f (.visit root []) [] vs S') :
    ∃ s, getState f h root = some s := by
  obtain ⟨ys, hy⟩ := d.iterState
  exact ⟨_, by simp [Nnx.getState, hy]; rfl⟩

end Nnx
