import Verif.Spec.Pytree
import Verif.Proofs.Containers
/-
Proofs about Pytree objects.
-/
namespace Nnx
variable {α : Type}

/-! ### Sorted names -/

theorem insertItem_names {V W : Type} {k : Str} {x : V} {y : W} :
    ∀ {l : List (Str × V)} {l' : List (Str × W)}, l.map (·.1) = l'.map (·.1) →
      (insertItem (k, x) l).map (·.1) = (insertItem (k, y) l').map (·.1)
  | [], [], _ => by simp [insertItem]
  | [], _ :: _, h => by simp at h
  | _ :: _, [], h => by simp at h
  | (a, u) :: l, (b, w) :: l', h => by
    simp only [List.map_cons, List.cons.injEq] at h
    obtain ⟨h1, h2⟩ := h
    subst h1
    simp only [insertItem]
    split
    · simp [h2]
    · simpa using insertItem_names h2

theorem sortItems_names {V W : Type} : ∀ {l : List (Str × V)} {l' : List (Str × W)}, l.map (·.1) = l'.map (·.1) →
    (sortItems l).map (·.1) = (sortItems l').map (·.1)
  | [], [], _ => by simp [sortItems]
  | [], _ :: _, h => by simp at h
  | _ :: _, [], h => by simp at h
  | (a, u) :: l, (b, w) :: l', h => by
    simp only [List.map_cons, List.cons.injEq] at h
    obtain ⟨h1, h2⟩ := h
    subst h1
    exact insertItem_names (sortItems_names h2)

theorem sortItems_names_ext {V W : Type} {l : List (Str × V)} {l' : List (Str × W)} (hn : DNodup l) (hn' : DNodup l')
    (h : ∀ k, k ∈ dkeys l ↔ k ∈ dkeys l') : (sortItems l).map (·.1) = (sortItems l').map (·.1) := by
  have e1 : (sortItems l).map (·.1) = (sortItems (l.map (fun kv => (kv.1, ())))).map (·.1) :=
    sortItems_names (by simp)
  have e2 : (sortItems l').map (·.1) = (sortItems (l'.map (fun kv => (kv.1, ())))).map (·.1) :=
    sortItems_names (by simp)
  have d1 : DNodup (l.map (fun kv => (kv.1, ()))) := by simpa [DNodup, dkeys, Function.comp_def] using hn
  have d2 : DNodup (l'.map (fun kv => (kv.1, ()))) := by simpa [DNodup, dkeys, Function.comp_def] using hn'
  rw [e1, e2, StrictSorted.ext (sortItems_strict d1) (sortItems_strict d2)]
  intro k
  rw [dget_sortItems d1, dget_sortItems d2]
  have a : ∀ (q : List (Str × Unit)), dget q k = if k ∈ dkeys q then some () else none := by
    intro q
    by_cases hk : k ∈ dkeys q
    · rw [if_pos hk]
      obtain ⟨v, hv⟩ := Option.isSome_iff_exists.1 (dget_isSome.2 hk)
      exact hv
    · rw [if_neg hk]; exact dget_eq_none.2 hk
  rw [a, a]
  have b1 : k ∈ dkeys (l.map (fun kv => (kv.1, ()))) ↔ k ∈ dkeys l := by simp [dkeys]
  have b2 : k ∈ dkeys (l'.map (fun kv => (kv.1, ()))) ↔ k ∈ dkeys l' := by simp [dkeys]
  simp only [b1, b2, h k]

theorem sortedNames_eq (vars : Md α) : sortedNames vars = .tup (((sortItems vars).map (·.1)).map .str) := by
  simp [sortedNames, Function.comp_def]

theorem sortedNames_ext {m n : Md α} (hm : DNodup m) (hn : DNodup n) (h : ∀ k, k ∈ dkeys m ↔ k ∈ dkeys n) :
    sortedNames m = sortedNames n := by
  rw [sortedNames_eq, sortedNames_eq, sortItems_names_ext hm hn h]

theorem mem_dkeys_dset_of_mem {d : Md α} {k : Str} (h : k ∈ dkeys d) (v : PyVal α) (x : Str) :
    x ∈ dkeys (dset d k v) ↔ x ∈ dkeys d := by
  rw [mem_dkeys_dset]
  exact ⟨fun h' => h'.elim (fun e => e ▸ h) id, Or.inr⟩

theorem mem_dkeys_ddel {d : Md α} (hn : DNodup d) (k x : Str) : x ∈ dkeys (ddel d k) ↔ x ≠ k ∧ x ∈ dkeys d := by
  rw [← dget_isSome, dget_ddel hn, ← dget_isSome]
  by_cases h : k = x
  · simp [h]
  · simp [h, Ne.symm h]

theorem dhas_iff {d : Md α} {k : Str} : dhas d k = true ↔ k ∈ dkeys d := by
  rw [dhas]; exact dget_isSome

theorem dhas_false {d : Md α} {k : Str} : dhas d k = false ↔ k ∉ dkeys d := by
  rw [← dhas_iff]; simp

theorem kSorted_ne_init : kSorted ≠ kInit := by decide
theorem kSorted_ne_mut : kSorted ≠ kMutable := by decide
theorem kMut_ne_init : kMutable ≠ kInit := by decide

variable [DecidableEq α]

/-! ### setattr -/

/-- A successful assignment writes one entry. -/
theorem setattrVars_ok {b : Bool} {vars vars' : Md α} {name : Str} {v : PyVal α} (h : setattrVars b vars name v = .ok vars') :
    ∃ x, vars' = dset vars name x := by
  have key : ∀ r : Except Err (PyVal α), r.map (dset vars name) = .ok vars' → ∃ x, vars' = dset vars name x := by
    intro r hr
    cases r with
    | error e => cases hr
    | ok x => cases hr; exact ⟨x, rfl⟩
  unfold setattrVars at h
  split at h
  · cases h
  · split at h
    · cases h
    · split at h
      · exact key _ h
      · exact key _ h
      · cases h; exact ⟨_, rfl⟩

/-- Outside the constructor a successful assignment is to an existing name. -/
theorem setattrVars_sealed {b : Bool} {vars vars' : Md α} {name : Str} {v : PyVal α} (hi : kInit ∉ dkeys vars)
    (h : setattrVars b vars name v = .ok vars') :
    name ∈ dkeys vars ∧ (kMutable ∈ dkeys vars ∨ b = true) := by
  unfold setattrVars at h
  rw [dhas_false.2 hi] at h
  split at h
  · cases h
  · rename_i h1
    split at h
    · cases h
    · rename_i h2
      simp only [Bool.not_false, Bool.true_and, Bool.not_eq_true, Bool.not_eq_false'] at h1 h2
      refine ⟨dhas_iff.1 h1, ?_⟩
      cases hb : b with
      | true => exact Or.inr rfl
      | false =>
        rw [hb] at h2
        left
        apply dhas_iff.1
        simpa using h2

theorem setattrVars_unknown {b : Bool} {vars : Md α} {name : Str} (v : PyVal α) (hi : kInit ∉ dkeys vars)
    (hk : name ∉ dkeys vars) : setattrVars b vars name v = .error .attributeError := by
  unfold setattrVars
  rw [dhas_false.2 hi, dhas_false.2 hk]; rfl

theorem setattrVars_immutable {vars : Md α} (name : Str) (v : PyVal α) (hi : kInit ∉ dkeys vars)
    (hm : kMutable ∉ dkeys vars) : setattrVars false vars name v = .error .attributeError := by
  unfold setattrVars
  rw [dhas_false.2 hi, dhas_false.2 hm]
  by_cases h : dhas vars name = true <;> simp [h]

/-- The outcome of an allowed assignment. -/
theorem setattrVars_allowed {b : Bool} {vars : Md α} {name : Str} {v : PyVal α} (hv : GoodField v)
    (hg : ∀ x, dget vars name = some x → GoodField x)
    (allowed : kInit ∈ dkeys vars ∨ (name ∈ dkeys vars ∧ (kMutable ∈ dkeys vars ∨ b = true))) :
    (∃ x, Stored (dget vars name) v x ∧ GoodField x ∧ setattrVars b vars name v = .ok (dset vars name x)) ∨
    (Refused (dget vars name) v ∧ setattrVars b vars name v = .error .valueError) := by
  unfold setattrVars
  have h1 : (!dhas vars kInit && !dhas vars name) = false := by
    rcases allowed with h | h
    · rw [dhas_iff.2 h]; rfl
    · rw [dhas_iff.2 h.1]; simp
  have h2 : (!dhas vars kInit && (!dhas vars kMutable && !b)) = false := by
    rcases allowed with h | ⟨_, h | h⟩
    · rw [dhas_iff.2 h]; rfl
    · rw [dhas_iff.2 h]; simp
    · simp [h]
  simp only [h1, h2, Bool.false_eq_true, if_false]
  cases hold : dget vars name with
  | none =>
    left
    rcases hv with hv | hv
    · refine ⟨v, .new (by simp), Or.inl hv, ?_⟩
      cases v <;> simp_all [PyVal.Plain]
    · refine ⟨v, .new (by simp), Or.inr hv, ?_⟩
      have hc := copy_wf hv
      cases hv with
      | mk => simp only [hc]; rfl
  | some old =>
    rcases hg old hold with ho | ho
    · left
      rcases hv with hv | hv
      · refine ⟨v, .new (by intro c w m e; cases e; exact ho), Or.inl hv, ?_⟩
        cases old <;> cases v <;> simp_all [PyVal.Plain]
      · refine ⟨v, .new (by intro c w m e; cases e; exact ho), Or.inr hv, ?_⟩
        have hc := copy_wf hv
        cases hv with
        | mk => cases old <;> simp_all [PyVal.Plain] <;> rfl
    · have ho' := ho
      cases ho with
      | @mk c w m plain nodup novalue static shardingFirst =>
        rcases hv with hv | hv
        · left
          refine ⟨.cont c v m, .keep hv, Or.inr (ho'.with_value hv), ?_⟩
          have hr := replace_value_plain ho' hv
          simp only [hr]; rfl
        · cases hv with
          | @mk d u n plain' nodup' novalue' static' shardingFirst' =>
            have hr := replace_value_cont (n := n) (d := d) ho' plain'
            by_cases hq : c = d ∧ MdSame m n
            · left
              have hq' : c = d ∧ mdEq m n = true := ⟨hq.1, (mdEq_iff nodup nodup').2 hq.2⟩
              rw [if_pos hq'] at hr
              obtain ⟨rfl, hs⟩ := hq
              refine ⟨.cont c u m, .unwrap hs, Or.inr (ho'.with_value plain'), ?_⟩
              simp only [hr]; rfl
            · right
              have hq' : ¬ (c = d ∧ mdEq m n = true) := fun h => hq ⟨h.1, (mdEq_iff nodup nodup').1 h.2⟩
              rw [if_neg hq'] at hr
              refine ⟨⟨c, w, m, d, u, n, rfl, rfl, hq⟩, ?_⟩
              simp only [hr]; rfl

/-! ### The constructor -/

theorem initSetattr_ok {i : PInfo α} {vars vars' : Md α} {name : Str} {v : PyVal α}
    (h : i.initSetattr vars name v = .ok vars') : ∃ x, vars' = dset vars name x := by
  unfold PInfo.initSetattr at h
  split at h
  · cases h; exact ⟨_, rfl⟩
  · exact setattrVars_ok h

theorem runInit_keys {i : PInfo α} {steps : List (Str × PyVal α)} {vars vars' : Md α} (hn : DNodup vars)
    (h : runInit i steps vars = .ok vars') :
    DNodup vars' ∧ ∀ k, k ∈ dkeys vars' ↔ k ∈ dkeys vars ∨ k ∈ steps.map (·.1) := by
  induction steps generalizing vars with
  | nil => cases h; exact ⟨hn, by simp⟩
  | cons s rest ih =>
    obtain ⟨name, v⟩ := s
    rw [runInit] at h
    cases hs : i.initSetattr vars name v with
    | error e => rw [hs] at h; cases h
    | ok vars1 =>
      rw [hs] at h
      obtain ⟨x, rfl⟩ := initSetattr_ok hs
      obtain ⟨h1, h2⟩ := ih (dnodup_dset hn _ _) h
      refine ⟨h1, fun k => ?_⟩
      rw [h2, mem_dkeys_dset, List.map_cons, List.mem_cons]
      constructor
      · rintro ((h | h) | h) <;> simp [h]
      · rintro (h | h | h) <;> simp [h]

theorem runInit_good {i : PInfo α} {steps : List (Str × PyVal α)} {vars vars' : Md α} (hi : kInit ∈ dkeys vars)
    (hs : ∀ s ∈ steps, GoodField s.2) (hg : ∀ k v, dget vars k = some v → GoodField v)
    (h : runInit i steps vars = .ok vars') : ∀ k v, dget vars' k = some v → GoodField v := by
  induction steps generalizing vars with
  | nil => cases h; exact hg
  | cons s rest ih =>
    obtain ⟨name, v⟩ := s
    rw [runInit] at h
    cases hset : i.initSetattr vars name v with
    | error e => rw [hset] at h; cases h
    | ok vars1 =>
      rw [hset] at h
      have hv : GoodField v := hs (name, v) (by simp)
      have : ∃ x, GoodField x ∧ vars1 = dset vars name x := by
        unfold PInfo.initSetattr at hset
        split at hset
        · cases hset; exact ⟨v, hv, rfl⟩
        · rcases setattrVars_allowed (b := i.mutable) hv (hg name) (Or.inl hi) with ⟨x, _, hx, he⟩ | ⟨_, he⟩
          · rw [he] at hset; cases hset; exact ⟨x, hx, rfl⟩
          · rw [he] at hset; cases hset
      obtain ⟨x, hx, rfl⟩ := this
      refine ih (by rw [mem_dkeys_dset]; exact Or.inr hi) (fun s hs' => hs s (by simp [hs'])) ?_ h
      intro k w hk
      rw [dget_dset] at hk
      split at hk
      · cases hk; exact hx
      · exact hg k w hk

theorem wrapFields_keys {fs : List (PField α)} {vars vars' : Md α} (hn : DNodup vars)
    (h : wrapFields fs vars = .ok vars') : DNodup vars' ∧ ∀ k, k ∈ dkeys vars' ↔ k ∈ dkeys vars := by
  induction fs generalizing vars with
  | nil => cases h; exact ⟨hn, fun _ => Iff.rfl⟩
  | cons f fs ih =>
    rw [wrapFields] at h
    cases hf : f.kind.containerFn with
    | none => rw [hf] at h; exact ih hn h
    | some fn =>
      rw [hf] at h
      simp only at h
      cases hd : dget vars f.name with
      | none => rw [hd] at h; cases h
      | some v =>
        rw [hd] at h
        simp only at h
        cases hc : fn v with
        | error e => rw [hc] at h; cases h
        | ok x =>
          rw [hc] at h
          obtain ⟨h1, h2⟩ := ih (dnodup_dset hn _ _) h
          refine ⟨h1, fun k => ?_⟩
          rw [h2, mem_dkeys_dset_of_mem (dget_isSome.1 (by rw [hd]; rfl))]

theorem construct_good {c : Cls} {v x : PyVal α} {md : Md α} (hn : DNodup md) (hv : GoodField v)
    (h : construct c v md = .ok x) : WFContainer x := by
  have key : ∀ w : PyVal α, w.Plain → ∀ y, classInit c w md = .ok y → WFContainer y := by
    intro w hw y hy
    rcases classInit_plain_cases (c := c) hw hn with ⟨he, _⟩ | ⟨m, he, _, _, hwf, _⟩
    · rw [he] at hy; cases hy
    · rw [he] at hy; cases hy; exact hwf
  rcases hv with hv | hv
  · rw [construct_plain hv] at h
    exact key v hv x h
  · cases hv with
    | mk plain nodup novalue static shardingFirst =>
      rw [construct] at h
      split at h
      · cases h
      · rename_i obj hobj
        split at h
        · cases h; exact key _ plain _ hobj
        · cases h

theorem containerFn_good {k : FieldKind α} {fn : PyVal α → Except Err (PyVal α)} {v x : PyVal α}
    (hf : k.containerFn = some fn) (hv : GoodField v) (h : fn v = .ok x) : WFContainer x := by
  cases k with
  | plain => cases hf
  | node => cases hf; exact construct_good (by simp [DNodup]) hv h
  | static => cases hf; exact construct_good (by simp [DNodup]) hv h
  | var vt sh => cases hf; exact construct_good (by simp [DNodup, dkeys]) hv h

theorem wrapFields_good {fs : List (PField α)} {vars vars' : Md α} (hg : ∀ k v, dget vars k = some v → GoodField v)
    (h : wrapFields fs vars = .ok vars') : ∀ k v, dget vars' k = some v → GoodField v := by
  induction fs generalizing vars with
  | nil => cases h; exact hg
  | cons f fs ih =>
    rw [wrapFields] at h
    cases hf : f.kind.containerFn with
    | none => rw [hf] at h; exact ih hg h
    | some fn =>
      rw [hf] at h
      simp only at h
      cases hd : dget vars f.name with
      | none => rw [hd] at h; cases h
      | some v =>
        rw [hd] at h
        simp only at h
        cases hc : fn v with
        | error e => rw [hc] at h; cases h
        | ok x =>
          rw [hc] at h
          refine ih ?_ h
          intro k w hk
          rw [dget_dset] at hk
          split at hk
          · cases hk; exact Or.inr (containerFn_good hf (hg _ _ hd) hc)
          · exact hg k w hk

omit [DecidableEq α] in
theorem init0_facts : DNodup (dset (dset [(kSorted, .tup [.str kSorted])] kMutable .none) kInit .none : Md α) ∧
    (∀ k, k ∈ dkeys (dset (dset [(kSorted, .tup [.str kSorted])] kMutable .none) kInit .none : Md α) ↔ ReservedPy k) ∧
    (∀ k v, dget (dset (dset [(kSorted, .tup [.str kSorted])] kMutable .none) kInit .none : Md α) k = some v →
      GoodField v) := by
  refine ⟨dnodup_dset (dnodup_dset (by simp [DNodup, dkeys]) _ _) _ _, fun k => ?_, fun k v h => ?_⟩
  · rw [mem_dkeys_dset, mem_dkeys_dset]
    simp only [dkeys, List.map_cons, List.map_nil, List.mem_singleton, ReservedPy]
    constructor
    · rintro (h | h | h) <;> simp [h]
    · rintro (h | h | h) <;> simp [h]
  · rw [dget_dset] at h
    split at h
    · cases h; exact Or.inl trivial
    · rw [dget_dset] at h
      split at h
      · cases h; exact Or.inl trivial
      · rw [dget] at h
        split at h
        · cases h; exact Or.inl trivial
        · cases h

/-- The constructor leaves an object without flags, with the assigned names. -/
theorem callVars_keys {i : PInfo α} {steps : List (Str × PyVal α)} {vars : Md α} (h : callVars i steps = .ok vars) :
    Sealed vars ∧ (∀ k, k ∈ dkeys vars ↔ k = kSorted ∨ (k ∈ steps.map (·.1) ∧ k ≠ kInit ∧ k ≠ kMutable)) ∧
    dget vars kSorted = some (sortedNames vars) := by
  unfold callVars at h
  obtain ⟨h0n, h0k, _⟩ := init0_facts (α := α)
  generalize (dset (dset [(kSorted, .tup [.str kSorted])] kMutable .none) kInit .none : Md α) = v0 at h h0n h0k
  cases h1 : runInit i steps v0 with
  | error e => rw [h1] at h; cases h
  | ok v1 =>
    rw [h1] at h
    simp only at h
    obtain ⟨hn1, hk1⟩ := runInit_keys h0n h1
    have hn2 := dnodup_ddel hn1 kInit
    have hn3 := dnodup_ddel hn2 kMutable
    cases h2 : wrapFields (i.dataclass.elim [] (·.1)) (ddel (ddel v1 kInit) kMutable) with
    | error e => rw [h2] at h; cases h
    | ok v2 =>
      rw [h2] at h
      cases h
      obtain ⟨hn4, hk4⟩ := wrapFields_keys hn3 h2
      have hk : ∀ k, k ∈ dkeys v2 ↔ k = kSorted ∨ (k ∈ steps.map (·.1) ∧ k ≠ kInit ∧ k ≠ kMutable) := by
        intro k
        rw [hk4, mem_dkeys_ddel hn2, mem_dkeys_ddel hn1, hk1, h0k, ReservedPy]
        constructor
        · rintro ⟨a, b, (c | c | c) | c⟩
          · exact Or.inl c
          · exact absurd c a
          · exact absurd c b
          · exact Or.inr ⟨c, b, a⟩
        · rintro (c | ⟨c, b, a⟩)
          · subst c; exact ⟨kSorted_ne_mut, kSorted_ne_init, Or.inl (Or.inl rfl)⟩
          · exact ⟨a, b, Or.inr c⟩
      have hs : kSorted ∈ dkeys v2 := (hk _).2 (Or.inl rfl)
      have hk' : ∀ k, k ∈ dkeys (dset v2 kSorted (sortedNames v2)) ↔ k ∈ dkeys v2 := mem_dkeys_dset_of_mem hs _
      refine ⟨⟨dnodup_dset hn4 _ _, ?_, ?_⟩, fun k => (hk' k).trans (hk k), ?_⟩
      · rw [hk', hk]
        rintro (c | c)
        · exact kSorted_ne_init c.symm
        · exact c.2.1 rfl
      · rw [hk', hk]
        rintro (c | c)
        · exact kSorted_ne_mut c.symm
        · exact c.2.2 rfl
      · rw [dget_dset_self, sortedNames_ext (dnodup_dset hn4 _ _) hn4 hk']

theorem callVars_wf {i : PInfo α} {steps : List (Str × PyVal α)} {vars : Md α} (hs : ∀ s ∈ steps, GoodField s.2)
    (h : callVars i steps = .ok vars) : WFPytree vars := by
  obtain ⟨h1, _, h3⟩ := callVars_keys h
  refine { h1 with sorted := h3, good := ?_ }
  unfold callVars at h
  obtain ⟨h0n, h0k, h0g⟩ := init0_facts (α := α)
  generalize (dset (dset [(kSorted, .tup [.str kSorted])] kMutable .none) kInit .none : Md α) = v0 at h h0n h0k h0g
  cases h1 : runInit i steps v0 with
  | error e => rw [h1] at h; cases h
  | ok v1 =>
    rw [h1] at h
    simp only at h
    have hg1 := runInit_good ((h0k _).2 (Or.inr (Or.inr rfl))) hs h0g h1
    obtain ⟨hn1, hk1⟩ := runInit_keys h0n h1
    have hn2 := dnodup_ddel hn1 kInit
    have hg3 : ∀ k v, dget (ddel (ddel v1 kInit) kMutable) k = some v → GoodField v := by
      intro k v hk
      rw [dget_ddel hn2] at hk
      split at hk
      · cases hk
      · rw [dget_ddel hn1] at hk
        split at hk
        · cases hk
        · exact hg1 k v hk
    cases h2 : wrapFields (i.dataclass.elim [] (·.1)) (ddel (ddel v1 kInit) kMutable) with
    | error e => rw [h2] at h; cases h
    | ok v2 =>
      rw [h2] at h
      cases h
      have hg4 := wrapFields_good hg3 h2
      intro k v hk
      rw [dget_dset] at hk
      split at hk
      · cases hk; exact Or.inl trivial
      · exact hg4 k v hk

end Nnx
