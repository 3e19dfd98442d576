import Verif.Proofs.Helpers
import Verif.Props.PytreeReplace
/-
C69: dataclass field specifiers.
-/
namespace Nnx
variable {α : Type} [DecidableEq α]

omit [DecidableEq α] in
theorem box_none {k : FieldKind α} [DecidableEq α] : k.containerFn = none ↔ k.box = none := by
  cases k <;> simp [FieldKind.containerFn, FieldKind.box]

omit [DecidableEq α] in
theorem classInit_box {k : FieldKind α} {c : Cls} {m : Md α} (hk : k.box = some (c, m)) (ho : k.Ok) {u : PyVal α}
    (hu : u.Plain) : classInit c u m = .ok (.cont c u m) ∧ DNodup m := by
  cases k with
  | plain => cases hk
  | node =>
    cases hk
    refine ⟨?_, by simp [DNodup, dkeys]⟩
    unfold classInit
    rw [if_neg (by simp [dhas, dget]), if_neg (by decide), if_neg (by decide), containerInit_plain hu]
  | static =>
    cases hk
    refine ⟨?_, by simp [DNodup, dkeys]⟩
    unfold classInit
    rw [if_neg (by simp [dhas, dget]), if_pos (by decide), if_pos (by rfl), containerInit_plain hu]
  | var vt sh =>
    cases hk
    refine ⟨?_, by simp [DNodup, dkeys]⟩
    unfold classInit
    rw [if_neg (by simp [dhas, dget]), if_neg (by rw [show c.isSub cStatic = false from ho]; decide)]
    simp only [containerInit_plain hu]
    have : dupdate [(py! "sharding", PyVal.none)] [(py! "sharding", sh)] = [(py! "sharding", sh)] := by
      simp [dupdate, dset]
    rw [this]
    split <;> rfl

/-- What a field's declaration does to the value it is given. -/
theorem containerFn_cases {k : FieldKind α} (ho : k.Ok) {fn : PyVal α → Except Err (PyVal α)} (hf : k.containerFn = some fn)
    {v : PyVal α} (hv : GoodField v) :
    (¬WrapRefused k v ∧ ∃ x, fn v = .ok x ∧ Wrapped k v x) ∨ (WrapRefused k v ∧ fn v = .error .valueError) := by
  have key : ∀ c m, k.box = some (c, m) → fn = (fun v => construct c v m) →
      (¬WrapRefused k v ∧ ∃ x, fn v = .ok x ∧ Wrapped k v x) ∨ (WrapRefused k v ∧ fn v = .error .valueError) := by
    rintro c m hb rfl
    rcases hv with hv | hv
    · left
      refine ⟨?_, .cont c v m, ?_, ?_⟩
      · rintro ⟨c', m', d, u, n, _, rfl, _⟩; exact hv
      · simp only [construct_plain hv]; exact (classInit_box hb ho hv).1
      · unfold Wrapped; rw [hb]; exact ⟨v, rfl, .inl ⟨rfl, hv⟩⟩
    · cases hv with
      | @mk d u n hp hn _ _ _ =>
        obtain ⟨h1, h2⟩ := classInit_box hb ho hp
        have hcall : construct c (.cont d u n) m =
            if isEquivalent (.cont d u n) (.cont c u m) then .ok (.cont c u m) else .error .valueError := by
          rw [construct, h1]
        have heqv : isEquivalent (.cont d u n) (.cont c u m) = (decide (d = c) && mdEq n m) := rfl
        show (¬WrapRefused k (.cont d u n) ∧ ∃ x, construct c (.cont d u n) m = .ok x ∧ Wrapped k (.cont d u n) x) ∨
          (WrapRefused k (.cont d u n) ∧ construct c (.cont d u n) m = .error .valueError)
        rw [hcall, heqv]
        by_cases he : d = c ∧ MdSame n m
        · left
          obtain ⟨rfl, hs⟩ := he
          refine ⟨?_, .cont d u m, ?_, ?_⟩
          · rintro ⟨c', m', d', u', n', hb', e, hne⟩
            rw [hb] at hb'; cases hb'; cases e
            exact hne ⟨rfl, hs⟩
          · rw [if_pos]
            simp [(mdEq_iff hn h2).2 hs]
          · unfold Wrapped; rw [hb]; exact ⟨u, rfl, .inr ⟨n, rfl, hs⟩⟩
        · right
          refine ⟨⟨c, m, d, u, n, hb, rfl, he⟩, ?_⟩
          rw [if_neg]
          simp only [Bool.and_eq_true, decide_eq_true_eq]
          rintro ⟨h3, h4⟩
          exact he ⟨h3, (mdEq_iff hn h2).1 h4⟩
  cases k with
  | plain => cases hf
  | node => cases hf; exact key _ _ rfl rfl
  | static => cases hf; exact key _ _ rfl rfl
  | var vt sh => cases hf; exact key _ _ rfl rfl

omit [DecidableEq α] in
theorem wrapped_plain {k : FieldKind α} (hk : k.box = none) {v : PyVal α} : Wrapped k v v ∧ ¬WrapRefused k v := by
  constructor
  · unfold Wrapped; rw [hk]
  · rintro ⟨c, m, _, _, _, hb, _⟩; rw [hk] at hb; cases hb

/-! ### Pytrees -/

/-- If a field's declaration refuses its value, the loop over the fields fails. -/
theorem wrapFields_refused : ∀ {fs : List (PField α)} {vars : Md α}, (fs.map (·.name)).Nodup → (∀ f ∈ fs, f.kind.Ok) →
    (∀ f ∈ fs, ∃ v, dget vars f.name = some v ∧ GoodField v) →
    (∃ f ∈ fs, ∃ v, dget vars f.name = some v ∧ WrapRefused f.kind v) → wrapFields fs vars = .error .valueError
  | [], _, _, _, _, h => by obtain ⟨f, hf, _⟩ := h; cases hf
  | f :: fs, vars, hn, ho, hg, h => by
    simp only [List.map_cons, List.nodup_cons] at hn
    have hne : ∀ g ∈ fs, f.name ≠ g.name := fun g hg e => hn.1 (e ▸ List.mem_map.2 ⟨g, hg, rfl⟩)
    obtain ⟨v, hv, hvg⟩ := hg f (by simp)
    rw [wrapFields]
    cases hc : f.kind.containerFn with
    | none =>
      simp only
      apply wrapFields_refused hn.2 (fun g hg => ho g (List.mem_cons_of_mem _ hg)) (fun g hg' => hg g (List.mem_cons_of_mem _ hg'))
      obtain ⟨g, hg', u, hu, hr⟩ := h
      rcases List.mem_cons.1 hg' with rfl | hg'
      · exact absurd hr (wrapped_plain (box_none.1 hc)).2
      · exact ⟨g, hg', u, hu, hr⟩
    | some fn =>
      simp only [hv]
      rcases containerFn_cases (ho f (by simp)) hc hvg with ⟨hnr, x, hx, _⟩ | ⟨_, hx⟩
      · simp only [hx]
        have hother : ∀ g ∈ fs, dget (dset vars f.name x) g.name = dget vars g.name := fun g hg => dget_dset_ne _ _ (hne g hg)
        apply wrapFields_refused hn.2 (fun g hg => ho g (List.mem_cons_of_mem _ hg))
          (fun g hg' => by rw [hother g hg']; exact hg g (List.mem_cons_of_mem _ hg'))
        obtain ⟨g, hg', u, hu, hr⟩ := h
        rcases List.mem_cons.1 hg' with rfl | hg'
        · rw [hv] at hu; cases hu; exact absurd hr hnr
        · exact ⟨g, hg', u, by rw [hother g hg']; exact hu, hr⟩
      · simp only [hx]

omit [DecidableEq α] in
theorem dataclassSteps_given {kw : Md α} : ∀ {fs : List (PField α)},
    (∃ vs, dataclassSteps kw fs = .ok vs ∧ vs.map (·.1) = fs.map (·.name) ∧
      (∀ f ∈ fs, ∃ v, (f.name, v) ∈ vs ∧ f.Given kw v) ∧ (∀ kv ∈ vs, ∃ f ∈ fs, f.name = kv.1 ∧ f.Given kw kv.2)) ∨
    (dataclassSteps kw fs = .error .typeError ∧ ∃ f ∈ fs, ∀ v, ¬f.Given kw v)
  | [] => .inl ⟨[], rfl, rfl, fun _ h => absurd h List.not_mem_nil, fun _ h => absurd h List.not_mem_nil⟩
  | f :: fs => by
    rw [dataclassSteps]
    cases hf : (dget kw f.name).orElse (fun _ => f.default) with
    | none =>
      right
      refine ⟨rfl, f, by simp, ?_⟩
      rintro v (h | ⟨h1, h2⟩)
      · rw [h] at hf; cases hf
      · rw [h1, h2] at hf; cases hf
    | some v =>
      have hg : f.Given kw v := by
        cases hk : dget kw f.name with
        | some w => rw [hk] at hf; cases hf; exact .inl hk
        | none => rw [hk] at hf; exact .inr ⟨hk, hf⟩
      simp only
      rcases dataclassSteps_given (kw := kw) (fs := fs) with ⟨vs, h1, h2, h3, h4⟩ | ⟨h1, g, hg', h2⟩
      · left
        rw [h1]
        refine ⟨_, rfl, by simp [h2], ?_, ?_⟩
        · intro g hg'
          rcases List.mem_cons.1 hg' with rfl | hg'
          · exact ⟨v, by simp, hg⟩
          · obtain ⟨u, hu, hu'⟩ := h3 g hg'
            exact ⟨u, by simp [hu], hu'⟩
        · intro kv hkv
          rcases List.mem_cons.1 hkv with rfl | hkv
          · exact ⟨f, by simp, rfl, hg⟩
          · obtain ⟨g, hg', e⟩ := h4 kv hkv
            exact ⟨g, List.mem_cons_of_mem _ hg', e⟩
      · right
        rw [h1]
        exact ⟨rfl, g, List.mem_cons_of_mem _ hg', h2⟩

omit [DecidableEq α] in
theorem PField.Given.unique {f : PField α} {kw : Md α} {v w : PyVal α} (h1 : f.Given kw v) (h2 : f.Given kw w) : v = w := by
  rcases h1 with h1 | ⟨h1, h1'⟩ <;> rcases h2 with h2 | ⟨h2, h2'⟩
  · rw [h1] at h2; cases h2; rfl
  · rw [h1] at h2; cases h2
  · rw [h1] at h2; cases h2
  · rw [h1'] at h2'; cases h2'; rfl

/-- **C69**, Pytree dataclasses. For every class declaration (distinct field names, none reserved) and every constructor
call that names declared fields only and gives each field a value (explicitly or by default): if no value is a container
other than the declared one, the constructor succeeds, the object has exactly the declared fields, and each one holds
its value in the declared container, or as given if the field is declared without one. If some value is a container of
another class or with other metadata than declared, it is a ValueError. -/
theorem C69_fields {i : PInfo α} {fs : List (PField α)} {fr : Bool} (hi : i.dataclass = some (fs, fr)) {kw : Md α}
    (hn : (fs.map (·.name)).Nodup) (hres : ∀ f ∈ fs, ¬ReservedPy f.name) (ho : ∀ f ∈ fs, f.kind.Ok)
    (hkw : ∀ k ∈ dkeys kw, k ∈ fs.map (·.name)) (hgiven : ∀ f ∈ fs, ∃ v, f.Given kw v ∧ GoodField v) :
    ((∀ f ∈ fs, ∀ v, f.Given kw v → ¬WrapRefused f.kind v) →
      ∃ vars, callDataclass i fs kw = .ok vars ∧ WFPytree vars ∧
        (∀ k, k ∈ dkeys vars ↔ k = kSorted ∨ k ∈ fs.map (·.name)) ∧
        ∀ f ∈ fs, ∀ v, f.Given kw v → ∃ x, dget vars f.name = some x ∧ Wrapped f.kind v x) ∧
    ((∃ f ∈ fs, ∃ v, f.Given kw v ∧ WrapRefused f.kind v) → callDataclass i fs kw = .error .valueError) := by
  have hany : kw.any (fun kv => !(fs.map (·.name)).contains kv.1) = false := by
    rw [List.any_eq_false]
    intro kv hkv
    have : kv.1 ∈ fs.map (·.name) := hkw _ (List.mem_map.2 ⟨kv, hkv, rfl⟩)
    simp only [List.contains_iff_mem.2 this, Bool.not_true, Bool.false_eq_true, not_false_eq_true]
  rcases dataclassSteps_given (kw := kw) (fs := fs) with ⟨vs, hvs, hnames, hv1, hv2⟩ | ⟨_, f, hf, h⟩
  · have hcall : callDataclass i fs kw = callVars i vs := by
      unfold callDataclass
      rw [hany, hvs]; rfl
    have hnd : (vs.map (·.1)).Nodup := by rw [hnames]; exact hn
    have hgood : ∀ s ∈ vs, GoodField s.2 := by
      intro s hs
      obtain ⟨f, hf, _, hg⟩ := hv2 s hs
      obtain ⟨v, hv, hvg⟩ := hgiven f hf
      rw [hg.unique hv]; exact hvg
    have hresv : ∀ k ∈ dkeys vs, ¬ReservedPy k := by
      intro k hk
      obtain ⟨f, hf, rfl⟩ := List.mem_map.1 (hnames ▸ hk : k ∈ fs.map (·.name))
      exact hres f hf
    have hvget : ∀ f ∈ fs, ∀ v, f.Given kw v → dget vs f.name = some v := by
      intro f hf v hv
      obtain ⟨u, hu, hu'⟩ := hv1 f hf
      rw [hv.unique hu']
      exact mem_dget hnd hu
    -- the state before the fields are wrapped
    obtain ⟨h0n, h0k, _⟩ := init0_facts (α := α)
    have hmid : ∃ mid : Md α, callVars i vs = (match wrapFields fs mid with
        | .error e => .error e
        | .ok vars => .ok (dset vars kSorted (sortedNames vars))) ∧
        ∀ f ∈ fs, ∀ v, f.Given kw v → dget mid f.name = some v := by
      unfold callVars
      generalize (dset (dset [(kSorted, .tup [.str kSorted])] kMutable .none) kInit .none : Md α) = v0 at h0n h0k
      have hdisj : ∀ k ∈ dkeys vs, k ∉ dkeys v0 := fun k hk hk' => hresv k hk ((h0k k).1 hk')
      rw [runInit_fresh ((h0k _).2 (.inr (.inr rfl))) hnd hdisj hgood]
      simp only [hi, Option.elim_some]
      refine ⟨_, rfl, ?_⟩
      intro f hf v hv
      have hk3 := hres f hf
      unfold ReservedPy at hk3
      simp only [not_or] at hk3
      have hnd1 : DNodup (v0 ++ vs) := by
        unfold DNodup dkeys
        rw [List.map_append, List.nodup_append]
        refine ⟨h0n, hnd, ?_⟩
        rintro a ha b hb rfl
        exact hdisj _ hb ha
      rw [dget_ddel (dnodup_ddel hnd1 _), dget_ddel hnd1]
      simp only [Ne.symm hk3.2.1, Ne.symm hk3.2.2, if_false]
      apply mem_dget hnd1
      rw [List.mem_append]
      exact .inr (dget_mem (hvget f hf v hv))
    obtain ⟨mid, hmid, hmidget⟩ := hmid
    constructor
    · intro hok
      obtain ⟨vars, e, _, hpl, hbx⟩ := wrapFields_spec (vars := mid) hn (by
        intro f hf fn hfn
        obtain ⟨v, hv, hvg⟩ := hgiven f hf
        rcases containerFn_cases (ho f hf) hfn hvg with ⟨_, x, hx, _⟩ | ⟨hr, _⟩
        · exact ⟨v, x, hmidget f hf v hv, hx⟩
        · exact absurd hr (hok f hf v hv))
      rw [hcall]
      have heq : callVars i vs = .ok (dset vars kSorted (sortedNames vars)) := by rw [hmid, e]
      refine ⟨_, heq, callVars_wf hgood heq, ?_, ?_⟩
      · intro k
        rw [(callVars_keys heq).2.1 k, hnames]
        constructor
        · rintro (h | ⟨h, _⟩)
          · exact .inl h
          · exact .inr h
        · rintro (h | h)
          · exact .inl h
          · obtain ⟨f, hf, rfl⟩ := List.mem_map.1 h
            have hk3 := hres f hf
            unfold ReservedPy at hk3
            simp only [not_or] at hk3
            exact .inr ⟨h, hk3.2.2, hk3.2.1⟩
      · intro f hf v hv
        have hk3 := hres f hf
        unfold ReservedPy at hk3
        simp only [not_or] at hk3
        rw [dget_dset_ne _ _ (Ne.symm hk3.1)]
        cases hc : f.kind.containerFn with
        | none =>
          refine ⟨v, ?_, (wrapped_plain (box_none.1 hc)).1⟩
          rw [hpl f hf hc, hmidget f hf v hv]
        | some fn =>
          obtain ⟨u, hu, hug⟩ := hgiven f hf
          have := hu.unique hv; subst this
          rcases containerFn_cases (ho f hf) hc hug with ⟨_, x, hx, hw⟩ | ⟨hr, _⟩
          · exact ⟨x, hbx f hf fn u x hc (hmidget f hf u hv) hx, hw⟩
          · exact absurd hr (hok f hf u hv)
    · rintro ⟨f, hf, v, hv, hr⟩
      rw [hcall, hmid, wrapFields_refused hn ho (fun g hg => by
          obtain ⟨u, hu, hug⟩ := hgiven g hg
          exact ⟨u, hmidget g hg u hu, hug⟩) ⟨f, hf, v, hmidget f hf v hv, hr⟩]
  · obtain ⟨v, hv, _⟩ := hgiven f hf
    exact absurd hv (h v)

/-- **C69**, wrong calls: an argument that is no field, or a field without value, is a TypeError. -/
theorem C69_wrong_call {i : PInfo α} {fs : List (PField α)} {kw : Md α}
    (h : (∃ k ∈ dkeys kw, k ∉ fs.map (·.name)) ∨ ∃ f ∈ fs, ∀ v, ¬f.Given kw v) :
    callDataclass i fs kw = .error .typeError := by
  unfold callDataclass
  by_cases hany : kw.any (fun kv => !(fs.map (·.name)).contains kv.1) = true
  · rw [if_pos hany]
  · rw [if_neg hany]
    rcases h with ⟨k, hk, hk'⟩ | ⟨f, hf, hf'⟩
    · exfalso
      apply hany
      rw [List.any_eq_true]
      obtain ⟨kv, hkv, rfl⟩ := List.mem_map.1 hk
      exact ⟨kv, hkv, by simpa using hk'⟩
    · rcases dataclassSteps_given (kw := kw) (fs := fs) with ⟨vs, _, _, hv1, _⟩ | ⟨h1, _⟩
      · obtain ⟨v, _, hv⟩ := hv1 f hf
        exact absurd hv (hf' v)
      · rw [h1]

/-! ### Modules -/

omit [DecidableEq α] in
theorem MField.Given.unique {f : MField α} {kw : Dict Str (Attr α)} {v w : Attr α} (h1 : f.Given kw v) (h2 : f.Given kw w) :
    v = w := by
  rcases h1 with h1 | ⟨h1, h1'⟩ <;> rcases h2 with h2 | ⟨h2, h2'⟩
  · rw [h1] at h2; cases h2; rfl
  · rw [h1] at h2; cases h2
  · rw [h1] at h2; cases h2
  · rw [h1'] at h2'; cases h2'; rfl

omit [DecidableEq α] in
theorem moduleSteps_given {kw : Dict Str (Attr α)} : ∀ {fs : List (MField α)},
    (∃ vs, moduleSteps kw fs = .ok vs ∧ vs.map (·.1) = fs.map (·.name) ∧
      (∀ f ∈ fs, ∃ v, (f.name, v) ∈ vs ∧ f.Given kw v) ∧ (∀ kv ∈ vs, ∃ f ∈ fs, f.name = kv.1 ∧ f.Given kw kv.2)) ∨
    (moduleSteps kw fs = .error .typeError ∧ ∃ f ∈ fs, ∀ v, ¬f.Given kw v)
  | [] => .inl ⟨[], rfl, rfl, fun _ h => absurd h List.not_mem_nil, fun _ h => absurd h List.not_mem_nil⟩
  | f :: fs => by
    rw [moduleSteps]
    cases hf : (dget kw f.name).orElse (fun _ => f.default) with
    | none =>
      right
      refine ⟨rfl, f, by simp, ?_⟩
      rintro v (h | ⟨h1, h2⟩)
      · rw [h] at hf; cases hf
      · rw [h1, h2] at hf; cases hf
    | some v =>
      have hg : f.Given kw v := by
        cases hk : dget kw f.name with
        | some w => rw [hk] at hf; cases hf; exact .inl hk
        | none => rw [hk] at hf; exact .inr ⟨hk, hf⟩
      simp only
      rcases moduleSteps_given (kw := kw) (fs := fs) with ⟨vs, h1, h2, h3, h4⟩ | ⟨h1, g, hg', h2⟩
      · left
        rw [h1]
        refine ⟨_, rfl, by simp [h2], ?_, ?_⟩
        · intro g hg'
          rcases List.mem_cons.1 hg' with rfl | hg'
          · exact ⟨v, by simp, hg⟩
          · obtain ⟨u, hu, hu'⟩ := h3 g hg'
            exact ⟨u, by simp [hu], hu'⟩
        · intro kv hkv
          rcases List.mem_cons.1 hkv with rfl | hkv
          · exact ⟨f, by simp, rfl, hg⟩
          · obtain ⟨g, hg', e⟩ := h4 kv hkv
            exact ⟨g, List.mem_cons_of_mem _ hg', e⟩
      · right
        rw [h1]
        exact ⟨rfl, g, List.mem_cons_of_mem _ hg', h2⟩

omit [DecidableEq α] in
theorem varsGet_attr {h : Heap α} {l : Loc} {o : ModObj α} (hl : h[l]? = some o) {k : Str} {a : Attr α}
    (hk : dget o.attrs k = some a) : varsGet h l k = .ok a := by
  simp [varsGet, hl, hk]

omit [DecidableEq α] in
theorem dkeys_dset_of_mem {K V : Type} [DecidableEq K] {d : Dict K V} {k : K} (h : k ∈ dkeys d) (v : V) :
    dkeys (dset d k v) = dkeys d := by
  induction d with
  | nil => simp [dkeys] at h
  | cons kv d ih =>
    obtain ⟨k', v'⟩ := kv
    rw [dset]
    split
    · next e => subst e; rfl
    · next e =>
      simp only [dkeys, List.map_cons, List.mem_cons] at h ih ⊢
      rcases h with h | h
      · exact absurd h.symm e
      · rw [ih h]

/-- The loop over the fields of a dataclass Module. -/
theorem wrapModuleFields_spec {l : Loc} : ∀ {fs : List (MField α)} {w : World α} {o : ModObj α}, w.heap[l]? = some o →
    (fs.map (·.name)).Nodup → (∀ f ∈ fs, f.kind.Ok) →
    (∀ f ∈ fs, ∃ a, dget o.attrs f.name = some a ∧ GoodAttr a ∧ (f.kind.box ≠ none → ∃ v, a = .val v)) →
    (∃ attrs', wrapModuleFields l fs w = (w.setAttrs l o attrs', none) ∧ dkeys attrs' = dkeys o.attrs ∧
      (∀ k, k ∉ fs.map (·.name) → dget attrs' k = dget o.attrs k) ∧
      (∀ f ∈ fs, ∀ v, dget o.attrs f.name = some (.val v) → ¬WrapRefused f.kind v) ∧
      ∀ f ∈ fs, ∀ a, dget o.attrs f.name = some a → ∃ b, dget attrs' f.name = some b ∧ AttrWrapped f.kind a b) ∨
    ((∃ f ∈ fs, ∃ v, dget o.attrs f.name = some (.val v) ∧ WrapRefused f.kind v) ∧
      ∃ w', wrapModuleFields l fs w = (w', some .valueError))
  | [], w, o, hl, _, _, _ => by
    left
    refine ⟨o.attrs, ?_, rfl, fun _ _ => rfl, fun _ h => absurd h List.not_mem_nil, fun _ h => absurd h List.not_mem_nil⟩
    obtain ⟨hlt, rfl⟩ := List.getElem?_eq_some_iff.1 hl
    have : w.heap.set l { w.heap[l] with attrs := w.heap[l].attrs } = w.heap := List.set_getElem_self hlt
    rw [wrapModuleFields, World.setAttrs, this]
  | f :: fs, w, o, hl, hn, ho, hg => by
    simp only [List.map_cons, List.nodup_cons] at hn
    have hne : ∀ g ∈ fs, f.name ≠ g.name := fun g hg e => hn.1 (e ▸ List.mem_map.2 ⟨g, hg, rfl⟩)
    obtain ⟨a, ha, hag, hav⟩ := hg f (by simp)
    have ho' : ∀ g ∈ fs, g.kind.Ok := fun g hg => ho g (List.mem_cons_of_mem _ hg)
    rw [wrapModuleFields]
    cases hc : f.kind.containerFn with
    | none =>
      have hb := box_none.1 hc
      rcases wrapModuleFields_spec hl hn.2 ho' (fun g hg' => hg g (List.mem_cons_of_mem _ hg')) with
        ⟨attrs', e, h1, h2, h3, h4⟩ | ⟨⟨g, hg', u, hu, hr⟩, w', e⟩
      · left
        refine ⟨attrs', e, h1, fun k hk => h2 k (fun h => hk (List.mem_cons_of_mem _ h)), ?_, ?_⟩
        · intro g hg' v hv
          rcases List.mem_cons.1 hg' with rfl | hg'
          · exact (wrapped_plain hb).2
          · exact h3 g hg' v hv
        · intro g hg' b hb'
          rcases List.mem_cons.1 hg' with rfl | hg'
          · exact ⟨b, by rw [h2 _ hn.1]; exact hb', .inl ⟨hb, rfl⟩⟩
          · exact h4 g hg' b hb'
      · right
        exact ⟨⟨g, List.mem_cons_of_mem _ hg', u, hu, hr⟩, w', e⟩
    | some fn =>
      have hbn : f.kind.box ≠ none := fun h => by rw [box_none.2 h] at hc; cases hc
      obtain ⟨v, rfl⟩ := hav hbn
      simp only [varsGet_attr hl ha, hl]
      rcases containerFn_cases (ho f (by simp)) hc hag with ⟨hnr, x, hx, hw⟩ | ⟨hr, hx⟩
      · simp only [hx]
        have hlt : l < w.heap.length := (List.getElem?_eq_some_iff.1 hl).1
        have hl' : (w.setAttrs l o (dset o.attrs f.name (.val x))).heap[l]? =
            some { o with attrs := dset o.attrs f.name (.val x) } := by simp [World.setAttrs, hlt]
        have hother : ∀ k, f.name ≠ k → dget (dset o.attrs f.name (.val x)) k = dget o.attrs k := fun k hk => dget_dset_ne _ _ hk
        rcases wrapModuleFields_spec hl' hn.2 ho' (fun g hg' => by
            simp only [hother _ (hne g hg')]
            exact hg g (List.mem_cons_of_mem _ hg')) with
          ⟨attrs', e, h1, h2, h3, h4⟩ | ⟨⟨g, hg', u, hu, hr⟩, w', e⟩
        · left
          refine ⟨attrs', ?_, ?_, ?_, ?_, ?_⟩
          · rw [e]; simp [World.setAttrs]
          · rw [h1]
            exact dkeys_dset_of_mem (dget_isSome.1 (by rw [ha]; rfl)) _
          · intro k hk
            simp only [List.map_cons, List.mem_cons, not_or] at hk
            rw [h2 k hk.2]
            exact hother k (Ne.symm hk.1)
          · intro g hg' u hu
            rcases List.mem_cons.1 hg' with rfl | hg'
            · rw [ha] at hu; cases hu; exact hnr
            · exact h3 g hg' u (by simp only [hother _ (hne g hg')]; exact hu)
          · intro g hg' b hb
            rcases List.mem_cons.1 hg' with rfl | hg'
            · rw [ha] at hb; cases hb
              exact ⟨.val x, by rw [h2 _ hn.1]; exact dget_dset_self _ _ _, .inr ⟨v, x, rfl, rfl, hw⟩⟩
            · exact h4 g hg' b (by simp only [hother _ (hne g hg')]; exact hb)
        · right
          simp only [hother _ (hne g hg')] at hu
          exact ⟨⟨g, List.mem_cons_of_mem _ hg', u, hu, hr⟩, w', e⟩
      · right
        simp only [hx]
        exact ⟨⟨f, by simp, v, ha, hr⟩, w, rfl⟩

/-- **C69**, Module dataclasses: the same for Modules. The new Module is a new object; its attributes are exactly the
declared fields, in the order of declaration; every other object is what it was. A field that is declared without a
container may hold a Module. -/
theorem C69_module_fields {c : Cls} {fs : List (MField α)} {kw : Dict Str (Attr α)} (w : World α)
    (hn : (fs.map (·.name)).Nodup) (hres : ∀ f ∈ fs, f.name ≠ py! "_module__state") (ho : ∀ f ∈ fs, f.kind.Ok)
    (hkw : ∀ k ∈ dkeys kw, k ∈ fs.map (·.name))
    (hgiven : ∀ f ∈ fs, ∃ a, f.Given kw a ∧ GoodAttr a ∧ (f.kind.box ≠ none → ∃ v, a = .val v)) :
    ((∀ f ∈ fs, ∀ v, f.Given kw (.val v) → ¬WrapRefused f.kind v) →
      ∃ w' l attrs, dataclassModule c fs kw w = (w', .ok l) ∧ l = w.heap.length ∧
        w'.heap = w.heap ++ [⟨c, attrs, w.nextId + 1, false, w.curTrace⟩] ∧ dkeys attrs = fs.map (·.name) ∧
        ∀ f ∈ fs, ∀ a, f.Given kw a → ∃ b, dget attrs f.name = some b ∧ AttrWrapped f.kind a b) ∧
    ((∃ f ∈ fs, ∃ v, f.Given kw (.val v) ∧ WrapRefused f.kind v) →
      ∃ w', dataclassModule c fs kw w = (w', .error .valueError)) := by
  have hany : kw.any (fun kv => !(fs.map (·.name)).contains kv.1) = false := by
    rw [List.any_eq_false]
    intro kv hkv
    have : kv.1 ∈ fs.map (·.name) := hkw _ (List.mem_map.2 ⟨kv, hkv, rfl⟩)
    simp only [List.contains_iff_mem.2 this, Bool.not_true, Bool.false_eq_true, not_false_eq_true]
  rcases moduleSteps_given (kw := kw) (fs := fs) with ⟨vs, hvs, hnames, hv1, hv2⟩ | ⟨_, f, hf, h⟩
  · have hnd : DNodup vs := by rw [DNodup, dkeys, hnames]; exact hn
    have hgood : ∀ s ∈ vs, s.1 ≠ py! "_module__state" ∧ GoodAttr s.2 := by
      intro s hs
      obtain ⟨f, hf, e, hg⟩ := hv2 s hs
      obtain ⟨v, hv, hvg, _⟩ := hgiven f hf
      rw [hg.unique hv]; exact ⟨e ▸ hres f hf, hvg⟩
    have hvget : ∀ f ∈ fs, ∀ v, f.Given kw v → dget vs f.name = some v := by
      intro f hf v hv
      obtain ⟨u, hu, hu'⟩ := hv1 f hf
      rw [hv.unique hu']
      exact mem_dget hnd hu
    have hgget : ∀ f ∈ fs, ∀ v, dget vs f.name = some v → f.Given kw v := by
      intro f hf v hv
      obtain ⟨u, hu, hu'⟩ := hv1 f hf
      have := mem_dget hnd hu
      rw [hv] at this; cases this
      exact hu'
    generalize hw1 : ({ (newModule c w).1 with heap := w.heap ++ [⟨c, vs, w.nextId + 1, false, w.curTrace⟩] } : World α) = w1
    have hl1 : w1.heap[w.heap.length]? = some ⟨c, vs, w.nextId + 1, false, w.curTrace⟩ := by rw [← hw1]; simp
    have hset := new_setAttrAll c w hnd hgood
    rw [hw1] at hset
    have hspec := wrapModuleFields_spec hl1 hn ho (fun f hf => by
      obtain ⟨a, ha, h1, h2⟩ := hgiven f hf
      exact ⟨a, hvget f hf a ha, h1, h2⟩)
    have hcall : dataclassModule c fs kw w = (match wrapModuleFields w.heap.length fs w1 with
        | (w, some e) => (w, .error e)
        | (w, none) => (w, .ok w.heap.length)) ∨ True := .inr trivial
    clear hcall
    have hcall : ∀ w2 r, wrapModuleFields w.heap.length fs w1 = (w2, r) →
        dataclassModule c fs kw w = (w2, match r with | some e => .error e | none => .ok w.heap.length) := by
      intro w2 r hr
      unfold dataclassModule
      have e1 : (newModule c w).2 = w.heap.length := rfl
      simp only [hany, Bool.false_eq_true, if_false, hvs, hset]
      rw [e1, hr]
      cases r <;> rfl
    constructor
    · intro hok
      rcases hspec with ⟨attrs', e, h1, _, _, h4⟩ | ⟨⟨f, hf, v, hv, hr⟩, _⟩
      · refine ⟨_, _, attrs', hcall _ _ e, rfl, ?_, ?_, ?_⟩
        · rw [← hw1]
          simp only [World.setAttrs]
          rw [List.set_append_right _ _ (by omega)]
          simp
        · rw [h1]; exact hnames
        · intro f hf a ha
          exact h4 f hf a (hvget f hf a ha)
      · exact absurd hr (hok f hf v (hgget f hf _ hv))
    · rintro ⟨f, hf, v, hv, hr⟩
      rcases hspec with ⟨_, _, _, _, h3, _⟩ | ⟨_, w', e⟩
      · exact absurd hr (h3 f hf v (hvget f hf _ hv))
      · exact ⟨w', hcall _ _ e⟩
  · obtain ⟨v, hv, _⟩ := hgiven f hf
    exact absurd hv (h v)

/-! ### A concrete case -/

/-- `class Foo: a: Any = field(); b: Any = param_field(); c: Any = static_field(default=3)` -/
def exDecl : List (PField Nat) :=
  [⟨py! "a", .plain, none⟩, ⟨py! "b", .var cParam .none, none⟩, ⟨py! "c", .static, some (.data cInt 3)⟩]

/-- The hypotheses of C69_fields hold of the call `Foo(a=1, b=2)`. -/
example : let kw : Md Nat := [(py! "a", .data cInt 1), (py! "b", .data cInt 2)]
    (exDecl.map (·.name)).Nodup ∧ (∀ f ∈ exDecl, ¬ReservedPy f.name) ∧ (∀ f ∈ exDecl, f.kind.Ok) ∧
    (∀ k ∈ dkeys kw, k ∈ exDecl.map (·.name)) ∧ (∀ f ∈ exDecl, ∃ v, f.Given kw v ∧ GoodField v) ∧
    (∀ f ∈ exDecl, ∀ v, f.Given kw v → ¬WrapRefused f.kind v) := by
  refine ⟨by decide, ?_, ?_, by decide, ?_, ?_⟩
  · intro f hf
    simp only [exDecl, List.mem_cons, List.not_mem_nil, or_false] at hf
    rcases hf with rfl | rfl | rfl <;> (unfold ReservedPy; decide)
  · intro f hf
    simp only [exDecl, List.mem_cons, List.not_mem_nil, or_false] at hf
    rcases hf with rfl | rfl | rfl
    · trivial
    · exact (by decide : cParam.isSub cStatic = false)
    · trivial
  · intro f hf
    simp only [exDecl, List.mem_cons, List.not_mem_nil, or_false] at hf
    rcases hf with rfl | rfl | rfl
    · exact ⟨_, .inl rfl, .inl trivial⟩
    · exact ⟨_, .inl rfl, .inl trivial⟩
    · exact ⟨_, .inr ⟨rfl, rfl⟩, .inl trivial⟩
  · intro f hf v hv
    simp only [exDecl, List.mem_cons, List.not_mem_nil, or_false] at hf
    rintro ⟨_, _, _, _, _, _, rfl, _⟩
    rcases hf with rfl | rfl | rfl <;> rcases hv with hv | ⟨hv, hv'⟩ <;> first | (cases hv; done) | cases hv'

/-- The object it makes. -/
example : (callDataclass ⟨false, some (exDecl, false)⟩ exDecl [(py! "a", .data cInt 1), (py! "b", .data cInt 2)]).toOption.map
    (fun vars => (dget vars (py! "a"), dget vars (py! "b"), dget vars (py! "c"))) =
    some (some (.data cInt 1), some (.cont cParam (.data cInt 2) [(py! "sharding", .none)]), some (.cont cStatic (.data cInt 3) [])) := by
  decide +kernel

/-- Giving the Param field a Static is a ValueError. -/
example : (callDataclass ⟨false, some (exDecl, false)⟩ exDecl
    [(py! "a", .data cInt 1), (py! "b", .cont cStatic (.data cInt 2) [])]).toOption = none := by
  decide +kernel

end Nnx
