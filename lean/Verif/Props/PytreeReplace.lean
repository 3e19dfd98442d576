import Verif.Props.PytreeAssign
/-
C42: `Pytree.replace` is non-destructive and exact.
-/
namespace Nnx
variable {α : Type} [DecidableEq α]

/-- `x` is what field `k` holds after the replacements `kw`. -/
def ReplacedAt (vars kw vars' : Md α) (k : Str) : Prop :=
  match dget kw k with
  | none => dget vars' k = dget vars k
  | some v => ∃ x, Stored (dget vars k) v x ∧ dget vars' k = some x

/-- The loop of `replace` with known names: it stores every value, or fails at a refused one. -/
theorem hSetattrs_stored {env : PEnv α} {h : PHeap α} {c : Cls} (hd : (env c).dataclass = none) :
    ∀ {kw vars : Md α}, DNodup kw → (∀ k v, dget kw k = some v → GoodField v) → (∀ k ∈ dkeys kw, k ∈ dkeys vars) →
      DNodup vars → kMutable ∈ dkeys vars → (∀ k v, dget vars k = some v → GoodField v) →
      (∃ vars', hSetattrs env h.length kw (h ++ [(c, vars)]) = (h ++ [(c, vars')], none) ∧ DNodup vars' ∧
        (∀ k, k ∈ dkeys vars' ↔ k ∈ dkeys vars) ∧ (∀ k v, dget vars' k = some v → GoodField v) ∧
        (∀ k, ReplacedAt vars kw vars' k)) ∨
      (∃ vars' k v, hSetattrs env h.length kw (h ++ [(c, vars)]) = (h ++ [(c, vars')], some .valueError) ∧
        dget kw k = some v ∧ Refused (dget vars k) v)
  | [], vars, _, _, _, hn, _, hg => Or.inl ⟨vars, rfl, hn, fun _ => Iff.rfl, hg, fun _ => rfl⟩
  | (name, v) :: rest, vars, hnk, hgk, hin, hn, hm, hg => by
    have hset : (env c).setattr vars name v = setattrVars (env c).mutable vars name v := by
      unfold PInfo.setattr; rw [hd]
    simp only [hSetattrs, hSetattr_last, hset]
    have hv : GoodField v := hgk name v (by simp [dget])
    have hname : name ∈ dkeys vars := hin name (by simp [dkeys])
    rcases setattrVars_allowed (b := (env c).mutable) hv (hg name) (Or.inr ⟨hname, Or.inl hm⟩) with ⟨x, hx, hgx, he⟩ | ⟨hr, he⟩
    · rw [he]
      simp only
      have hkeys := mem_dkeys_dset_of_mem hname x
      simp only [DNodup, dkeys, List.map_cons, List.nodup_cons] at hnk
      have hrest : dget rest name = none := dget_eq_none.2 hnk.1
      rcases hSetattrs_stored hd (h := h) (kw := rest) (vars := dset vars name x) hnk.2
        (fun k w hk => hgk k w (by
          rw [dget]
          split
          · rename_i e; subst e; rw [hrest] at hk; cases hk
          · exact hk))
        (fun k hk => (hkeys k).2 (hin k (by
          simp only [dkeys, List.map_cons, List.mem_cons]; exact Or.inr hk)))
        (dnodup_dset hn _ _) ((hkeys _).2 hm)
        (fun k w hk => by
          rw [dget_dset] at hk
          split at hk
          · cases hk; exact hgx
          · exact hg k w hk) with ⟨vars', e, h1, h2, h3, h4⟩ | ⟨vars', k, w, e, hk, href⟩
      · left
        refine ⟨vars', e, h1, fun k => (h2 k).trans (hkeys k), h3, fun k => ?_⟩
        have := h4 k
        unfold ReplacedAt at this ⊢
        rw [dget]
        by_cases hk : name = k
        · subst hk
          rw [hrest] at this
          simp only [if_true]
          exact ⟨x, hx, by rw [this, dget_dset_self]⟩
        · simp only [hk, if_false]
          rw [dget_dset_ne _ _ hk] at this
          exact this
      · right
        have hne : name ≠ k := by rintro rfl; rw [hrest] at hk; cases hk
        refine ⟨vars', k, w, e, by rw [dget]; simp [hne, hk], ?_⟩
        rw [dget_dset_ne _ _ hne] at href
        exact href
    · right
      rw [he]
      exact ⟨vars, name, v, rfl, by simp [dget], hr⟩

/-- **C42**, non-destructive: whatever `replace` does and whether it fails or not, every existing object is what it was. -/
theorem C42_non_destructive {env : PEnv α} {l : Nat} {kw : Md α} {h : PHeap α} {c : Cls} {vars : Md α}
    (hl : h[l]? = some (c, vars)) (hs : Sealed vars) (l' : Nat) (hl' : l' < h.length) :
    (hReplace env l kw h).1[l']? = h[l']? := by
  rcases hReplace_heap (env := env) (kw := kw) hl hs with ⟨e, he⟩ | ⟨vars', r, he, _⟩
  · rw [he]
  · rw [he]; exact List.getElem?_append_left hl'

/-- **C42**, ordinary classes: `p.replace(**kw)` with known names returns a new object (at an address that was free) of the same
class with exactly the fields in `kw` replaced, which is again a proper and sealed Pytree object; the only failure is a refused container. -/
theorem C42_replace {env : PEnv α} {l : Nat} {kw : Md α} {h : PHeap α} {c : Cls} {vars : Md α} (hl : h[l]? = some (c, vars))
    (hw : WFPytree vars) (hd : (env c).dataclass = none) (hnk : DNodup kw) (hgk : ∀ k v, dget kw k = some v → GoodField v)
    (hin : ∀ k ∈ dkeys kw, k ∈ dkeys vars ∧ k ≠ kSorted) :
    (∃ vars', hReplace env l kw h = (h ++ [(c, vars')], .ok h.length) ∧ WFPytree vars' ∧ (∀ k, ReplacedAt vars kw vars' k)) ∨
    (∃ h' k v, hReplace env l kw h = (h', .error .valueError) ∧ dget kw k = some v ∧ Refused (dget vars k) v) := by
  have hn1 : DNodup (dset vars kMutable .none) := dnodup_dset hw.nodup _ _
  have hk1 : ∀ k, k ∈ dkeys (dset vars kMutable .none) ↔ k = kMutable ∨ k ∈ dkeys vars := mem_dkeys_dset _ _ _
  have hany : (kw.any (fun kv => !dhas vars kv.1) && !(env c).mutable) = false := by
    have : kw.any (fun kv => !dhas vars kv.1) = false := by
      rw [List.any_eq_false]
      intro kv hkv
      have := (hin kv.1 (List.mem_map.2 ⟨kv, hkv, rfl⟩)).1
      rw [dhas_iff.2 this]; simp
    rw [this]; rfl
  have hne : ∀ k ∈ dkeys kw, kMutable ≠ k := fun k hk e => hw.noMut (e ▸ (hin k hk).1)
  unfold hReplace
  rw [hl]
  simp only [hd, hany, Bool.false_eq_true, if_false, hModify_last]
  rcases hSetattrs_stored (env := env) (h := h) (c := c) hd hnk hgk (fun k hk => (hk1 k).2 (Or.inr (hin k hk).1)) hn1
    ((hk1 _).2 (Or.inl rfl)) (fun k v hk => by
      rw [dget_dset] at hk
      split at hk
      · cases hk; exact Or.inl trivial
      · exact hw.good k v hk) with ⟨v2, e, hn2, hk2, hg2, hr⟩ | ⟨v2, k, v, e, hk, href⟩
  · left
    rw [e]
    simp only [hModify_last]
    have hrep : ∀ k, ReplacedAt vars kw (ddel v2 kMutable) k := by
      intro k
      have hq := hr k
      unfold ReplacedAt at hq ⊢
      cases hkk : dget kw k with
      | none =>
        rw [hkk] at hq
        simp only at hq ⊢
        rw [dget_ddel hn2]
        split
        · rename_i e; subst e; rw [dget_eq_none.2 hw.noMut]
        · rename_i hne; rw [hq, dget_dset_ne _ _ hne]
      | some v =>
        rw [hkk] at hq
        simp only at hq ⊢
        have hne' := hne k (dget_isSome.1 (by rw [hkk]; rfl))
        rw [dget_dset_ne _ _ hne'] at hq
        rw [dget_ddel hn2, if_neg hne']
        exact hq
    have hkeys : ∀ k, k ∈ dkeys (ddel v2 kMutable) ↔ k ∈ dkeys vars := by
      intro k
      rw [mem_dkeys_ddel hn2, hk2, hk1]
      constructor
      · rintro ⟨a, b | b⟩
        · exact absurd b a
        · exact b
      · exact fun hk => ⟨fun e => hw.noMut (e ▸ hk), Or.inr hk⟩
    have hnd := dnodup_ddel hn2 kMutable
    refine ⟨_, rfl, ?_, hrep⟩
    refine { nodup := hnd, noInit := fun hk => hw.noInit ((hkeys _).1 hk), noMut := fun hk => hw.noMut ((hkeys _).1 hk), sorted := ?_,
             good := fun k v hk => ?_ }
    · have h1 := hrep kSorted
      have h2 : dget kw kSorted = none := dget_eq_none.2 (fun hk => (hin _ hk).2 rfl)
      unfold ReplacedAt at h1
      rw [h2] at h1
      simp only at h1
      rw [h1, hw.sorted]
      exact congrArg some (sortedNames_ext hw.nodup hnd (fun k => (hkeys k).symm))
    · rw [dget_ddel hn2] at hk
      split at hk
      · cases hk
      · exact hg2 k v hk
  · right
    rw [e]
    refine ⟨_, k, v, rfl, hk, ?_⟩
    have hne' := hne k (dget_isSome.1 (by rw [hk]; rfl))
    rw [dget_dset_ne _ _ hne'] at href
    exact href

/-- **C42**, unknown names: `replace` with a name that is not a field fails and creates nothing that the caller can see; for an
immutable class the error is ValueError. -/
theorem C42_unknown {env : PEnv α} {l : Nat} {kw : Md α} {h : PHeap α} {c : Cls} {vars : Md α} (hl : h[l]? = some (c, vars))
    (hs : Sealed vars) (hd : (env c).dataclass = none) {k : Str} (hk : k ∈ dkeys kw) (hu : k ∉ dkeys vars) (hkm : k ≠ kMutable) :
    ∃ h' e, hReplace env l kw h = (h', .error e) ∧ ((env c).mutable = false → e = .valueError ∧ h' = h) := by
  unfold hReplace
  rw [hl]
  simp only [hd]
  have hany : kw.any (fun kv => !dhas vars kv.1) = true := by
    rw [List.any_eq_true]
    obtain ⟨kv, hkv, rfl⟩ := List.mem_map.1 hk
    exact ⟨kv, hkv, by rw [dhas_false.2 hu]; rfl⟩
  cases hm : (env c).mutable with
  | false =>
    simp only [hany, Bool.not_false, Bool.and_self, if_true]
    exact ⟨h, _, rfl, fun _ => ⟨rfl, rfl⟩⟩
  | true =>
    simp only [hany, Bool.not_true, Bool.and_false, Bool.false_eq_true, if_false, hModify_last]
    have key : ∀ (kw vs : Md α), k ∈ dkeys kw → k ∉ dkeys vs → kInit ∉ dkeys vs →
        ∃ vs' e, hSetattrs env h.length kw (h ++ [(c, vs)]) = (h ++ [(c, vs')], some e) := by
      intro kw
      induction kw with
      | nil => intro vs h; simp [dkeys] at h
      | cons a rest ih =>
        obtain ⟨name, v⟩ := a
        intro vs hk hu hi
        simp only [hSetattrs, hSetattr_last]
        cases hset : (env c).setattr vs name v with
        | error e => exact ⟨vs, e, rfl⟩
        | ok vs1 =>
          obtain ⟨h1, _⟩ := setattr_ok hset
          obtain ⟨hmem, _⟩ := setattrVars_sealed hi h1
          obtain ⟨x, rfl⟩ := setattrVars_ok h1
          have hkeys := mem_dkeys_dset_of_mem hmem x
          simp only [dkeys, List.map_cons, List.mem_cons] at hk
          rcases hk with rfl | hk
          · exact absurd hmem hu
          · exact ih (dset vs name x) hk (fun hh => hu ((hkeys _).1 hh)) (fun hh => hi ((hkeys _).1 hh))
    obtain ⟨vs', e, he⟩ := key kw (dset vars kMutable .none) hk
      (by rw [mem_dkeys_dset]; rintro (h | h); exacts [hkm h, hu h])
      (by rw [mem_dkeys_dset]; rintro (h | h); exacts [kMut_ne_init h.symm, hs.noInit h])
    rw [he]
    exact ⟨_, e, rfl, fun h => by cases h⟩

/-- **C42 fails as stated** for mutable classes: an unknown name raises AttributeError, not ValueError. -/
theorem C42_mutable_unknown_attributeError :
    let env : PEnv Nat := fun _ => { mutable := true, dataclass := none }
    let h := PyOp.runAll env [] [.create cPytree [(py! "x", .none)]]
    (hReplace env 0 [(py! "y", .none)] h).2 = .error .attributeError := by decide

/-! ### Dataclasses -/

omit [DecidableEq α] in
theorem classInit_uniform {c : Cls} {v v' : PyVal α} {md m : Md α} (hv : v.Plain) (hv' : v'.Plain)
    (h : classInit c v md = .ok (.cont c v m)) : classInit c v' md = .ok (.cont c v' m) := by
  unfold classInit at h ⊢
  simp only [containerInit_plain hv, containerInit_plain hv'] at h ⊢
  split at h
  · cases h
  · rename_i h1
    simp only [h1, Bool.false_eq_true, if_false]
    split at h
    · rename_i h2
      simp only [h2, if_true]
      split at h
      · rename_i h3; cases h; simp [h3]
      · cases h
    · rename_i h2
      simp only [h2, Bool.false_eq_true, if_false]
      split at h
      · rename_i h3; cases h; simp [h3]
      · rename_i h3; cases h; simp [h3]

theorem containerFn_uniform {k : FieldKind α} {fn : PyVal α → Except Err (PyVal α)} (hf : k.containerFn = some fn) {c : Cls} {m : Md α}
    {v v' : PyVal α} (hv : v.Plain) (hv' : v'.Plain) (h : fn v = .ok (.cont c v m)) : fn v' = .ok (.cont c v' m) := by
  have key : ∀ (d : Cls) (md : Md α), construct d v md = .ok (.cont c v m) → construct d v' md = .ok (.cont c v' m) := by
    intro d md hq
    rw [construct_plain hv] at hq
    rw [construct_plain hv']
    have hd : d = c := by
      unfold classInit at hq
      simp only [containerInit_plain hv] at hq
      split at hq
      · cases hq
      · split at hq
        · split at hq
          · cases hq; rfl
          · cases hq
        · split at hq <;> (cases hq; rfl)
    subst hd
    exact classInit_uniform hv hv' hq
  cases k with
  | plain => cases hf
  | node => cases hf; exact key _ _ h
  | static => cases hf; exact key _ _ h
  | var vt sh => cases hf; exact key _ _ h

theorem wrapFields_spec : ∀ {fs : List (PField α)} {vars : Md α}, (fs.map (·.name)).Nodup →
    (∀ f ∈ fs, ∀ fn, f.kind.containerFn = some fn → ∃ v x, dget vars f.name = some v ∧ fn v = .ok x) →
    ∃ vars', wrapFields fs vars = .ok vars' ∧ (∀ k, k ∉ fs.map (·.name) → dget vars' k = dget vars k) ∧
      (∀ f ∈ fs, f.kind.containerFn = none → dget vars' f.name = dget vars f.name) ∧
      (∀ f ∈ fs, ∀ fn v x, f.kind.containerFn = some fn → dget vars f.name = some v → fn v = .ok x → dget vars' f.name = some x)
  | [], vars, _, _ => ⟨vars, rfl, fun _ _ => rfl, fun _ h => by simp at h, fun _ h => by simp at h⟩
  | f :: fs, vars, hn, h => by
    simp only [List.map_cons, List.nodup_cons] at hn
    obtain ⟨hf, hn⟩ := hn
    have hne : ∀ g ∈ fs, f.name ≠ g.name := fun g hg e => hf (e ▸ List.mem_map.2 ⟨g, hg, rfl⟩)
    cases hc : f.kind.containerFn with
    | none =>
      obtain ⟨vars', e, h1, h2, h3⟩ := wrapFields_spec (vars := vars) hn (fun g hg => h g (List.mem_cons_of_mem _ hg))
      refine ⟨vars', by rw [wrapFields, hc]; exact e, fun k hk => h1 k (fun hh => hk (List.mem_cons_of_mem _ hh)), ?_, ?_⟩
      · intro g hg hgn
        rcases List.mem_cons.1 hg with rfl | hg
        · exact h1 _ hf
        · exact h2 g hg hgn
      · intro g hg fn v x hgf hgv hx
        rcases List.mem_cons.1 hg with rfl | hg
        · rw [hc] at hgf; cases hgf
        · exact h3 g hg fn v x hgf hgv hx
    | some fn =>
      obtain ⟨v, x, hv, hx⟩ := h f (by simp) fn hc
      have hother : ∀ k, f.name ≠ k → dget (dset vars f.name x) k = dget vars k := fun k hk => dget_dset_ne _ _ hk
      obtain ⟨vars', e, h1, h2, h3⟩ := wrapFields_spec (vars := dset vars f.name x) hn (fun g hg fn' hg' => by
        rw [hother _ (hne g hg)]
        exact h g (List.mem_cons_of_mem _ hg) fn' hg')
      refine ⟨vars', by rw [wrapFields, hc]; simp only [hv, hx]; exact e, ?_, ?_, ?_⟩
      · intro k hk
        simp only [List.map_cons, List.mem_cons, not_or] at hk
        rw [h1 k hk.2, hother k (Ne.symm hk.1)]
      · intro g hg hgn
        rcases List.mem_cons.1 hg with rfl | hg
        · rw [hc] at hgn; cases hgn
        · rw [h2 g hg hgn, hother _ (hne g hg)]
      · intro g hg fn' v' x' hgf hgv hx'
        rcases List.mem_cons.1 hg with rfl | hg
        · rw [hc] at hgf; cases hgf
          rw [hv] at hgv; cases hgv
          rw [hx] at hx'; cases hx'
          rw [h1 _ hf, dget_dset_self]
        · exact h3 g hg fn' v' x' hgf (by rw [hother _ (hne g hg)]; exact hgv) hx'

omit [DecidableEq α] in
theorem replaceArgs_spec {vars kw : Md α} : ∀ {fs : List (PField α)}, (fs.map (·.name)).Nodup →
    (∀ f ∈ fs, f.name ∈ dkeys vars) →
    ∃ kw', replaceArgs vars kw fs = .ok kw' ∧ (∀ k ∈ dkeys kw', k ∈ dkeys kw ∨ k ∈ fs.map (·.name)) ∧
      (∀ k, k ∉ fs.map (·.name) → dget kw' k = dget kw k) ∧
      ∀ f ∈ fs, dget kw' f.name = some ((dget kw f.name).getD (unwrap ((dget vars f.name).getD .none)))
  | [], _, _ => ⟨kw, rfl, fun _ h => Or.inl h, fun _ _ => rfl, fun _ h => by simp at h⟩
  | f :: fs, hn, h => by
    simp only [List.map_cons, List.nodup_cons] at hn
    obtain ⟨hf, hn⟩ := hn
    obtain ⟨kw', e, h1, h2, h3⟩ := replaceArgs_spec (vars := vars) (kw := kw) hn (fun g hg => h g (List.mem_cons_of_mem _ hg))
    obtain ⟨v, hv⟩ := Option.isSome_iff_exists.1 (dget_isSome.2 (h f (by simp)))
    have hne : ∀ g ∈ fs, f.name ≠ g.name := fun g hg e => hf (e ▸ List.mem_map.2 ⟨g, hg, rfl⟩)
    cases hk : dget kw f.name with
    | some w =>
      have hh : dhas kw f.name = true := by rw [dhas, hk]; rfl
      refine ⟨kw', by rw [replaceArgs, e]; simp [hh], fun k hk' => ?_, fun k hk' => ?_, fun g hg => ?_⟩
      · exact (h1 k hk').imp id (List.mem_cons_of_mem _)
      · exact h2 k (fun hq => hk' (List.mem_cons_of_mem _ hq))
      · rcases List.mem_cons.1 hg with rfl | hg
        · rw [h2 _ hf, hk]; rfl
        · exact h3 g hg
    | none =>
      have hh : dhas kw f.name = false := by rw [dhas, hk]; rfl
      refine ⟨(f.name, unwrap v) :: kw', by rw [replaceArgs, e]; simp [hh, hv], fun k hk' => ?_, fun k hk' => ?_, fun g hg => ?_⟩
      · simp only [dkeys, List.map_cons, List.mem_cons] at hk' ⊢
        rcases hk' with rfl | hk'
        · exact Or.inr (Or.inl rfl)
        · exact (h1 k hk').imp id Or.inr
      · simp only [List.map_cons, List.mem_cons, not_or] at hk'
        rw [dget]; simp only [Ne.symm hk'.1, if_false]
        exact h2 k hk'.2
      · rcases List.mem_cons.1 hg with rfl | hg
        · rw [dget]; simp [hk, hv]
        · rw [dget]; simp only [hne g hg, if_false]
          exact h3 g hg

omit [DecidableEq α] in
theorem dataclassSteps_spec {kw : Md α} : ∀ {fs : List (PField α)}, (∀ f ∈ fs, (dget kw f.name).isSome) →
    dataclassSteps kw fs = .ok (fs.map (fun f => (f.name, (dget kw f.name).getD .none)))
  | [], _ => rfl
  | f :: fs, h => by
    obtain ⟨v, hv⟩ := Option.isSome_iff_exists.1 (h f (by simp))
    rw [dataclassSteps, dataclassSteps_spec (fun g hg => h g (List.mem_cons_of_mem _ hg))]
    simp [hv]

/-- **C42**, dataclasses: for an object whose fields are as its dataclass declares them, `p.replace(**kw)` with declared names and values
that are not containers succeeds and returns a new object of the same class with exactly the fields in `kw` replaced. -/
theorem C42_dataclass {env : PEnv α} {l : Nat} {kw : Md α} {h : PHeap α} {c : Cls} {vars : Md α} {fs : List (PField α)} {fr : Bool}
    (hl : h[l]? = some (c, vars)) (hw : WFPytree vars) (hd : (env c).dataclass = some (fs, fr)) (hdecl : Declared fs vars)
    (hgk : ∀ k v, dget kw k = some v → v.Plain) (hin : ∀ k ∈ dkeys kw, k ∈ fs.map (·.name)) :
    ∃ vars', hReplace env l kw h = (h ++ [(c, vars')], .ok h.length) ∧ WFPytree vars' ∧ Declared fs vars' ∧
      (∀ k, ReplacedAt vars kw vars' k) := by
  have hfv : ∀ f ∈ fs, f.name ∈ dkeys vars := fun f hf => (hdecl.dom _).2 (Or.inr (List.mem_map.2 ⟨f, hf, rfl⟩))
  obtain ⟨kw', e1, h1, _, h3⟩ := replaceArgs_spec (vars := vars) (kw := kw) hdecl.nodup hfv
  have hall : kw'.any (fun kv => !(fs.map (·.name)).contains kv.1) = false := by
    rw [List.any_eq_false]
    intro kv hkv
    have : kv.1 ∈ fs.map (·.name) := by
      rcases h1 kv.1 (List.mem_map.2 ⟨kv, hkv, rfl⟩) with hk | hk
      · exact hin _ hk
      · exact hk
    simp only [List.contains_iff_mem.2 this, Bool.not_true, Bool.false_eq_true, not_false_eq_true]
  -- the value each field is constructed with
  have hval : ∀ f ∈ fs, ∃ w, dget kw' f.name = some w ∧ w.Plain ∧
      (∀ v, dget kw f.name = some v → w = v) ∧ (dget kw f.name = none → ∃ v, dget vars f.name = some v ∧ w = unwrap v) := by
    intro f hf
    rw [h3 f hf]
    cases hk : dget kw f.name with
    | some v => exact ⟨v, rfl, hgk _ _ hk, fun v' hv' => by cases hv'; rfl, fun h => by cases h⟩
    | none =>
      obtain ⟨v, hv⟩ := Option.isSome_iff_exists.1 (dget_isSome.2 (hfv f hf))
      refine ⟨unwrap v, by rw [hv]; rfl, ?_, fun v' hv' => (by cases hv'), fun _ => ⟨v, hv, rfl⟩⟩
      cases hc : f.kind.containerFn with
      | none =>
        obtain ⟨v2, hv2, hp⟩ := hdecl.plain f hf hc
        rw [hv] at hv2; cases hv2
        cases v <;> simp_all [unwrap, PyVal.Plain]
      | some fn =>
        obtain ⟨d, v2, m, hv2, hp, _⟩ := hdecl.boxed f hf fn hc
        rw [hv] at hv2; cases hv2
        exact hp
  have e2 := dataclassSteps_spec (kw := kw') (fs := fs) (fun f hf => by
    obtain ⟨w, hw', _⟩ := hval f hf; rw [hw']; rfl)
  -- the constructor
  have hsteps : (fs.map (fun f => (f.name, (dget kw' f.name).getD .none))).map (·.1) = fs.map (·.name) := by
    simp [Function.comp_def]
  have hgood : ∀ s ∈ fs.map (fun f => (f.name, (dget kw' f.name).getD .none)), GoodField s.2 := by
    intro s hs
    obtain ⟨f, hf, rfl⟩ := List.mem_map.1 hs
    obtain ⟨w, hw', hp, _⟩ := hval f hf
    simp only [hw', Option.getD_some]
    exact Or.inl hp
  have hstepget : ∀ f ∈ fs, dget (fs.map (fun f => (f.name, (dget kw' f.name).getD .none))) f.name = dget kw' f.name := by
    intro f hf
    obtain ⟨w, hw', _⟩ := hval f hf
    rw [hw']
    refine mem_dget (by unfold DNodup dkeys; rw [hsteps]; exact hdecl.nodup) ?_
    exact List.mem_map.2 ⟨f, hf, by rw [hw']; rfl⟩
  have hcall : ∃ vars', callVars (env c) (fs.map (fun f => (f.name, (dget kw' f.name).getD .none))) = .ok vars' ∧
      (∀ f ∈ fs, f.kind.containerFn = none → dget vars' f.name = dget kw' f.name) ∧
      (∀ f ∈ fs, ∀ fn v x, f.kind.containerFn = some fn → dget kw' f.name = some v → fn v = .ok x → dget vars' f.name = some x) := by
    unfold callVars
    obtain ⟨h0n, h0k, _⟩ := init0_facts (α := α)
    generalize (dset (dset [(kSorted, .tup [.str kSorted])] kMutable .none) kInit .none : Md α) = v0 at h0n h0k ⊢
    have hnk : (fs.map (fun f => (f.name, (dget kw' f.name).getD .none))).map (·.1) = fs.map (·.name) := hsteps
    have hres : ∀ f ∈ fs, f.name ∉ dkeys v0 := fun f hf hk => hdecl.names f hf ((h0k _).1 hk)
    rw [runInit_fresh ((h0k _).2 (Or.inr (Or.inr rfl))) (by rw [hnk]; exact hdecl.nodup)
      (fun k hk hk' => by
        rw [hnk] at hk
        obtain ⟨f, hf, rfl⟩ := List.mem_map.1 hk
        exact hres f hf hk') hgood]
    simp only [hd, Option.elim_some]
    generalize hst : fs.map (fun f => (f.name, (dget kw' f.name).getD .none)) = steps at hstepget hnk ⊢
    have hnd : DNodup (v0 ++ steps) := by
      unfold DNodup dkeys
      rw [List.map_append, List.nodup_append, hnk]
      refine ⟨h0n, hdecl.nodup, fun a ha b hb e => ?_⟩
      subst e
      obtain ⟨f, hf, rfl⟩ := List.mem_map.1 hb
      exact hres f hf ha
    have hget : ∀ f ∈ fs, dget (ddel (ddel (v0 ++ steps) kInit) kMutable) f.name = dget kw' f.name := by
      intro f hf
      have hr := hdecl.names f hf
      unfold ReservedPy at hr
      simp only [not_or] at hr
      rw [dget_ddel (dnodup_ddel hnd _), if_neg (Ne.symm hr.2.1), dget_ddel hnd, if_neg (Ne.symm hr.2.2), dget_append,
        dget_eq_none.2 (hres f hf)]
      exact hstepget f hf
    obtain ⟨u, eu, _, u2, u3⟩ := wrapFields_spec (vars := ddel (ddel (v0 ++ steps) kInit) kMutable) hdecl.nodup (fun f hf fn hfn => by
      rw [hget f hf]
      obtain ⟨w, hw', hp, _⟩ := hval f hf
      obtain ⟨d, v, m, _, hpv, hfnv⟩ := hdecl.boxed f hf fn hfn
      exact ⟨w, _, hw', containerFn_uniform hfn hpv hp hfnv⟩)
    rw [eu]
    refine ⟨_, rfl, fun f hf hc => ?_, fun f hf fn v x hfn hv hx => ?_⟩
    · have hr := hdecl.names f hf
      rw [dget_dset_ne _ _ (fun e => hr (Or.inl e.symm)), u2 f hf hc, hget f hf]
    · have hr := hdecl.names f hf
      rw [dget_dset_ne _ _ (fun e => hr (Or.inl e.symm))]
      exact u3 f hf fn v x hfn (by rw [hget f hf]; exact hv) hx
  obtain ⟨vars', ecall, hp', hb'⟩ := hcall
  have hwf' := callVars_wf hgood ecall
  have hkeys' : ∀ k, k ∈ dkeys vars' ↔ k ∈ dkeys vars := by
    intro k
    rw [(callVars_keys ecall).2.1, hsteps, hdecl.dom]
    constructor
    · rintro (h | h)
      · exact Or.inl h
      · exact Or.inr h.1
    · rintro (h | h)
      · exact Or.inl h
      · refine Or.inr ⟨h, ?_⟩
        obtain ⟨f, hf, rfl⟩ := List.mem_map.1 h
        have hr := hdecl.names f hf
        unfold ReservedPy at hr
        simp only [not_or] at hr
        exact ⟨hr.2.2, hr.2.1⟩
  refine ⟨vars', ?_, hwf', ?_, ?_⟩
  · unfold hReplace
    rw [hl]
    simp only [hd, e1, callDataclass, hall, Bool.false_eq_true, if_false, e2, ecall]
  · refine { nodup := hdecl.nodup, dom := fun k => (hkeys' k).trans (hdecl.dom k), plain := fun f hf hc => ?_,
             boxed := fun f hf fn hc => ?_, names := hdecl.names }
    · obtain ⟨w, hw', hp, _⟩ := hval f hf
      exact ⟨w, by rw [hp' f hf hc, hw'], hp⟩
    · obtain ⟨w, hw', hp, _⟩ := hval f hf
      obtain ⟨d, v, m, _, hpv, hfnv⟩ := hdecl.boxed f hf fn hc
      have hfw := containerFn_uniform hc hpv hp hfnv
      exact ⟨d, w, m, hb' f hf fn w _ hc hw' hfw, hp, hfw⟩
  · intro k
    unfold ReplacedAt
    by_cases hkf : k ∈ fs.map (·.name)
    · obtain ⟨f, hf, rfl⟩ := List.mem_map.1 hkf
      obtain ⟨w, hw', hp, hs1, hs2⟩ := hval f hf
      cases hc : f.kind.containerFn with
      | none =>
        obtain ⟨v, hv, hpv⟩ := hdecl.plain f hf hc
        have hget := hp' f hf hc
        cases hk : dget kw f.name with
        | none =>
          obtain ⟨v2, hv2, e⟩ := hs2 hk
          simp only
          rw [hget, hw', hv2, e]
          rw [hv] at hv2; cases hv2
          cases v <;> simp_all [unwrap, PyVal.Plain]
        | some v2 =>
          simp only
          refine ⟨v2, .new ?_, by rw [hget, hw', hs1 v2 hk]⟩
          intro c' w' m' e
          rw [hv] at e; cases e; exact hpv
      | some fn =>
        obtain ⟨d, v, m, hv, hpv, hfnv⟩ := hdecl.boxed f hf fn hc
        have hfw := containerFn_uniform hc hpv hp hfnv
        have hget := hb' f hf fn w _ hc hw' hfw
        cases hk : dget kw f.name with
        | none =>
          obtain ⟨v2, hv2, e⟩ := hs2 hk
          simp only
          rw [hv] at hv2; cases hv2
          rw [hget, hv, e]; rfl
        | some v2 =>
          simp only
          have := hs1 v2 hk
          subst this
          refine ⟨_, ?_, hget⟩
          rw [hv]
          exact .keep hp
    · have hkn : dget kw k = none := dget_eq_none.2 (fun hk => hkf (hin k hk))
      rw [hkn]
      simp only
      by_cases hks : k = kSorted
      · subst hks
        rw [hwf'.sorted, hw.sorted]
        exact congrArg some (sortedNames_ext hwf'.nodup hw.nodup hkeys')
      · have hnv : k ∉ dkeys vars := by rw [hdecl.dom]; rintro (h | h); exacts [hks h, hkf h]
        rw [dget_eq_none.2 hnv, dget_eq_none.2 (fun hk => hnv ((hkeys' k).1 hk))]

/-- **C42**, dataclasses: an undeclared name raises TypeError and nothing changes. -/
theorem C42_dataclass_unknown {env : PEnv α} {l : Nat} {kw : Md α} {h : PHeap α} {c : Cls} {vars : Md α} {fs : List (PField α)}
    {fr : Bool} (hl : h[l]? = some (c, vars)) (hd : (env c).dataclass = some (fs, fr)) (hdecl : Declared fs vars)
    {k : Str} (hk : k ∈ dkeys kw) (hu : k ∉ fs.map (·.name)) : hReplace env l kw h = (h, .error .typeError) := by
  have hfv : ∀ f ∈ fs, f.name ∈ dkeys vars := fun f hf => (hdecl.dom _).2 (Or.inr (List.mem_map.2 ⟨f, hf, rfl⟩))
  obtain ⟨kw', e1, _, h2, _⟩ := replaceArgs_spec (vars := vars) (kw := kw) hdecl.nodup hfv
  have hk' : k ∈ dkeys kw' := by rw [← dget_isSome, h2 k hu]; exact dget_isSome.2 hk
  have hall : kw'.any (fun kv => !(fs.map (·.name)).contains kv.1) = true := by
    rw [List.any_eq_true]
    obtain ⟨kv, hkv, rfl⟩ := List.mem_map.1 hk'
    refine ⟨kv, hkv, ?_⟩
    cases hc : (fs.map (·.name)).contains kv.1 with
    | false => rfl
    | true => exact absurd (List.contains_iff_mem.1 hc) hu
  unfold hReplace
  rw [hl]
  simp only [hd, e1, callDataclass, hall, if_true]

/-- **C42 fails as stated** for a dataclass with a plain field that holds a container: `replace` of another field drops the
container, so a node field becomes a static one. -/
theorem C42_dataclass_drops_container :
    let env : PEnv Nat := fun _ =>
      { mutable := false, dataclass := some ([⟨py! "a", .plain, none⟩, ⟨py! "b", .plain, none⟩], false) }
    let h := PyOp.runAll env [] [.create cPytree [(py! "a", .cont cParam (.data cNoneType 1) [(py! "sharding", .none)]), (py! "b", .none)]]
    let h' := (hReplace env 0 [(py! "b", .str (py! "new"))] h).1
    (h[0]?.bind (fun o => dget o.2 (py! "a")) = some (.cont cParam (.data cNoneType 1) [(py! "sharding", .none)])) ∧
    (h'[1]?.bind (fun o => dget o.2 (py! "a")) = some (.data cNoneType 1)) := by decide

/-- **C72** (part): a successful `replace` keeps every field that it was not asked to replace, with its container. For ordinary classes
this holds for all values; for dataclasses when the fields hold containers exactly as declared. Missing: the other dataclass objects, for which it
is false (`C42_dataclass_drops_container`). -/
theorem C72_unreplaced_fields_partial {env : PEnv α} {l l' : Nat} {kw : Md α} {h h' : PHeap α} {c : Cls} {vars : Md α}
    (hl : h[l]? = some (c, vars)) (hw : WFPytree vars) (hr : hReplace env l kw h = (h', .ok l'))
    (hdecl : ∀ fs fr, (env c).dataclass = some (fs, fr) → Declared fs vars ∧ ∀ k v, dget kw k = some v → v.Plain) :
    ∃ vars', h'[l']? = some (c, vars') ∧ ∀ k, k ∉ dkeys kw → dget vars' k = dget vars k := by
  cases hd : (env c).dataclass with
  | some fsr =>
    obtain ⟨fs, fr⟩ := fsr
    obtain ⟨hdl, hp⟩ := hdecl fs fr hd
    have hin : ∀ k ∈ dkeys kw, k ∈ fs.map (·.name) := by
      intro k hk
      apply Classical.byContradiction
      intro hu
      rw [C42_dataclass_unknown hl hd hdl hk hu] at hr
      cases hr
    obtain ⟨vars', e, _, _, hrep⟩ := C42_dataclass hl hw hd hdl hp hin
    rw [e] at hr
    cases hr
    refine ⟨vars', by simp, fun k hk => ?_⟩
    have := hrep k
    unfold ReplacedAt at this
    rw [dget_eq_none.2 hk] at this
    exact this
  | none =>
    have key : ∀ (kw vs : Md α), ∃ vs' r, hSetattrs env h.length kw (h ++ [(c, vs)]) = (h ++ [(c, vs')], r) ∧
        (DNodup vs → DNodup vs') ∧ ∀ k, k ∉ dkeys kw → dget vs' k = dget vs k := by
      intro kw
      induction kw with
      | nil => intro vs; exact ⟨vs, none, rfl, id, fun _ _ => rfl⟩
      | cons a rest ih =>
        obtain ⟨name, v⟩ := a
        intro vs
        simp only [hSetattrs, hSetattr_last]
        cases hset : (env c).setattr vs name v with
        | error e => exact ⟨vs, some e, rfl, id, fun _ _ => rfl⟩
        | ok vs1 =>
          obtain ⟨x, rfl⟩ := setattrVars_ok (setattr_ok hset).1
          obtain ⟨vs', r, e, hn, hk⟩ := ih (dset vs name x)
          refine ⟨vs', r, e, fun h => hn (dnodup_dset h _ _), fun k hk' => ?_⟩
          simp only [dkeys, List.map_cons, List.mem_cons, not_or] at hk'
          rw [hk k hk'.2, dget_dset_ne _ _ (Ne.symm hk'.1)]
    unfold hReplace at hr
    rw [hl] at hr
    simp only [hd] at hr
    split at hr
    · cases hr
    · rw [hModify_last] at hr
      obtain ⟨vs', r, e, hn, hk⟩ := key kw (dset vars kMutable .none)
      have hn' := hn (dnodup_dset hw.nodup _ _)
      rw [e] at hr
      cases r with
      | some e => cases hr
      | none =>
        simp only [hModify_last] at hr
        cases hr
        refine ⟨ddel vs' kMutable, by simp, fun k hk' => ?_⟩
        rw [dget_ddel hn']
        split
        · rename_i e; subst e; rw [dget_eq_none.2 hw.noMut]
        · rename_i hne; rw [hk k hk', dget_dset_ne _ _ hne]

/-- A dataclass with a node, a static, a param and a plain field. -/
def exFields : List (PField Nat) :=
  [⟨py! "y", .node, none⟩, ⟨py! "s", .static, none⟩, ⟨py! "w", .var cParam .none, none⟩, ⟨py! "x", .plain, some (.data cNoneType 2)⟩]

def exVars : Md Nat :=
  [(kSorted, .tup [.str kSorted, .str (py! "s"), .str (py! "w"), .str (py! "x"), .str (py! "y")]),
   (py! "y", .cont cNode (.data cArray 3) []), (py! "s", .cont cStatic (.data cNoneType 4) []),
   (py! "w", .cont cParam (.data cArray 5) [(py! "sharding", .none)]), (py! "x", .data cNoneType 2)]

/-- `exVars` is what the constructor makes, and it meets `Declared`. -/
example : callDataclass { mutable := false, dataclass := some (exFields, true) } exFields
    [(py! "y", .data cArray 3), (py! "s", .data cNoneType 4), (py! "w", .data cArray 5)] = .ok exVars := by decide

example : Declared exFields exVars where
  nodup := by decide
  dom := by
    intro k
    simp only [exVars, exFields, dkeys, List.map_cons, List.map_nil, List.mem_cons, List.not_mem_nil, or_false]
  plain := by
    intro f hf hc
    simp only [exFields, List.mem_cons, List.not_mem_nil, or_false] at hf
    rcases hf with rfl | rfl | rfl | rfl
    · cases hc
    · cases hc
    · cases hc
    · exact ⟨.data cNoneType 2, by decide, trivial⟩
  boxed := by
    intro f hf fn hc
    simp only [exFields, List.mem_cons, List.not_mem_nil, or_false] at hf
    rcases hf with rfl | rfl | rfl | rfl
    · cases hc; exact ⟨cNode, .data cArray 3, [], by decide, trivial, by decide⟩
    · cases hc; exact ⟨cStatic, .data cNoneType 4, [], by decide, trivial, by decide⟩
    · cases hc; exact ⟨cParam, .data cArray 5, [(py! "sharding", .none)], by decide, trivial, by decide⟩
    · cases hc
  names := by unfold ReservedPy; decide

end Nnx
