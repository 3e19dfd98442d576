import Verif.Props.SpmdRules
/-
C84: logical_to_mesh and logical_to_mesh_sharding.
-/
namespace Nnx
variable {M : Type}

mutual
/-- If `f` returns on all leaves, the tree of the results has the same structure. -/
theorem specMapE_ok {L N : Type} {f : L → Except Err N} {P : L → N → Prop} : ∀ (t : SpecTree L), (∀ x, t.HasLeaf x → ∃ y, f x = .ok y ∧ P x y) →
    ∃ u, t.mapE f = .ok u ∧ SpecTree.Rel P t u
  | .none, _ => ⟨_, rfl, .none⟩
  | .leaf x, h => by
    obtain ⟨y, h1, h2⟩ := h x (.leaf x)
    exact ⟨.leaf y, by simp only [SpecTree.mapE, h1], .leaf h2⟩
  | .tup ts, h => by
    obtain ⟨us, h1, h2⟩ := mapEL_ok ts fun t ht x hx => h x (.tup ht hx)
    exact ⟨.tup us, by simp only [SpecTree.mapE, h1], h2⟩
  | .dict ts, h => by
    obtain ⟨us, h1, h2⟩ := mapEM_ok ts fun t ht x hx => h x (.dict ht hx)
    exact ⟨.dict us, by simp only [SpecTree.mapE, h1], h2⟩
theorem mapEL_ok {L N : Type} {f : L → Except Err N} {P : L → N → Prop} : ∀ (ts : List (SpecTree L)),
    (∀ t ∈ ts, ∀ x, t.HasLeaf x → ∃ y, f x = .ok y ∧ P x y) → ∃ us, mapEL f ts = .ok us ∧ SpecTree.Rel P (.tup ts) (.tup us)
  | [], _ => ⟨_, rfl, .tupNil⟩
  | t :: ts, h => by
    obtain ⟨u, h1, h2⟩ := specMapE_ok t (h t List.mem_cons_self)
    obtain ⟨us, h3, h4⟩ := mapEL_ok ts fun t ht => h t (List.mem_cons_of_mem _ ht)
    exact ⟨u :: us, by simp only [mapEL, h1, h3], .tupCons h2 h4⟩
theorem mapEM_ok {L N : Type} {f : L → Except Err N} {P : L → N → Prop} : ∀ (ts : List (Str × SpecTree L)),
    (∀ t ∈ ts, ∀ x, t.2.HasLeaf x → ∃ y, f x = .ok y ∧ P x y) → ∃ us, mapEM f ts = .ok us ∧ SpecTree.Rel P (.dict ts) (.dict us)
  | [], _ => ⟨_, rfl, .dictNil⟩
  | (n, t) :: ts, h => by
    obtain ⟨u, h1, h2⟩ := specMapE_ok t (h (n, t) List.mem_cons_self)
    obtain ⟨us, h3, h4⟩ := mapEM_ok ts fun t ht => h t (List.mem_cons_of_mem _ ht)
    exact ⟨(n, u) :: us, by simp only [mapEM, h1, h3], .dictCons h2 h4⟩
end

mutual
/-- If `mapE` returns, `f` returns on all leaves. -/
theorem specMapE_leaf {L N : Type} {f : L → Except Err N} : ∀ (t : SpecTree L) {u : SpecTree N}, t.mapE f = .ok u → ∀ x, t.HasLeaf x →
    ∃ y, f x = .ok y ∧ u.HasLeaf y
  | .none, _, _, x, hx => by cases hx
  | .leaf x, u, h, _, hx => by
    cases hx
    simp only [SpecTree.mapE] at h
    split at h
    · cases h
    next y hy => cases h; exact ⟨y, hy, .leaf y⟩
  | .tup ts, u, h, x, hx => by
    simp only [SpecTree.mapE] at h
    split at h
    · cases h
    next us hus =>
    cases h
    cases hx with
    | tup ht hx =>
      obtain ⟨y, h1, u, h2, h3⟩ := mapEL_leaf ts hus _ ht x hx
      exact ⟨y, h1, .tup h2 h3⟩
  | .dict ts, u, h, x, hx => by
    simp only [SpecTree.mapE] at h
    split at h
    · cases h
    next us hus =>
    cases h
    cases hx with
    | dict ht hx =>
      obtain ⟨y, h1, u, h2, h3⟩ := mapEM_leaf ts hus _ ht x hx
      exact ⟨y, h1, .dict h2 h3⟩
theorem mapEL_leaf {L N : Type} {f : L → Except Err N} : ∀ (ts : List (SpecTree L)) {us : List (SpecTree N)}, mapEL f ts = .ok us →
    ∀ t ∈ ts, ∀ x, t.HasLeaf x → ∃ y, f x = .ok y ∧ ∃ u ∈ us, u.HasLeaf y
  | [], _, _, _, ht => by cases ht
  | t :: ts, us, h, t', ht => by
    intro x hx
    simp only [mapEL] at h
    split at h
    · cases h
    next u hu =>
    split at h
    · cases h
    next us' hus =>
    cases h
    rcases List.mem_cons.1 ht with he | ht
    · rw [he] at hx
      obtain ⟨y, h1, h2⟩ := specMapE_leaf t hu x hx
      exact ⟨y, h1, u, List.mem_cons_self, h2⟩
    · obtain ⟨y, h1, v, hv, h2⟩ := mapEL_leaf ts hus t' ht x hx
      exact ⟨y, h1, v, List.mem_cons_of_mem _ hv, h2⟩
theorem mapEM_leaf {L N : Type} {f : L → Except Err N} : ∀ (ts : List (Str × SpecTree L)) {us : List (Str × SpecTree N)}, mapEM f ts = .ok us →
    ∀ t ∈ ts, ∀ x, t.2.HasLeaf x → ∃ y, f x = .ok y ∧ ∃ u ∈ us, u.2.HasLeaf y
  | [], _, _, _, ht => by cases ht
  | (n, t) :: ts, us, h, t', ht => by
    intro x hx
    simp only [mapEM] at h
    split at h
    · cases h
    next u hu =>
    split at h
    · cases h
    next us' hus =>
    cases h
    rcases List.mem_cons.1 ht with he | ht
    · rw [he] at hx
      obtain ⟨y, h1, h2⟩ := specMapE_leaf t hu x hx
      exact ⟨y, h1, (n, u), List.mem_cons_self, h2⟩
    · obtain ⟨y, h1, v, hv, h2⟩ := mapEM_leaf ts hus t' ht x hx
      exact ⟨y, h1, v, List.mem_cons_of_mem _ hv, h2⟩
end

mutual
/-- The exceptions are those of `f`. -/
theorem specMapE_error {L N : Type} {f : L → Except Err N} {e0 : Err} (hf : ∀ x e, f x = .error e → e = e0) : ∀ (t : SpecTree L) {e : Err},
    t.mapE f = .error e → e = e0
  | .none, _, h => by cases h
  | .leaf x, e, h => by
    simp only [SpecTree.mapE] at h
    split at h
    · next e' he => cases h; exact hf x _ he
    · cases h
  | .tup ts, e, h => by
    simp only [SpecTree.mapE] at h
    split at h
    · next e' he => cases h; exact mapEL_error hf ts he
    · cases h
  | .dict ts, e, h => by
    simp only [SpecTree.mapE] at h
    split at h
    · next e' he => cases h; exact mapEM_error hf ts he
    · cases h
theorem mapEL_error {L N : Type} {f : L → Except Err N} {e0 : Err} (hf : ∀ x e, f x = .error e → e = e0) : ∀ (ts : List (SpecTree L)) {e : Err},
    mapEL f ts = .error e → e = e0
  | [], _, h => by cases h
  | t :: ts, e, h => by
    simp only [mapEL] at h
    split at h
    · next e' he => cases h; exact specMapE_error hf t he
    split at h
    · next e' he => cases h; exact mapEL_error hf ts he
    · cases h
theorem mapEM_error {L N : Type} {f : L → Except Err N} {e0 : Err} (hf : ∀ x e, f x = .error e → e = e0) : ∀ (ts : List (Str × SpecTree L)) {e : Err},
    mapEM f ts = .error e → e = e0
  | [], _, h => by cases h
  | (n, t) :: ts, e, h => by
    simp only [mapEM] at h
    split at h
    · next e' he => cases h; exact specMapE_error hf t he
    split at h
    · next e' he => cases h; exact mapEM_error hf ts he
    · cases h
end

theorem isLayout_of {dims : List (Option Str)} {rules : List LRule} {spec : List MeshAxes}
    (h : logicalToMeshAxes (some dims) rules = .ok (some spec)) : IsLayout dims rules spec := by
  refine ⟨?_, fun _ ha => (C45_priority h ha).1, fun _ ha => (C45_priority h ha).2⟩
  have hr : ¬ RepeatedName dims := fun hr => by rw [(C44_total dims rules).1 hr] at h; cases h
  obtain ⟨s', h1, h2⟩ := (C44_total dims rules).2 hr
  rw [h] at h1; cases h1
  exact h2

/-- **C84, logical_to_mesh.** It raises ValueError if a spec in the tree repeats a name; otherwise it returns the tree of the layouts by the
rules (the given ones, or those in force). -/
theorem C84_logical_to_mesh (ctxRules : List LRule) (tree : SpecTree (List (Option Str))) (rules : Option (List LRule)) :
    ((∃ dims, tree.HasLeaf dims ∧ RepeatedName dims) → logicalToMesh ctxRules tree rules = .error .valueError) ∧
    ((∀ dims, tree.HasLeaf dims → ¬ RepeatedName dims) → ∃ t, logicalToMesh ctxRules tree rules = .ok t ∧
      SpecTree.Rel (fun dims spec => IsLayout dims (rules.getD ctxRules) spec) tree t) := by
  constructor
  · rintro ⟨dims, h1, h2⟩
    cases h : logicalToMesh ctxRules tree rules with
    | error e =>
      congr 1
      refine specMapE_error (e0 := .valueError) ?_ tree h
      intro ds e he
      by_cases hr : RepeatedName ds
      · rw [(C44_total ds _).1 hr] at he; cases he; rfl
      · obtain ⟨s, h3, _⟩ := (C44_total ds (rules.getD ctxRules)).2 hr
        rw [h3] at he; cases he
    | ok t =>
      obtain ⟨y, h3, _⟩ := specMapE_leaf tree h dims h1
      rw [(C44_total dims _).1 h2] at h3; cases h3
  · intro hno
    refine specMapE_ok tree ?_
    intro dims hd
    obtain ⟨s, h3, _⟩ := (C44_total dims (rules.getD ctxRules)).2 (hno dims hd)
    exact ⟨s, by rw [h3], isLayout_of h3⟩

theorem SpecTree.Rel.comp {L N K : Type} {P : L → N → Prop} {Q : N → K → Prop} {S : L → K → Prop} (hS : ∀ x y z, P x y → Q y z → S x z)
    {t : SpecTree L} {u : SpecTree N} (h : t.Rel P u) : ∀ {v : SpecTree K}, u.Rel Q v → t.Rel S v := by
  induction h with
  | none => intro v h; cases h; exact .none
  | leaf h1 => intro v h; cases h with | leaf h2 => exact .leaf (hS _ _ _ h1 h2)
  | tupNil => intro v h; cases h; exact .tupNil
  | tupCons _ _ ih ihs => intro v h; cases h with | tupCons h1 h2 => exact .tupCons (ih h1) (ihs h2)
  | dictNil => intro v h; cases h; exact .dictNil
  | dictCons _ _ ih ihs => intro v h; cases h with | dictCons h1 h2 => exact .dictCons (ih h1) (ihs h2)

theorem SpecTree.Rel.leaf_right {L N : Type} {P : L → N → Prop} {t : SpecTree L} {u : SpecTree N} (h : t.Rel P u) :
    ∀ y, u.HasLeaf y → ∃ x, t.HasLeaf x ∧ P x y := by
  induction h with
  | none => intro y hy; cases hy
  | leaf h1 => intro y hy; cases hy; exact ⟨_, .leaf _, h1⟩
  | tupNil => intro y hy; cases hy with | tup ht _ => cases ht
  | tupCons _ _ ih ihs =>
    intro y hy
    cases hy with
    | tup ht hy =>
      rcases List.mem_cons.1 ht with rfl | ht
      · obtain ⟨x, h1, h2⟩ := ih y hy
        exact ⟨x, .tup List.mem_cons_self h1, h2⟩
      · obtain ⟨x, h1, h2⟩ := ihs y (.tup ht hy)
        cases h1 with
        | tup h3 h4 => exact ⟨x, .tup (List.mem_cons_of_mem _ h3) h4, h2⟩
  | dictNil => intro y hy; cases hy with | dict ht _ => cases ht
  | dictCons _ _ ih ihs =>
    intro y hy
    cases hy with
    | dict ht hy =>
      rcases List.mem_cons.1 ht with rfl | ht
      · obtain ⟨x, h1, h2⟩ := ih y hy
        exact ⟨x, .dict (nt := (_, _)) List.mem_cons_self h1, h2⟩
      · obtain ⟨x, h1, h2⟩ := ihs y (.dict ht hy)
        cases h1 with
        | dict h3 h4 => exact ⟨x, .dict (List.mem_cons_of_mem _ h3) h4, h2⟩

theorem isLayout_unique {dims : List (Option Str)} {rules : List LRule} {s t : List MeshAxes} (hs : IsLayout dims rules s) (ht : IsLayout dims rules t) :
    s = t := by
  obtain ⟨applied, ha⟩ := (C45_applied_unique dims rules).1
  apply List.ext_getElem? 
  intro i
  by_cases hi : i < dims.length
  · by_cases hg : ∃ m, Gets dims rules applied i m
    · obtain ⟨m, hm⟩ := hg
      rw [hs.rule _ ha i m hm, ht.rule _ ha i m hm]
    · have hg' : ∀ m, ¬ Gets dims rules applied i m := fun m hm => hg ⟨m, hm⟩
      rw [hs.unsharded _ ha i hi hg', ht.unsharded _ ha i hi hg']
  · rw [List.getElem?_eq_none (by rw [hs.length]; omega), List.getElem?_eq_none (by rw [ht.length]; omega)]

theorem isLayout_eq {dims : List (Option Str)} {rules : List LRule} {s : List MeshAxes} (hr : ¬ RepeatedName dims) (hs : IsLayout dims rules s) :
    logicalToMeshAxes (some dims) rules = .ok (some s) := by
  obtain ⟨t, h, _⟩ := (C44_total dims rules).2 hr
  rw [h, isLayout_unique hs (isLayout_of h)]

/-- **C84, logical_to_mesh_sharding.** Let no rule name a mesh axis twice. The call returns exactly if no spec in the tree repeats a name and
the mesh has every axis of the layouts; then it returns the tree of the shardings with the given mesh and the layouts. Otherwise it raises
ValueError. In particular a layout never uses a mesh axis twice. -/
theorem C84_logical_to_mesh_sharding (axes : M → List Str) (ctxRules : List LRule) (tree : SpecTree (List (Option Str))) (mesh : M)
    (rules : Option (List LRule)) (hrules : ∀ r ∈ rules.getD ctxRules, r.2.names.Nodup) :
    let Ok := ∀ dims, tree.HasLeaf dims → ¬ RepeatedName dims ∧
      ∀ spec, IsLayout dims (rules.getD ctxRules) spec → ∀ m ∈ spec, ∀ a ∈ m.names, a ∈ axes mesh
    (Ok → ∃ t, logicalToMeshSharding axes ctxRules tree mesh rules = .ok t ∧
      SpecTree.Rel (fun dims s => s.mesh = mesh ∧ IsLayout dims (rules.getD ctxRules) s.spec) tree t) ∧
    (¬ Ok → logicalToMeshSharding axes ctxRules tree mesh rules = .error .valueError) := by
  intro Ok
  obtain ⟨hbad, hgood⟩ := C84_logical_to_mesh ctxRules tree rules
  by_cases hrep : ∀ dims, tree.HasLeaf dims → ¬ RepeatedName dims
  · obtain ⟨t, ht, hrel⟩ := hgood hrep
    have hsh : ∀ spec, t.HasLeaf spec → ((∀ m ∈ spec, ∀ a ∈ m.names, a ∈ axes mesh) → namedSharding axes mesh spec = .ok ⟨mesh, spec⟩) := by
      intro spec hl hin
      obtain ⟨dims, hd, hlay⟩ := hrel.leaf_right spec hl
      have hn := C44_once hrules (isLayout_eq (hrep dims hd) hlay)
      have hall : (spec.flatMap MeshAxes.names).all (fun a => (axes mesh).contains a) = true := by
        rw [List.all_eq_true]
        intro a ha
        obtain ⟨m, hm, ha⟩ := List.mem_flatMap.1 ha
        simpa using hin m hm a ha
      simp only [namedSharding, MeshAxes.leaves_eq, hall, hn, decide_true, Bool.and_self, if_true]
    constructor
    · intro hok
      obtain ⟨u, hu, hrel'⟩ := specMapE_ok (f := namedSharding axes mesh) (P := fun spec s => s = ⟨mesh, spec⟩) t (by
        intro spec hl
        obtain ⟨dims, hd, hlay⟩ := hrel.leaf_right spec hl
        exact ⟨_, hsh spec hl ((hok dims hd).2 spec hlay), rfl⟩)
      refine ⟨u, by simp only [logicalToMeshSharding, ht, hu], hrel.comp ?_ hrel'⟩
      rintro dims spec _ h1 rfl
      exact ⟨rfl, h1⟩
    · intro hnot
      simp only [logicalToMeshSharding, ht]
      cases hu : t.mapE (namedSharding axes mesh) with
      | error e =>
        congr 1
        refine specMapE_error ?_ t hu
        intro spec e he
        unfold namedSharding at he
        split at he
        · cases he
        · cases he; rfl
      | ok u =>
        refine absurd ?_ hnot
        intro dims hd
        refine ⟨hrep dims hd, ?_⟩
        intro spec hlay m hm a ha
        obtain ⟨spec', h1, h2⟩ := specMapE_leaf tree ht dims hd
        have : spec' = spec := by
          refine isLayout_unique (isLayout_of (dims := dims) (rules := rules.getD ctxRules) ?_) hlay
          rw [isLayout_eq (hrep dims hd) hlay] at h1 ⊢
          cases h1; rfl
        subst this
        obtain ⟨s, h3, _⟩ := specMapE_leaf t hu spec' h2
        unfold namedSharding at h3
        rw [MeshAxes.leaves_eq] at h3
        split at h3
        · next hc =>
          rw [Bool.and_eq_true, List.all_eq_true] at hc
          have := hc.1 a (List.mem_flatMap.2 ⟨m, hm, ha⟩)
          simpa using this
        · cases h3
  · have hrep' : ∃ dims, tree.HasLeaf dims ∧ RepeatedName dims := by
      by_contra hc
      exact hrep fun dims hd hr => hc ⟨dims, hd, hr⟩
    constructor
    · intro hok
      exact absurd (fun dims hd => (hok dims hd).1) hrep
    · intro _
      simp only [logicalToMeshSharding, hbad hrep']

/-- The documented example in a tree, on a mesh with axes X, Y, W. -/
example : logicalToMeshSharding (M := List Str) id exRules (.dict [(py! "a", .leaf exDims), (py! "b", .none)]) [py! "X", py! "Y", py! "W"] none =
    .ok (.dict [(py! "a", .leaf ⟨[py! "X", py! "Y", py! "W"], [.axis (py! "X"), .none, .axes [py! "Y", py! "W"], .none]⟩), (py! "b", .none)]) := rfl

/-- The mesh has no axis Y. -/
example : (logicalToMeshSharding (M := List Str) id exRules (.dict [(py! "a", .leaf exDims)]) [py! "X"] none) = .error .valueError := rfl

example : ∀ r ∈ (none : Option (List LRule)).getD exRules, r.2.names.Nodup := by decide

end Nnx
