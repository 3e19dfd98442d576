import Verif.Spec.Module
import Verif.Proofs.Containers
import Verif.Basic.Tactics
/-
The depth-first traversal shared by get_state, get_module_def, for_each.
-/
namespace Nnx
variable {α : Type}

theorem Walk.append {h : Heap α} {a b c : Loc} {p q : List Str} (h1 : Walk h a p b) (h2 : Walk h b q c) :
    Walk h a (p ++ q) c := by
  induction h1 with
  | here _ => exact h2
  | step ha _ ih => exact .step ha (ih h2)

theorem Walk.snoc {h : Heap α} {a b c : Loc} {p : List Str} {n : Str} (h1 : Walk h a p b)
    (h2 : attrAt h b n = some (.ref c)) (hc : c < h.length) : Walk h a (p ++ [n]) c :=
  h1.append (.step h2 (.here hc))

theorem Walk.functional {h : Heap α} {a b c : Loc} {p : List Str} (h1 : Walk h a p b) (h2 : Walk h a p c) :
    b = c := by
  induction h1 with
  | here _ => cases h2; rfl
  | step ha _ ih =>
    cases h2 with
    | step hb h2 =>
      rw [ha] at hb
      simp only [Option.some.injEq, Attr.ref.injEq] at hb
      subst hb
      exact ih h2

theorem attrAt_some_lt {h : Heap α} {l : Loc} {n : Str} {a : Attr α} (e : attrAt h l n = some a) : l < h.length := by
  unfold attrAt at e
  split at e
  · next he => exact (List.getElem?_eq_some_iff.1 he).1
  · cases e

theorem Walk.lt {h : Heap α} {a b : Loc} {p : List Str} (h1 : Walk h a p b) : b < h.length := by
  induction h1 with
  | here h => exact h
  | step _ _ ih => exact ih

theorem Walk.start_lt {h : Heap α} {a b : Loc} {p : List Str} (h1 : Walk h a p b) : a < h.length := by
  cases h1 with
  | here h => exact h
  | step e _ => exact attrAt_some_lt e

/-- One traversal task: visit a module, or the remaining attributes of one. -/
inductive Task (α : Type) where
  | visit (l : Loc) (p : List Str)
  | attrs (as : List (Str × Attr α)) (p : List Str)

/-- Big-step semantics of the traversal: recursion budget, task, seen ids, visited modules in order (with
paths), seen ids afterwards. -/
inductive Dfs (h : Heap α) (ord : Dict Str (Attr α) → List (Str × Attr α)) :
    Nat → Task α → List Nat → List (Loc × List Str) → List Nat → Prop
  | seen {f l p S o} : h[l]? = some o → o.uid ∈ S → Dfs h ord (f + 1) (.visit l p) S [] S
  | visit {f l p S S' o vs} : h[l]? = some o → o.uid ∉ S →
      Dfs h ord f (.attrs (ord o.attrs) p) (S ++ [o.uid]) vs S' → Dfs h ord (f + 1) (.visit l p) S ((l, p) :: vs) S'
  | nil {f p S} : Dfs h ord f (.attrs [] p) S [] S
  | val {f n v rest p S vs S'} : Dfs h ord f (.attrs rest p) S vs S' →
      Dfs h ord f (.attrs ((n, .val v) :: rest) p) S vs S'
  | ref {f n l rest p S vs S1 ws S2} : Dfs h ord f (.visit l (p ++ [n])) S vs S1 →
      Dfs h ord f (.attrs rest p) S1 ws S2 → Dfs h ord f (.attrs ((n, .ref l) :: rest) p) S (vs ++ ws) S2

/-- The id of the module at `l`. -/
def uidAt (h : Heap α) (l : Loc) : Nat := match h[l]? with | some o => o.uid | none => 0

theorem uidAt_of {h : Heap α} {l : Loc} {o : ModObj α} (e : h[l]? = some o) : uidAt h l = o.uid := by
  simp [uidAt, e]

theorem Dfs.seen_eq {h : Heap α} {ord f t S vs S'} (d : Dfs h ord f t S vs S') :
    S' = S ++ vs.map (fun x => uidAt h x.1) := by
  induction d with
  | seen _ _ => simp
  | visit e _ _ ih => simp [ih, uidAt_of e]
  | nil => simp
  | val _ ih => exact ih
  | ref _ _ ih1 ih2 => rw [ih2, ih1]; simp

theorem Dfs.nodup {h : Heap α} {ord f t S vs S'} (d : Dfs h ord f t S vs S') : S.Nodup → S'.Nodup := by
  induction d with
  | seen _ _ => exact id
  | visit e hn _ ih =>
    intro hS
    apply ih
    rw [List.nodup_append]
    refine ⟨hS, by simp, ?_⟩
    rintro a ha b hb rfl
    simp at hb
    subst hb
    exact hn ha
  | nil => exact id
  | val _ ih => exact ih
  | ref _ _ ih1 ih2 => exact fun h => ih2 (ih1 h)

theorem Dfs.lt {h : Heap α} {ord f t S vs S'} (d : Dfs h ord f t S vs S') : ∀ x ∈ vs, x.1 < h.length := by
  induction d with
  | seen _ _ => simp
  | visit e _ _ ih =>
    intro x hx
    rcases List.mem_cons.1 hx with rfl | hx
    · exact (List.getElem?_eq_some_iff.1 e).1
    · exact ih x hx
  | nil => simp
  | val _ ih => exact ih
  | ref _ _ ih1 ih2 =>
    intro x hx
    rcases List.mem_append.1 hx with hx | hx
    · exact ih1 x hx
    · exact ih2 x hx

/-- Where a task starts walking from: the module itself or the module that owns the attributes. -/
def Task.Ok (h : Heap α) (root : Loc) : Task α → Prop
  | .visit l p => Walk h root p l
  | .attrs as p => ∃ l, Walk h root p l ∧ ∀ n a, (n, a) ∈ as → attrAt h l n = some a

theorem attrAt_of_mem {h : Heap α} (wf : WFHeap h) {l : Loc} {o : ModObj α} (e : h[l]? = some o) {n : Str}
    {a : Attr α} (hm : (n, a) ∈ o.attrs) : attrAt h l n = some a := by
  simp only [attrAt, e]
  exact mem_dget (wf.nodup _ _ e) hm

/-- An order in which the attributes of a module are processed. -/
def IsOrder (ord : Dict Str (Attr α) → List (Str × Attr α)) : Prop := ∀ d, (ord d).Perm d

theorem isOrder_sort : IsOrder (α := α) sortItems := fun d => sortItems_perm d
theorem isOrder_id : IsOrder (α := α) id := fun _ => List.Perm.refl _

/-- Every visited module is reached by the recorded path. -/
theorem Dfs.walk {h : Heap α} (wf : WFHeap h) {ord} (hord : IsOrder ord) {root : Loc} {f t S vs S'}
    (d : Dfs h ord f t S vs S') : t.Ok h root → ∀ x ∈ vs, Walk h root x.2 x.1 := by
  induction d with
  | seen _ _ => simp
  | visit e _ _ ih =>
    intro hok x hx
    rcases List.mem_cons.1 hx with rfl | hx
    · exact hok
    · refine ih ⟨_, hok, ?_⟩ x hx
      intro n a hm
      exact attrAt_of_mem wf e ((hord _).mem_iff.1 hm)
  | nil => simp
  | val _ ih =>
    rintro ⟨l, hl, ha⟩
    exact ih ⟨l, hl, fun n a hm => ha n a (List.mem_cons_of_mem _ hm)⟩
  | ref _ _ ih1 ih2 =>
    rintro ⟨l, hl, ha⟩ x hx
    have href := ha _ _ List.mem_cons_self
    rcases List.mem_append.1 hx with hx | hx
    · exact ih1 (hl.snoc href (wf.refs _ _ _ href)) x hx
    · exact ih2 ⟨l, hl, fun n a hm => ha n a (List.mem_cons_of_mem _ hm)⟩ x hx

theorem Dfs.subset {h : Heap α} {ord f t S vs S'} (d : Dfs h ord f t S vs S') : ∀ u ∈ S, u ∈ S' := by
  intro u hu
  rw [d.seen_eq]
  exact List.mem_append_left _ hu

/-- The target of a task has been seen afterwards. -/
def Task.Done (h : Heap α) (S' : List Nat) : Task α → Prop
  | .visit l _ => uidAt h l ∈ S'
  | .attrs as _ => ∀ n l, (n, .ref l) ∈ as → uidAt h l ∈ S'

/-- After the traversal, all modules referenced by a visited module have been seen. -/
theorem Dfs.closed {h : Heap α} {ord} (hord : IsOrder ord) {f t S vs S'} (d : Dfs h ord f t S vs S') :
    t.Done h S' ∧ ∀ x ∈ vs, ∀ n l, attrAt h x.1 n = some (.ref l) → uidAt h l ∈ S' := by
  induction d with
  | seen e hu =>
    refine ⟨?_, by simp⟩
    simp only [Task.Done, uidAt_of e]; exact hu
  | visit e hu d ih =>
    refine ⟨?_, ?_⟩
    · simp only [Task.Done, uidAt_of e]
      exact d.subset _ (by simp)
    · intro x hx n l hl
      rcases List.mem_cons.1 hx with rfl | hx
      · simp only [attrAt, e] at hl
        exact ih.1 n l ((hord _).mem_iff.2 (dget_mem hl))
      · exact ih.2 x hx n l hl
  | nil => exact ⟨by simp [Task.Done], by simp⟩
  | val d ih =>
    refine ⟨?_, ih.2⟩
    intro n l hm
    rcases List.mem_cons.1 hm with hm | hm
    · simp at hm
    · exact ih.1 n l hm
  | ref d1 d2 ih1 ih2 =>
    refine ⟨?_, ?_⟩
    · intro n l hm
      rcases List.mem_cons.1 hm with hm | hm
      · simp only [Prod.mk.injEq, Attr.ref.injEq] at hm
        rw [hm.2]
        exact d2.subset _ ih1.1
      · exact ih2.1 n l hm
    · intro x hx n l hl
      rcases List.mem_append.1 hx with hx | hx
      · exact d2.subset _ (ih1.2 x hx n l hl)
      · exact ih2.2 x hx n l hl

/-- A complete traversal visits exactly the reachable modules, each once. -/
theorem Dfs.complete {h : Heap α} (wf : WFHeap h) {ord} (hord : IsOrder ord) {root : Loc}
    (hroot : root < h.length) {f vs S'} (d : Dfs h ord f (.visit root []) [] vs S') :
    (vs.map (·.1)).Nodup ∧ (∀ l, l ∈ vs.map (·.1) ↔ Reaches h root l) ∧
    (∀ x ∈ vs, Walk h root x.2 x.1) ∧ S' = vs.map (fun x => uidAt h x.1) := by
  have hseen : S' = vs.map (fun x => uidAt h x.1) := by simpa using d.seen_eq
  have hn : S'.Nodup := d.nodup List.nodup_nil
  have hw := d.walk wf hord (root := root) (.here hroot)
  refine ⟨?_, ?_, hw, hseen⟩
  · rw [hseen] at hn
    have : (vs.map (fun x => uidAt h x.1)) = (vs.map (·.1)).map (uidAt h) := by simp [Function.comp_def]
    rw [this] at hn
    exact List.Pairwise.of_map _ (fun a b hab e => hab (by rw [e])) hn
  · intro l
    constructor
    · intro hl
      obtain ⟨x, hx, rfl⟩ := List.mem_map.1 hl
      exact ⟨x.2, hw x hx⟩
    · rintro ⟨p, hp⟩
      have hclosed := d.closed hord
      have key : ∀ a p b, Walk h a p b → uidAt h a ∈ S' → uidAt h b ∈ S' := by
        intro a p b hp
        induction hp with
        | here _ => exact id
        | step ha hb ih =>
          intro hu
          apply ih
          rw [hseen] at hu
          obtain ⟨x, hx, hxu⟩ := List.mem_map.1 hu
          have h1 := d.lt x hx
          have h2 := attrAt_some_lt ha
          have : x.1 = _ := wf.uids _ _ _ _ (List.getElem?_eq_getElem h1) (List.getElem?_eq_getElem h2) (by
            simpa [uidAt, h1, h2] using hxu)
          exact hclosed.2 x hx _ _ (by rw [this]; exact ha)
      have hu := key _ _ _ hp hclosed.1
      rw [hseen] at hu
      obtain ⟨x, hx, hxu⟩ := List.mem_map.1 hu
      have h1 := d.lt x hx
      have h2 := hp.lt
      have : x.1 = l := wf.uids _ _ _ _ (List.getElem?_eq_getElem h1) (List.getElem?_eq_getElem h2) (by
        simpa [uidAt, h1, h2] using hxu)
      exact List.mem_map.2 ⟨x, hx, this⟩

/-- The traversal is deterministic. -/
theorem Dfs.functional {h : Heap α} {ord f f' t S vs S' vs' S''} (d : Dfs h ord f t S vs S') :
    Dfs h ord f' t S vs' S'' → vs' = vs ∧ S'' = S' := by
  induction d generalizing f' vs' S'' with
  | seen e hu =>
    intro d
    cases d with
    | seen => exact ⟨rfl, rfl⟩
    | visit e' hu' => rw [e] at e'; cases e'; exact absurd hu hu'
  | visit e hu _ ih =>
    intro d
    cases d with
    | seen e' hu' => rw [e] at e'; cases e'; exact absurd hu' hu
    | visit e' hu' d =>
      rw [e] at e'; cases e'
      obtain ⟨rfl, rfl⟩ := ih d
      exact ⟨rfl, rfl⟩
  | nil => intro d; cases d; exact ⟨rfl, rfl⟩
  | val _ ih => intro d; cases d with | val d => exact ih d
  | ref _ _ ih1 ih2 =>
    intro d
    cases d with
    | ref d1 d2 =>
      obtain ⟨rfl, rfl⟩ := ih1 d1
      obtain ⟨rfl, rfl⟩ := ih2 d2
      exact ⟨rfl, rfl⟩

/-- Locations whose id has not been seen. -/
def unseen (h : Heap α) (S : List Nat) : List (ModObj α) := h.filter (fun o => decide (o.uid ∉ S))

theorem unseen_mono {h : Heap α} {S S' : List Nat} (hs : ∀ u ∈ S, u ∈ S') :
    (unseen h S').length ≤ (unseen h S).length := by
  unfold unseen
  induction h with
  | nil => simp
  | cons o h ih =>
    simp only [List.filter_cons]
    by_cases h1 : o.uid ∈ S'
    · simp only [h1, not_true_eq_false, decide_false]
      by_cases h2 : o.uid ∈ S
      · simp only [h2, not_true_eq_false, decide_false]; exact ih
      · simp only [h2, not_false_eq_true, decide_true, if_true, List.length_cons]
        exact Nat.le_succ_of_le ih
    · have h2 : o.uid ∉ S := fun h => h1 (hs _ h)
      simp only [h1, h2, not_false_eq_true, decide_true, if_true, List.length_cons]
      exact Nat.succ_le_succ ih

theorem unseen_lt {h : Heap α} {S : List Nat} {l : Loc} {o : ModObj α} (e : h[l]? = some o) (hu : o.uid ∉ S) :
    (unseen h (S ++ [o.uid])).length < (unseen h S).length := by
  induction h generalizing l with
  | nil => simp at e
  | cons x h ih =>
    have hle := unseen_mono (h := h) (S := S) (S' := S ++ [o.uid]) (by simp; tauto)
    cases l with
    | zero =>
      simp only [List.getElem?_cons_zero, Option.some.injEq] at e
      subst e
      unfold unseen at hle ⊢
      rw [List.filter_cons_of_neg (by simp), List.filter_cons_of_pos (by simpa using hu)]
      simp only [List.length_cons]
      omega
    | succ l =>
      simp only [List.getElem?_cons_succ] at e
      have hlt := ih e
      unfold unseen at hlt ⊢
      by_cases h2 : x.uid ∈ S
      · rw [List.filter_cons_of_neg (by simp [h2]), List.filter_cons_of_neg (by simp [h2])]
        exact hlt
      · by_cases h3 : x.uid = o.uid
        · rw [List.filter_cons_of_neg (by simp [h3]), List.filter_cons_of_pos (by simp [h2])]
          simp only [List.length_cons]; omega
        · rw [List.filter_cons_of_pos (by simp [h2, h3]), List.filter_cons_of_pos (by simp [h2])]
          simp only [List.length_cons]; omega

/-- A recursion budget larger than the number of modules not yet seen is enough, on any graph. -/
theorem Dfs.exists {h : Heap α} (wf : WFHeap h) {ord} (hord : IsOrder ord) (f : Nat) :
    ∀ (l : Loc) (p : List Str) (S : List Nat), l < h.length → (unseen h S).length < f →
      ∃ vs S', Dfs h ord f (.visit l p) S vs S' := by
  induction f with
  | zero => intro l p S _ h; omega
  | succ f ih =>
    intro l p S hl hlt
    have e : h[l]? = some h[l] := List.getElem?_eq_getElem hl
    by_cases hu : h[l].uid ∈ S
    · exact ⟨_, _, .seen e hu⟩
    · have hlt' := unseen_lt e hu
      have inner : ∀ (as : List (Str × Attr α)) (S : List Nat), (∀ n l, (n, .ref l) ∈ as → l < h.length) →
          (unseen h S).length < f → ∃ vs S', Dfs h ord f (.attrs as p) S vs S' := by
        intro as
        induction as with
        | nil => intro S _ _; exact ⟨_, _, .nil⟩
        | cons a as iha =>
          intro S hr hS
          obtain ⟨n, a⟩ := a
          cases a with
          | val v =>
            obtain ⟨vs, S', d⟩ := iha S (fun n l hm => hr n l (List.mem_cons_of_mem _ hm)) hS
            exact ⟨_, _, .val d⟩
          | ref l' =>
            obtain ⟨vs, S1, d1⟩ := ih l' (p ++ [n]) S (hr n l' List.mem_cons_self) hS
            obtain ⟨ws, S2, d2⟩ := iha S1 (fun n l hm => hr n l (List.mem_cons_of_mem _ hm))
              (Nat.lt_of_le_of_lt (unseen_mono d1.subset) hS)
            exact ⟨_, _, .ref d1 d2⟩
      obtain ⟨vs, S', d⟩ := inner (ord h[l].attrs) (S ++ [h[l].uid]) (by
        intro n l' hm
        exact wf.refs l n l' (attrAt_of_mem wf e ((hord _).mem_iff.1 hm))) (by omega)
      exact ⟨_, _, .visit e hu d⟩

end Nnx
