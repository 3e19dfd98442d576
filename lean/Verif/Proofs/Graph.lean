import Verif.Proofs.Merge
/-
Existence of states and definitions, the specification of merge and clone.
-/
namespace Nnx
variable {α : Type} [DecidableEq α]

omit [DecidableEq α] in
theorem Dfs.makeDef {h : Heap α} {f t S vs S'} (d : Dfs h sortItems f t S vs S') :
    match t with
    | .visit l _ => ∃ d, makeDefRec h f l S = some (d, S')
    | .attrs as _ => ∃ a b, makeDefAttrs (makeDefRec h f) as S = some (a, b, S') := by
  induction d with
  | seen e hu => exact ⟨_, by simp only [makeDefRec, e, hu, if_true]; rfl⟩
  | visit e hu d ih =>
    obtain ⟨a, b, hy⟩ := ih
    exact ⟨_, by simp only [makeDefRec, e, hu, if_false, hy]; rfl⟩
  | nil => exact ⟨_, _, by simp only [makeDefAttrs]; rfl⟩
  | @val f n v rest p S vs S' d ih =>
    obtain ⟨a, b, hy⟩ := ih
    by_cases hv : (!v.isNode && !isReserved n) = true
    · exact ⟨a, (n, v) :: b, by simp only [makeDefAttrs, hy, hv, if_true]⟩
    · exact ⟨a, b, by simp only [makeDefAttrs, hy]; rw [if_neg hv]⟩
  | ref d1 d2 ih1 ih2 =>
    obtain ⟨dd, hd⟩ := ih1
    obtain ⟨a, b, hz⟩ := ih2
    exact ⟨_, _, by simp only [makeDefAttrs, hd, hz]; rfl⟩

omit [DecidableEq α] in
theorem unseen_le (h : Heap α) (S : List Nat) : (unseen h S).length ≤ h.length := List.length_filter_le _ _

omit [DecidableEq α] in
theorem getState_exists {h : Heap α} (wf : WFHeap h) {root : Loc} (hroot : root < h.length) {fuel : Nat}
    (hf : h.length < fuel) : ∃ s, getState fuel h root = some s := by
  obtain ⟨vs, S', d⟩ := Dfs.exists wf isOrder_sort fuel root [] [] hroot
    (Nat.lt_of_le_of_lt (unseen_le _ _) hf)
  obtain ⟨ys, hy⟩ := d.iterState
  exact ⟨_, by simp only [getState, hy]; rfl⟩

omit [DecidableEq α] in
theorem getModuleDef_exists {h : Heap α} (wf : WFHeap h) {root : Loc} (hroot : root < h.length) {fuel : Nat}
    (hf : h.length < fuel) : ∃ d, getModuleDef fuel h root = some d := by
  obtain ⟨vs, S', d⟩ := Dfs.exists wf isOrder_sort fuel root [] [] hroot
    (Nat.lt_of_le_of_lt (unseen_le _ _) hf)
  obtain ⟨m, hm⟩ := d.makeDef
  unfold getModuleDef
  rw [hm]
  cases m with
  | inr m => exact ⟨m, rfl⟩
  | inl i =>
    exfalso
    cases fuel with
    | zero => simp [makeDefRec] at hm
    | succ fuel =>
      rw [makeDefRec] at hm
      split at hm
      · cases hm
      · simp only [List.not_mem_nil, if_false] at hm
        split at hm <;> simp at hm

omit [DecidableEq α] in
theorem getState_canonical {h : Heap α} {fuel : Nat} {root : Loc} {s : State (PyVal α)}
    (e : getState fuel h root = some s) : s.Canonical := by
  unfold getState at e
  split at e
  · cases e
  · simp only [Option.some.injEq] at e; subst e; exact State.new_strict _

omit [DecidableEq α] in
/-- States that together hold exactly the entries of `s`. -/
def Pieces (s : State (PyVal α)) (ss : List (State (PyVal α))) : Prop :=
  (∀ t ∈ ss, t.Canonical) ∧ (∀ t ∈ ss, ∀ k v, t.get k = some v → s.get k = some v) ∧
  (∀ k v, s.get k = some v → ∃ t ∈ ss, t.get k = some v)

omit [DecidableEq α] in
theorem Pieces.entries {s : State (PyVal α)} {ss : List (State (PyVal α))} (hp : Pieces s ss) :
    DNodup ((State.new [] :: ss).foldl (fun d t => dupdate d t.items) []) ∧
    ∀ k v, (k, v) ∈ (State.new [] :: ss).foldl (fun d t => dupdate d t.items) [] ↔ s.get k = some v := by
  have hn : DNodup ((State.new [] :: ss).foldl (fun d t => dupdate d t.items) ([] : Dict Str (PyVal α))) :=
    foldl_dupdate_nodup _ _ (by simp [DNodup])
  refine ⟨hn, fun k v => ?_⟩
  rw [← dget_iff_mem hn, foldl_dupdate_get _ _ (by
    intro t ht
    rcases List.mem_cons.1 ht with rfl | ht
    · exact (State.new_strict _).nodup
    · exact (hp.1 t ht).nodup)]
  have hnil : (State.new ([] : List (Str × PyVal α))).get k = none := rfl
  constructor
  · intro e
    cases hfs : (State.new [] :: ss).reverse.findSome? (fun t => t.get k) with
    | none => rw [hfs] at e; simp [dget] at e
    | some v' =>
      rw [hfs] at e
      simp only [Option.orElse_some, Option.some.injEq] at e
      subst e
      obtain ⟨t, ht, htv⟩ := List.exists_of_findSome?_eq_some hfs
      rcases List.mem_cons.1 (List.mem_reverse.1 ht) with rfl | ht
      · rw [hnil] at htv; cases htv
      · exact hp.2.1 t ht k v' htv
  · intro hv
    obtain ⟨t, ht, htv⟩ := hp.2.2 k v hv
    cases hfs : (State.new [] :: ss).reverse.findSome? (fun t => t.get k) with
    | none =>
      have := List.findSome?_eq_none_iff.1 hfs t (by simp [ht])
      rw [htv] at this; cases this
    | some v' =>
      obtain ⟨t', ht', htv'⟩ := List.exists_of_findSome?_eq_some hfs
      rcases List.mem_cons.1 (List.mem_reverse.1 ht') with rfl | ht'
      · rw [hnil] at htv'; cases htv'
      · have := hp.2.1 t' ht' k v' htv'
        rw [hv] at this; simp only [Option.some.injEq] at this; subst this; rfl

/-- `merge` of the definition and pieces of the state of a graph, in any world. -/
theorem mergeDef_spec {h : Heap α} (wf : WFHeap h) {root : Loc} (hroot : root < h.length) {f1 f2 : Nat}
    {d : ModuleDef α} (hd : getModuleDef f1 h root = some d) {s : State (PyVal α)}
    (hs : getState f2 h root = some s) {ss : List (State (PyVal α))} (hp : Pieces s ss) {w : World α}
    (hcwf : ∀ l n c x m, attrAt w.heap l n = some (.val (.cont c x m)) → WFContainer (.cont c x m)) :
    ∃ w' f, mergeDef d ss w = (w', .ok w.heap.length) ∧ MergeSpec h root w w' f := by
  obtain ⟨w1, f, hb, hbs⟩ := getModuleDef_build wf hroot hd w
  obtain ⟨hn, hE⟩ := hp.entries
  obtain ⟨w', ha, hm⟩ := fill_spec wf hroot hs hn hE hbs hcwf
  refine ⟨w', f, ?_, hm⟩
  simp only [mergeDef, hb, updateModule, ha]

omit [DecidableEq α] in
theorem pieces_self {s : State (PyVal α)} (hs : s.Canonical) : Pieces s [s] :=
  ⟨by simpa using hs, by simp, by simp⟩

theorem clone_spec {w : World α} (wf : WFHeap w.heap) {root : Loc} (hroot : root < w.heap.length) {fuel : Nat}
    (hf : w.heap.length < fuel) :
    ∃ w' f, cloneModule fuel root w = (w', .ok w.heap.length) ∧ MergeSpec w.heap root w w' f := by
  obtain ⟨d, hd⟩ := getModuleDef_exists wf hroot hf
  obtain ⟨s, hs⟩ := getState_exists wf hroot hf
  obtain ⟨w', f, hm, hsp⟩ := mergeDef_spec wf hroot hd hs (pieces_self (getState_canonical hs)) (w := w) wf.conts
  exact ⟨w', f, by simp only [cloneModule, partitionModule, hd, hs, hm], hsp⟩

/-! ### Transport along an isomorphism -/

omit [DecidableEq α] in
theorem GraphIso.walk {h h' : Heap α} (wf : WFHeap h) {r r' : Loc} {f : Loc → Loc} (g : GraphIso h r h' r' f)
    {a b : Loc} {p : List Str} (ha : Reaches h r a) (hw : Walk h a p b) : Walk h' (f a) p (f b) := by
  induction hw with
  | @here a hl =>
    obtain ⟨o', ho', _⟩ := g.obj a _ ha (List.getElem?_eq_getElem hl)
    exact .here (List.getElem?_eq_some_iff.1 ho').1
  | step e _ ih =>
    refine .step ?_ (ih (ha.step wf e))
    rw [g.attr _ ha, e]; rfl

omit [DecidableEq α] in
theorem GraphIso.walk_back {h h' : Heap α} (wf : WFHeap h) {r r' : Loc} {f : Loc → Loc} (g : GraphIso h r h' r' f)
    {p : List Str} : ∀ {a b' : Loc}, Reaches h r a → Walk h' (f a) p b' → ∃ b, b' = f b ∧ Walk h a p b := by
  induction p with
  | nil =>
    intro a b' ha hw
    cases hw
    obtain ⟨q, hq⟩ := ha
    exact ⟨a, rfl, .here hq.lt⟩
  | cons n p ih =>
    intro a b' ha hw
    cases hw with
    | step e hw' =>
      rw [g.attr _ ha] at e
      cases hat : attrAt h a n with
      | none => rw [hat] at e; simp at e
      | some x =>
        rw [hat] at e
        cases x with
        | val v => simp [Attr.redirect] at e
        | ref c =>
          simp only [Option.map_some, Attr.redirect, Option.some.injEq, Attr.ref.injEq] at e
          subst e
          obtain ⟨b, hb, hw⟩ := ih (ha.step wf hat) hw'
          exact ⟨b, hb, .step hat hw⟩

/-- The Modules reachable from `root` in `h` were copied to the end of the heap of `w`, with new ids. -/
structure CopySpec (h : Heap α) (root : Loc) (w w' : World α) (f : Loc → Loc) : Prop where
  iso : GraphIso h root w'.heap w.heap.length f
  len : w.heap.length ≤ w'.heap.length
  old : ∀ j : Nat, j < w.heap.length → w'.heap[j]? = w.heap[j]?
  ge : ∀ l, w.heap.length ≤ f l
  surj : ∀ j : Nat, w.heap.length ≤ j → j < w'.heap.length → ∃ l, Reaches h root l ∧ f l = j
  fresh : ∀ (j : Nat) (o : ModObj α), w.heap.length ≤ j → w'.heap[j]? = some o →
    w.nextId < o.uid ∧ o.uid ≤ w'.nextId
  uniq : ∀ (j j' : Nat) (o o' : ModObj α), w.heap.length ≤ j → w.heap.length ≤ j' → w'.heap[j]? = some o →
    w'.heap[j']? = some o' → o.uid = o'.uid → j = j'
  nodup : ∀ (j : Nat) (o : ModObj α), w.heap.length ≤ j → w'.heap[j]? = some o → DNodup o.attrs

omit [DecidableEq α] in
theorem MergeSpec.copied {h : Heap α} {root : Loc} {w w' : World α} {f : Loc → Loc} (m : MergeSpec h root w w' f) :
    CopySpec h root w w' f :=
  ⟨m.iso, m.len, m.old, m.ge, m.surj, fun j o hj ho => ⟨(m.fresh j o hj ho).1, (m.fresh j o hj ho).2.1⟩, m.uniq, m.nodup⟩

omit [DecidableEq α] in
/-- The heap after copying is well formed. -/
theorem CopySpec.wf {h : Heap α} (wf : WFHeap h) {root : Loc} {w w' : World α}
    {f : Loc → Loc} (m : CopySpec h root w w' f)
    (wfw : WFHeap w.heap) (hids : ∀ (l : Loc) (o : ModObj α), w.heap[l]? = some o → o.uid ≤ w.nextId) : WFHeap w'.heap := by
  have hold : ∀ l n, l < w.heap.length → attrAt w'.heap l n = attrAt w.heap l n := by
    intro l n hl; simp only [attrAt, m.old l hl]
  have hnew : ∀ l n a, attrAt w'.heap l n = some a → ¬ l < w.heap.length → ∃ l0, Reaches h root l0 ∧ f l0 = l ∧
      (attrAt h l0 n).map (Attr.redirect f) = some a := by
    intro l n a e hl
    obtain ⟨l0, hl0, rfl⟩ := m.surj l (Nat.le_of_not_lt hl) (attrAt_some_lt e)
    exact ⟨l0, hl0, rfl, by rw [← m.iso.attr _ hl0]; exact e⟩
  refine ⟨?_, ?_, ?_, ?_, ?_, ?_⟩
  · intro l o ho
    by_cases hl : l < w.heap.length
    · rw [m.old _ hl] at ho; exact wfw.nodup _ _ ho
    · exact m.nodup _ _ (Nat.le_of_not_lt hl) ho
  · intro l n l' e
    by_cases hl : l < w.heap.length
    · rw [hold _ _ hl] at e
      exact Nat.lt_of_lt_of_le (wfw.refs _ _ _ e) m.len
    · obtain ⟨l0, hl0, rfl, e'⟩ := hnew _ _ _ e hl
      cases hat : attrAt h l0 n with
      | none => rw [hat] at e'; simp [Attr.redirect] at e'
      | some x =>
        rw [hat] at e'
        cases x with
        | val v => simp [Attr.redirect] at e'
        | ref c =>
          simp only [Option.map_some, Attr.redirect, Option.some.injEq, Attr.ref.injEq] at e'
          subst e'
          have hc := hl0.step wf hat
          obtain ⟨p, hp⟩ := hc
          obtain ⟨o', ho', _⟩ := m.iso.obj c _ ⟨p, hp⟩ (List.getElem?_eq_getElem hp.lt)
          exact (List.getElem?_eq_some_iff.1 ho').1
  · intro l l' o o' ho ho' hu
    by_cases hl : l < w.heap.length <;> by_cases hl' : l' < w.heap.length
    · rw [m.old _ hl] at ho; rw [m.old _ hl'] at ho'
      exact wfw.uids _ _ _ _ ho ho' hu
    · rw [m.old _ hl] at ho
      have h1 := hids _ _ ho
      have h2 := (m.fresh _ _ (Nat.le_of_not_lt hl') ho').1
      omega
    · rw [m.old _ hl'] at ho'
      have h1 := hids _ _ ho'
      have h2 := (m.fresh _ _ (Nat.le_of_not_lt hl) ho).1
      omega
    · exact m.uniq _ _ _ _ (Nat.le_of_not_lt hl) (Nat.le_of_not_lt hl') ho ho' hu
  · intro l n c v md e
    by_cases hl : l < w.heap.length
    · rw [hold _ _ hl] at e; exact wfw.conts _ _ _ _ _ e
    · obtain ⟨l0, hl0, rfl, e'⟩ := hnew _ _ _ e hl
      cases hat : attrAt h l0 n with
      | none => rw [hat] at e'; simp [Attr.redirect] at e'
      | some x =>
        rw [hat] at e'
        cases x with
        | ref c => simp [Attr.redirect] at e'
        | val v' =>
          simp only [Option.map_some, Attr.redirect, Option.some.injEq, Attr.val.injEq] at e'
          subst e'
          exact wf.conts _ _ _ _ _ hat
  · intro l n a e
    by_cases hl : l < w.heap.length
    · rw [hold _ _ hl] at e; exact wfw.slash _ _ _ e
    · obtain ⟨l0, hl0, rfl, e'⟩ := hnew _ _ _ e hl
      cases hat : attrAt h l0 n with
      | none => rw [hat] at e'; simp [Attr.redirect] at e'
      | some x => exact wf.slash _ _ _ hat
  · intro l n a e
    by_cases hl : l < w.heap.length
    · rw [hold _ _ hl] at e; exact wfw.reserved _ _ _ e
    · obtain ⟨l0, hl0, rfl, e'⟩ := hnew _ _ _ e hl
      cases hat : attrAt h l0 n with
      | none => rw [hat] at e'; simp [Attr.redirect] at e'
      | some x => exact wf.reserved _ _ _ hat

omit [DecidableEq α] in
/-- The heap after a merge is well formed. -/
theorem MergeSpec.wf {h : Heap α} (wf : WFHeap h) {root : Loc} {w w' : World α}
    {f : Loc → Loc} (m : MergeSpec h root w w' f)
    (wfw : WFHeap w.heap) (hids : ∀ (l : Loc) (o : ModObj α), w.heap[l]? = some o → o.uid ≤ w.nextId) : WFHeap w'.heap :=
  m.copied.wf wf wfw hids

end Nnx
