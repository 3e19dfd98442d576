import Verif.Proofs.Evolve
import Verif.Proofs.UpdateState
import Verif.Proofs.Like
/-
A module with the values of another State.
-/
namespace Nnx
variable {α : Type}

open Classical in
/-- The attribute `n` of module `l` with the value that `fin` has for it. -/
noncomputable def reAttr (h : Heap α) (root : Loc) (fin : State (PyVal α)) (l : Loc) (n : Str) (a : Attr α) : Attr α :=
  if e : ∃ v k, fin.get k = some v ∧ Addresses h root k l n then .val e.choose else a

/-- The heap with the values of `fin`. -/
noncomputable def revalue (h : Heap α) (root : Loc) (fin : State (PyVal α)) : Heap α :=
  h.mapIdx fun l o => { o with attrs := o.attrs.map fun na => (na.1, reAttr h root fin l na.1 na.2) }

theorem dget_map_key {V W : Type} (g : Str → V → W) (d : List (Str × V)) (n : Str) :
    dget (d.map fun na => (na.1, g na.1 na.2)) n = (dget d n).map (g n) := by
  induction d with
  | nil => rfl
  | cons x d ih =>
    simp only [List.map_cons, dget]
    split
    · next h => subst h; rfl
    · exact ih

theorem revalue_get (h : Heap α) (root : Loc) (fin : State (PyVal α)) (l : Loc) :
    (revalue h root fin)[l]? = (h[l]?).map fun o => { o with attrs := o.attrs.map fun na => (na.1, reAttr h root fin l na.1 na.2) } := by
  simp only [revalue, List.getElem?_mapIdx]

theorem revalue_attr (h : Heap α) (root : Loc) (fin : State (PyVal α)) (l : Loc) (n : Str) :
    attrAt (revalue h root fin) l n = (attrAt h l n).map (reAttr h root fin l n) := by
  simp only [attrAt, revalue_get]
  cases h[l]? with
  | none => rfl
  | some o => exact dget_map_key _ _ _

/-- The module with the values of `fin` has the ModuleDef of the module and the state `fin`. -/
theorem revalue_spec {h : Heap α} (wf : WFHeap h) {root : Loc} (hroot : root < h.length) {f : Nat} {s : State (PyVal α)}
    (hs : getState f h root = some s) {d : ModuleDef α} {f1 : Nat} (hd : getModuleDef f1 h root = some d) {fin : State (PyVal α)}
    (hc : fin.Canonical) (hk : ∀ k, (fin.get k).isSome = (s.get k).isSome)
    (hv : ∀ k v, fin.get k = some v → v.isNode = true ∧ WFVal v) :
    WFHeap (revalue h root fin) ∧ (revalue h root fin).length = h.length ∧
      getState f (revalue h root fin) root = some fin ∧ getModuleDef f1 (revalue h root fin) root = some d := by
  have hlen : (revalue h root fin).length = h.length := by simp [revalue]
  obtain ⟨hp1, hp2, hp3⟩ := state_paths wf hroot hs
  -- an attribute of the new heap
  have hattr : ∀ l n a, attrAt h l n = some a → attrAt (revalue h root fin) l n = some a ∨
      ∃ k u v, s.get k = some u ∧ fin.get k = some v ∧ Addresses h root k l n ∧ a = .val u ∧ u.isNode = true ∧
        attrAt (revalue h root fin) l n = some (.val v) := by
    intro l n a ha
    rw [revalue_attr, ha, Option.map_some, reAttr]
    split
    · next e =>
      right
      obtain ⟨k, h1, h2⟩ := e.choose_spec
      have := hk k
      rw [h1] at this
      obtain ⟨u, hu⟩ := Option.isSome_iff_exists.1 this.symm
      obtain ⟨l', n', h3, h4, h5⟩ := hp1 k u hu
      obtain ⟨rfl, rfl⟩ := h2.functional h3
      rw [ha] at h4; cases h4
      exact ⟨k, u, _, hu, h1, h2, rfl, h5, rfl⟩
    · exact .inl rfl
  have hback : ∀ l n a, attrAt (revalue h root fin) l n = some a → ∃ a', attrAt h l n = some a' := by
    intro l n a ha
    rw [revalue_attr] at ha
    cases h' : attrAt h l n with
    | none => rw [h'] at ha; cases ha
    | some a' => exact ⟨a', rfl⟩
  have hobj : ∀ (l : Loc) (o' : ModObj α), (revalue h root fin)[l]? = some o' → ∃ o : ModObj α, h[l]? = some o ∧ o'.uid = o.uid ∧ o'.cls = o.cls ∧ o'.isInit = o.isInit ∧
      dkeys o'.attrs = dkeys o.attrs := by
    intro l o' ho'
    rw [revalue_get] at ho'
    obtain ⟨o, ho, rfl⟩ := Option.map_eq_some_iff.1 ho'
    exact ⟨o, ho, rfl, rfl, rfl, by simp [dkeys]⟩
  have hwf : WFHeap (revalue h root fin) := by
    refine ⟨?_, ?_, ?_, ?_, ?_, ?_⟩
    · intro l o' ho'
      obtain ⟨o, ho, _, _, _, e⟩ := hobj l o' ho'
      have := wf.nodup l o ho
      simp only [DNodup] at this ⊢
      rw [e]; exact this
    · intro l n l' ha
      obtain ⟨a', ha'⟩ := hback _ _ _ ha
      rcases hattr _ _ _ ha' with h1 | ⟨_, _, _, _, _, _, _, _, h1⟩
      · rw [h1] at ha; cases ha
        rw [hlen]; exact wf.refs _ _ _ ha'
      · rw [h1] at ha; cases ha
    · intro l l' o o' ho ho' hu
      obtain ⟨o1, h1, e1, _⟩ := hobj l o ho
      obtain ⟨o2, h2, e2, _⟩ := hobj l' o' ho'
      exact wf.uids _ _ _ _ h1 h2 (by rw [← e1, ← e2, hu])
    · intro l n c v m ha
      obtain ⟨a', ha'⟩ := hback _ _ _ ha
      rcases hattr _ _ _ ha' with h1 | ⟨k, u, v', _, hv', _, _, _, h1⟩
      · rw [h1] at ha; cases ha
        exact wf.conts _ _ _ _ _ ha'
      · rw [h1] at ha; cases ha
        rcases (hv _ _ hv').2 with h' | h'
        · cases h'
        · exact h'
    · intro l n a ha
      obtain ⟨a', ha'⟩ := hback _ _ _ ha
      exact wf.slash _ _ _ ha'
    · intro l n a ha
      obtain ⟨a', ha'⟩ := hback _ _ _ ha
      exact wf.reserved _ _ _ ha'
  have hcore : CoreEq h (revalue h root fin) root := by
    rintro a ⟨q, hq⟩
    have hlt := hq.lt
    have ho : h[a]? = some h[a] := List.getElem?_eq_getElem hlt
    have hlt' : a < (revalue h root fin).length := by rw [hlen]; exact hlt
    have ho' : (revalue h root fin)[a]? = some (revalue h root fin)[a] := List.getElem?_eq_getElem hlt'
    obtain ⟨o, ho1, e1, e2, e3, _⟩ := hobj a _ ho'
    rw [ho] at ho1; cases ho1
    refine ⟨_, _, ho, ho', e1, e2, e3, core_sort (hwf.nodup _ _ ho') (wf.nodup _ _ ho) ?_⟩
    intro n x hx
    have hat : ∀ h : Heap α, ∀ o, h[a]? = some o → attrAt h a n = dget o.attrs n := by
      intro h o ho; simp only [attrAt, ho]
    rw [← hat _ _ ho, ← hat _ _ ho']
    cases hah : attrAt h a n with
    | none => rw [revalue_attr, hah]; rfl
    | some b =>
      rcases hattr a n b hah with h1 | ⟨k, u, v, _, hv', _, rfl, hu, h1⟩
      · rw [h1]
      · rw [h1]
        constructor
        · intro h2; cases h2
          rw [Attr.isNode, (hv _ _ hv').1] at hx; cases hx
        · intro h2; cases h2
          rw [Attr.isNode, hu] at hx; cases hx
  have hroot' : root < (revalue h root fin).length := by rw [hlen]; exact hroot
  refine ⟨hwf, hlen, ?_, ?_⟩
  · obtain ⟨vs, S', dfs, _, hg⟩ := getState_spec wf hroot hs
    have dfs' := dfs.core wf hcore (.here hroot)
    obtain ⟨s', hs'⟩ := dfs'.getState
    obtain ⟨vs', S'', dfs2, hc', hg'⟩ := getState_spec hwf hroot' hs'
    obtain ⟨rfl, rfl⟩ := dfs'.functional dfs2
    rw [hs']
    congr 1
    refine State.Canonical.ext hc' hc ?_
    have haddr : ∀ z ∈ vs', ∀ n v, attrAt h z.1 n = some v → Addresses h root (joinSlash (z.2 ++ [n])) z.1 n := by
      intro z hz n v hv
      have hwk := dfs.walk wf isOrder_sort (.here hroot) z hz
      refine ⟨z.2, ?_, hwk⟩
      rw [split_join (by simp)]
      intro t ht
      rcases List.mem_append.1 ht with h' | h'
      · exact hwk.noSlash wf t h'
      · simp at h'; subst h'; exact wf.slash _ _ _ hv
    intro k
    cases hfk : fin.get k with
    | none =>
      cases hsk : s'.get k with
      | none => rfl
      | some x =>
        exfalso
        obtain ⟨z, hz, n, h1, h2, rfl⟩ := (hg' k x).1 hsk
        obtain ⟨a', ha'⟩ := hback _ _ _ h1
        have hsn : s.get (joinSlash (z.2 ++ [n])) = none := by
          have := hk (joinSlash (z.2 ++ [n])); rw [hfk] at this
          cases h : s.get (joinSlash (z.2 ++ [n])) with
          | none => rfl
          | some _ => rw [h] at this; cases this
        rcases hattr _ _ _ ha' with h3 | ⟨k1, u, v, h3, _, h4, h5, h6, _⟩
        · rw [h3] at h1; cases h1
          rw [(hg _ x).2 ⟨z, hz, n, ha', h2, rfl⟩] at hsn; cases hsn
        · rw [(hg _ u).2 ⟨z, hz, n, by rw [ha', h5], h6, rfl⟩] at hsn; cases hsn
    | some v =>
      have := hk k
      rw [hfk] at this
      obtain ⟨u, hu⟩ := Option.isSome_iff_exists.1 this.symm
      obtain ⟨z, hz, n, h1, h2, rfl⟩ := (hg k u).1 hu
      refine (hg' _ v).2 ⟨z, hz, n, ?_, (hv _ _ hfk).1, rfl⟩
      rw [revalue_attr, h1, Option.map_some, reAttr]
      have e : ∃ v k, fin.get k = some v ∧ Addresses h root k z.1 n := ⟨v, _, hfk, haddr z hz n _ h1⟩
      rw [dif_pos e]
      obtain ⟨k', h3, h4⟩ := e.choose_spec
      have hkk := hp2 k' _ z.1 n (by rw [← hk, h3]; rfl) (by rw [hu]; rfl) h4 (haddr z hz n _ h1)
      rw [hkk, hfk] at h3
      rw [← Option.some.inj h3]
  · unfold getModuleDef at hd ⊢
    rw [makeDefRec_core wf hcore f1 root [] ⟨[], .here hroot⟩]
    exact hd

end Nnx
