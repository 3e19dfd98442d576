import Verif.Spec.ModuleKeys
import Verif.Proofs.History
import Verif.Props.ModuleGraph
/-
C110: Modules as keys of dictionaries.
-/
namespace Nnx
variable {α V : Type}

/-- The keys of a dictionary, in order. -/
def KeyDict.keys (d : KeyDict V) : List Loc := d.map (·.2.1)

/-- The entries have the hashes the keys have now, and no key occurs twice. -/
structure KeyInv (H : KeyHash) (h : Heap α) (d : KeyDict V) : Prop where
  hash : ∀ e ∈ d, moduleHash H h e.2.1 = .ok e.1
  nodup : d.keys.Nodup

theorem find_none_of {d : KeyDict V} {k : Nat} {l : Loc} (h : l ∉ d.keys) : d.find k l = none := by
  induction d with
  | nil => rfl
  | cons e d ih =>
    obtain ⟨k', m, v⟩ := e
    simp only [KeyDict.keys, List.map_cons, List.mem_cons, not_or] at h
    rw [KeyDict.find, if_neg (fun c => h.1 c.2.symm)]
    exact ih h.2

theorem find_mem {H : KeyHash} {h : Heap α} {d : KeyDict V} (hd : KeyInv H h d) {k : Nat} {l : Loc} (hk : moduleHash H h l = .ok k) :
    (d.find k l).isSome ↔ l ∈ d.keys := by
  induction d with
  | nil => simp [KeyDict.find, KeyDict.keys]
  | cons e d ih =>
    obtain ⟨k', m, v⟩ := e
    have ih := ih ⟨fun e he => hd.hash e (List.mem_cons_of_mem _ he), (List.nodup_cons.1 hd.nodup).2⟩
    rw [KeyDict.find]
    by_cases hm : m = l
    · subst hm
      have := hd.hash _ (List.mem_cons_self ..)
      rw [hk] at this
      cases this
      simp [KeyDict.keys]
    · rw [if_neg (fun c => hm c.2), ih]
      simp only [KeyDict.keys, List.map_cons, List.mem_cons]
      exact ⟨.inr, fun c => c.resolve_left (fun c => hm c.symm)⟩

theorem put_keys {H : KeyHash} {h : Heap α} {d : KeyDict V} (hd : KeyInv H h d) {k : Nat} {l : Loc} (hk : moduleHash H h l = .ok k) (v : V) :
    (d.put k l v).keys = if l ∈ d.keys then d.keys else d.keys ++ [l] := by
  induction d with
  | nil => simp [KeyDict.put, KeyDict.keys]
  | cons e d ih =>
    obtain ⟨k', m, u⟩ := e
    have ih := ih ⟨fun e he => hd.hash e (List.mem_cons_of_mem _ he), (List.nodup_cons.1 hd.nodup).2⟩
    rw [KeyDict.put]
    by_cases hm : m = l
    · subst hm
      have := hd.hash _ (List.mem_cons_self ..)
      rw [hk] at this
      cases this
      simp [KeyDict.keys]
    · rw [if_neg (fun c => hm c.2)]
      simp only [KeyDict.keys, List.map_cons, List.mem_cons] at ih ⊢
      rw [ih]
      have : ¬ l = m := fun c => hm c.symm
      simp only [this, false_or]
      by_cases hx : l ∈ List.map (fun x : Nat × Loc × V => x.2.1) d <;> simp [hx]

theorem find_put {d : KeyDict V} {k k' : Nat} {l l' : Loc} (v : V) (hkk : l = l' → k = k') :
    (d.put k l v).find k' l' = if l = l' then some v else d.find k' l' := by
  induction d with
  | nil =>
    rw [KeyDict.put, KeyDict.find, KeyDict.find]
    by_cases h : l = l'
    · rw [if_pos ⟨hkk h, h⟩, if_pos h]
    · rw [if_neg (fun c => h c.2), if_neg h]; rfl
  | cons e d ih =>
    obtain ⟨a, m, u⟩ := e
    rw [KeyDict.put]
    by_cases hm : a = k ∧ m = l
    · rw [if_pos hm, KeyDict.find, KeyDict.find]
      obtain ⟨rfl, rfl⟩ := hm
      by_cases h : m = l'
      · rw [if_pos ⟨hkk h, h⟩, if_pos h]
      · rw [if_neg (fun c => h c.2), if_neg h, if_neg (fun c => h c.2)]
    · rw [if_neg hm, KeyDict.find, KeyDict.find, ih]
      by_cases h : l = l'
      · have := hkk h
        subst h; subst this
        rw [if_pos rfl, if_neg hm, if_pos rfl]
      · rw [if_neg h, if_neg h]

theorem erase_sub {d : KeyDict V} {k : Nat} {l : Loc} : (d.erase k l).Sublist d := by
  induction d with
  | nil => exact List.Sublist.refl _
  | cons e d ih =>
    obtain ⟨a, m, u⟩ := e
    rw [KeyDict.erase]
    split
    · exact List.sublist_cons_self ..
    · exact ih.cons_cons _

theorem find_erase {H : KeyHash} {h : Heap α} {d : KeyDict V} (hd : KeyInv H h d) {k k' : Nat} {l l' : Loc} (hk : moduleHash H h l = .ok k) :
    (d.erase k l).find k' l' = if l = l' then none else d.find k' l' := by
  induction d with
  | nil => simp [KeyDict.erase, KeyDict.find]
  | cons e d ih =>
    obtain ⟨a, m, u⟩ := e
    have ih := ih ⟨fun e he => hd.hash e (List.mem_cons_of_mem _ he), (List.nodup_cons.1 hd.nodup).2⟩
    rw [KeyDict.erase]
    by_cases hm : m = l
    · subst hm
      have := hd.hash _ (List.mem_cons_self ..)
      rw [hk] at this
      cases this
      rw [if_pos ⟨rfl, rfl⟩, KeyDict.find]
      by_cases h : m = l'
      · subst h
        rw [if_pos rfl]
        exact find_none_of (List.nodup_cons.1 hd.nodup).1
      · rw [if_neg h, if_neg (fun c => h c.2)]
    · rw [if_neg (fun c => hm c.2), KeyDict.find, KeyDict.find, ih]
      by_cases h : l = l'
      · subst h
        rw [if_pos rfl, if_neg (fun c => hm c.2), if_pos rfl]
      · rw [if_neg h, if_neg h]

theorem put_mem {d : KeyDict V} {k : Nat} {l : Loc} {v : V} {e : Nat × Loc × V} (h : e ∈ d.put k l v) :
    e = (k, l, v) ∨ e ∈ d := by
  induction d with
  | nil => exact .inl (by simpa [KeyDict.put] using h)
  | cons f d ih =>
    obtain ⟨a, m, u⟩ := f
    rw [KeyDict.put] at h
    split at h
    · rename_i c
      obtain ⟨rfl, rfl⟩ := c
      rcases List.mem_cons.1 h with h | h
      · exact .inl h
      · exact .inr (List.mem_cons_of_mem _ h)
    · rcases List.mem_cons.1 h with h | h
      · exact .inr (by rw [h]; exact List.mem_cons_self ..)
      · exact (ih h).imp id (List.mem_cons_of_mem _)

theorem hash_congr {H : KeyHash} {h h' : Heap α} (hs : ∀ (l : Loc) (o : ModObj α), h[l]? = some o → ∃ o', h'[l]? = some o' ∧ o'.uid = o.uid ∧ o'.cls = o.cls)
    {l : Loc} (hl : l < h.length) : moduleHash H h' l = moduleHash H h l := by
  have h1 : h[l]? = some h[l] := List.getElem?_eq_getElem hl
  obtain ⟨o', h2, h3, h4⟩ := hs l _ h1
  rw [moduleHash, moduleHash, h1, h2]
  simp only [h3, h4]

theorem hash_lt {H : KeyHash} {h : Heap α} {l : Loc} {k : Nat} (e : moduleHash H h l = .ok k) : l < h.length := by
  by_contra hc
  rw [moduleHash, List.getElem?_eq_none (Nat.not_lt.1 hc)] at e
  cases e

variable [DecidableEq α]

/-- **C110, hashes.** Nothing that is done with Modules changes the hash of a Module, or whether it has one. -/
theorem C110_hash_fixed {K K' : List Loc} {w w' : World α} (s : Steps K w K' w') (wf : WFWorld w) (hK : ∀ k ∈ K, k < w.heap.length) (H : KeyHash)
    {l : Loc} (hl : l < w.heap.length) : moduleHash H w'.heap l = moduleHash H w.heap l := by
  induction s with
  | done => rfl
  | more s _ ih =>
    obtain ⟨c, -, h3, -⟩ := s.confined wf hK
    rw [ih c.wf h3 (Nat.lt_of_lt_of_le hl c.len)]
    exact hash_congr (fun l o ho => by obtain ⟨o', a, b, c, -⟩ := c.stable l o ho; exact ⟨o', a, b, c⟩) hl

theorem keyRun_inv {H : KeyHash} {K K' : List Loc} {w w' : World α} {d d' : KeyDict V} {evs : List (KeyEvent V)} (run : KeyRun H K w d evs K' w' d')
    (wf : WFWorld w) (hK : ∀ k ∈ K, k < w.heap.length) (hd : KeyInv H w.heap d) :
    KeyInv H w'.heap d' ∧ w.heap.length ≤ w'.heap.length ∧
      (∀ l : Loc, l < w.heap.length → moduleHash H w'.heap l = moduleHash H w.heap l) ∧
      ∀ l k, moduleHash H w'.heap l = .ok k → d'.find k l = kept evs l (d.find k l) := by
  induction run with
  | done => exact ⟨hd, Nat.le_refl _, fun _ _ => rfl, fun _ _ _ => rfl⟩
  | @api K w K1 w1 d evs K' w' d' s _ ih =>
    obtain ⟨c, -, h3, -⟩ := s.confined wf hK
    have hc : ∀ l : Loc, l < w.heap.length → moduleHash H w1.heap l = moduleHash H w.heap l := fun l hl =>
      hash_congr (fun l o ho => by obtain ⟨o', a, b, c, -⟩ := c.stable l o ho; exact ⟨o', a, b, c⟩) hl
    obtain ⟨i1, i2, i3, i4⟩ := ih c.wf h3 ⟨fun e he => by rw [hc _ (hash_lt (hd.hash e he))]; exact hd.hash e he, hd.nodup⟩
    exact ⟨i1, Nat.le_trans c.len i2, fun l hl => by rw [i3 l (Nat.lt_of_lt_of_le hl c.len), hc l hl], i4⟩
  | @set K w d d1 evs K' w' d' l v hl e _ ih =>
    rw [keySet] at e
    cases hk : moduleHash H w.heap l with
    | error e' => rw [hk] at e; cases e
    | ok k =>
      rw [hk] at e
      cases e
      have hd1 : KeyInv H w.heap (d.put k l v) := by
        refine ⟨fun e he => ?_, ?_⟩
        · rcases put_mem he with rfl | he
          · exact hk
          · exact hd.hash e he
        · rw [put_keys hd hk]
          split
          · exact hd.nodup
          · rename_i hn
            exact List.nodup_append.2 ⟨hd.nodup, by simp, by intro a ha b hb; simp at hb; subst hb; rintro rfl; exact hn ha⟩
      obtain ⟨i1, i2, i3, i4⟩ := ih wf hK hd1
      refine ⟨i1, i2, i3, fun l' k' hk' => ?_⟩
      rw [i4 l' k' hk', kept, find_put]
      rintro rfl
      rw [i3 l (hK l hl), hk] at hk'
      cases hk'; rfl
  | @del K w d d1 evs K' w' d' l hl e _ ih =>
    rw [keyDel] at e
    cases hk : moduleHash H w.heap l with
    | error e' => rw [hk] at e; cases e
    | ok k =>
      rw [hk] at e
      cases hf : d.find k l with
      | none => simp only [hf] at e; cases e
      | some u =>
        simp only [hf] at e
        cases e
        have hd1 : KeyInv H w.heap (d.erase k l) :=
          ⟨fun e he => hd.hash e (erase_sub.subset he), hd.nodup.sublist (erase_sub.map _)⟩
        obtain ⟨i1, i2, i3, i4⟩ := ih wf hK hd1
        refine ⟨i1, i2, i3, fun l' k' hk' => ?_⟩
        rw [i4 l' k' hk', kept, find_erase hd hk]

/-- **C110.** Keep something for each Module in a dictionary, and do anything with the Modules in between: for a Module of a class that is not a dataclass, the
dictionary then has what was last stored for this very object (not for another one, such as a clone), and KeyError is raised if nothing is kept for it. -/
theorem C110_keys {H : KeyHash} {K K' : List Loc} {w w' : World α} {d : KeyDict V} {evs : List (KeyEvent V)} (run : KeyRun H K w [] evs K' w' d)
    (wf : WFWorld w) (hK : ∀ k ∈ K, k < w.heap.length) {l : Loc} {o : ModObj α} (hl : w'.heap[l]? = some o) (hp : H.dataclass o.cls = false) :
    (∀ v, keyGet H w'.heap d l = .ok v ↔ kept evs l none = some v) ∧ (keyGet H w'.heap d l = .error .keyError ↔ kept evs l none = none) := by
  obtain ⟨-, -, -, h⟩ := keyRun_inv run wf hK ⟨by simp, by simp [KeyDict.keys]⟩
  have hk : moduleHash H w'.heap l = .ok (H.int o.uid) := by rw [moduleHash, hl]; simp [hp]
  rw [keyGet, hk]
  simp only
  have hf := h l _ hk
  rw [show KeyDict.find ([] : KeyDict V) (H.int o.uid) l = none from rfl] at hf
  rw [hf]
  cases kept evs l none <;> simp

/-- **C110, storing.** `d[m] = v` returns for every such Module `m`, and the dictionary has no Module twice. -/
theorem C110_stores {H : KeyHash} {K K' : List Loc} {w w' : World α} {d : KeyDict V} {evs : List (KeyEvent V)} (run : KeyRun H K w [] evs K' w' d)
    (wf : WFWorld w) (hK : ∀ k ∈ K, k < w.heap.length) :
    d.keys.Nodup ∧ (∀ l, l ∈ d.keys ↔ (kept evs l none).isSome ∧ ∃ k, moduleHash H w'.heap l = .ok k) ∧
    ∀ (l : Loc) o v, w'.heap[l]? = some o → H.dataclass o.cls = false → ∃ d', keySet H w'.heap d l v = .ok d' := by
  obtain ⟨hi, -, -, h⟩ := keyRun_inv run wf hK ⟨by simp, by simp [KeyDict.keys]⟩
  refine ⟨hi.nodup, fun l => ⟨fun hm => ?_, fun ⟨hs, k, hk⟩ => ?_⟩, fun l o v hl hp => ?_⟩
  · obtain ⟨e, he, rfl⟩ := List.mem_map.1 hm
    have hk := hi.hash e he
    refine ⟨?_, _, hk⟩
    have := h _ _ hk
    rw [show KeyDict.find ([] : KeyDict V) e.1 e.2.1 = none from rfl] at this
    rw [← this]
    exact (find_mem hi hk).2 hm
  · have := h l k hk
    rw [show KeyDict.find ([] : KeyDict V) k l = none from rfl] at this
    exact (find_mem hi hk).1 (by rw [this]; exact hs)
  · exact ⟨_, by rw [keySet, moduleHash, hl]; simp [hp]; rfl⟩

omit [DecidableEq α] in
/-- **C110, dataclasses.** A Module of a class made with `dataclass`, such as `nnx.Dropout`, cannot be a key: storing, reading and deleting raise TypeError. -/
theorem C110_dataclass {H : KeyHash} {h : Heap α} {l : Loc} {o : ModObj α} (hl : h[l]? = some o) (hp : H.dataclass o.cls = true) (d : KeyDict V) (v : V) :
    keySet H h d l v = .error .typeError ∧ keyGet H h d l = .error .typeError ∧ keyDel H h d l = .error .typeError := by
  have hk : moduleHash H h l = .error .typeError := by rw [moduleHash, hl]; simp [hp]
  exact ⟨by rw [keySet, hk], by rw [keyGet, hk], by rw [keyDel, hk]⟩

/-! Two Modules of one model as keys; in between a new Module is made, the first one is changed, and one entry is deleted. -/

/-- Modules of class "Dropout" are dataclasses; all hashes are equal. -/
def exKeyHash : KeyHash := ⟨fun c => decide (c.name = py! "Dropout"), fun _ => 0⟩
/-- What is done to the dictionary. -/
def exKeyEvents : List (KeyEvent Nat) := [.set 0 5, .set 1 6, .set 0 7, .del 1]
/-- The world after `model.zz = 3`. -/
def exKeyWorld : World Nat := ((setAttr (newModule (exCls (py! "Dropout")) exWorld).1 0 (py! "zz") (.val (.data { name := py! "int" } 3))).toOption).getD exWorld

theorem exKeyRun : ∃ d, KeyRun exKeyHash [0, 1] exWorld [] exKeyEvents ((newModule (exCls (py! "Dropout")) exWorld).2 :: [0, 1]) exKeyWorld d ∧
    keyGet exKeyHash exKeyWorld.heap d 0 = .ok 7 ∧ keyGet exKeyHash exKeyWorld.heap d 1 = .error .keyError := by
  refine ⟨_, .set (by decide) (d1 := [(0, 0, 5)]) (by decide +kernel) (.api (.create (exCls (py! "Dropout"))) (.set (by decide) (d1 := [(0, 0, 5), (0, 1, 6)]) (by decide +kernel)
    (.api (w1 := exKeyWorld) (.assign (l := 0) (n := py! "zz") (v := .data { name := py! "int" } 3) (by decide) ⟨by unfold NoSlash; decide, by decide⟩ (.inl trivial) (by decide +kernel))
    (.set (by decide) (d1 := [(0, 0, 7), (0, 1, 6)]) (by decide +kernel) (.del (by decide) (d1 := [(0, 0, 7)]) (by decide +kernel) .done))))), ?_, ?_⟩ <;> decide +kernel

example : ∃ (l : Loc) (o : ModObj Nat), exKeyWorld.heap[l]? = some o ∧ exKeyHash.dataclass o.cls = true :=
  ⟨(newModule (exCls (py! "Dropout")) exWorld).2, ⟨exCls (py! "Dropout"), [], 10, false, ⟨0, 0⟩⟩, by decide +kernel, by decide⟩

end Nnx
