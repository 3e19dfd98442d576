import Verif.Proofs.Transforms
import Verif.Proofs.Forget
/-
Modules with other values at the same paths.
-/
namespace Nnx
variable {α β : Type} [DecidableEq α]

omit [DecidableEq α] in
theorem LikeVal.newValue {u v : PyVal α} (h : LikeVal u v) : newValue (some (.val u)) v = v := by
  cases u with
  | cont c x m => obtain ⟨y, rfl⟩ := h.2.2 c x m rfl; rfl
  | _ => rfl

omit [DecidableEq α] in
theorem LikeVal.compatible {u v : PyVal α} (h : LikeVal u v) : Compatible (some (.val u)) v := by
  intro c x m d y n e1 e2
  cases e1
  obtain ⟨y', e⟩ := h.2.2 c x m rfl
  rw [e2] at e
  cases e
  exact ⟨rfl, mdSame_refl' _⟩

omit [DecidableEq α] in
/-- The result of `get_state` does not depend on the recursion limit, if it is reached. -/
theorem getState_det {h : Heap α} (wf : WFHeap h) {r : Loc} (hr : r < h.length) {f f' : Nat} {s s' : State (PyVal α)}
    (hs : getState f h r = some s) (hs' : getState f' h r = some s') : s = s' := by
  have g : SameGraph h r h r := ⟨fun _ => rfl, fun _ _ => Iff.rfl⟩
  have sim := g.sim wf wf hr hr
  have hroot : (fun a b => ∃ p, Walk h r p a ∧ Walk h r p b) r r := ⟨[], .here hr, .here hr⟩
  unfold getState at hs hs'
  split at hs
  · cases hs
  next h1 =>
  split at hs'
  · cases hs'
  next h2 =>
  cases hs; cases hs'
  rw [(sim.iterState _ _ _ _ _ _ _ _ _ _ _ hroot .nil h1 h2).1]

omit [DecidableEq α] in
/-- Likewise for `get_module_def`. -/
theorem getModuleDef_det {h : Heap α} (wf : WFHeap h) {r : Loc} (hr : r < h.length) {f f' : Nat} {d d' : ModuleDef α}
    (hd : getModuleDef f h r = some d) (hd' : getModuleDef f' h r = some d') : d = d' := by
  have g : SameGraph h r h r := ⟨fun _ => rfl, fun _ _ => Iff.rfl⟩
  have sim := g.sim wf wf hr hr
  have hroot : (fun a b => ∃ p, Walk h r p a ∧ Walk h r p b) r r := ⟨[], .here hr, .here hr⟩
  unfold getModuleDef at hd hd'
  split at hd
  swap
  · cases hd
  next h1 =>
  split at hd'
  swap
  · cases hd'
  next h2 =>
  cases hd; cases hd'
  exact Sum.inr.inj (sim.makeDef _ _ _ _ _ _ _ _ _ _ hroot .nil h1 h2).1

/-- `m.update_state(x)` where `x` has some of the paths of `m`, with values of the same kinds: succeeds, and gives `m`
the state where these values are replaced, and the same ModuleDef. -/
theorem update_like_full {w : World α} (wf : WFWorld w) {l : Loc} (hl : l < w.heap.length) (hv : AllValid w l)
    {k0 : Nat} {s : State (PyVal α)} (hs : getState k0 w.heap l = some s) {x : State (PyVal α)} (hx : x.Canonical)
    (hlike : ∀ k v, x.get k = some v → ∃ u, s.get k = some u ∧ LikeVal u v) {fuel : Nat} (hf : w.heap.length < fuel) :
    ∃ w', updateState fuel l [x] w = (w', none) ∧ WFWorld w' ∧ SameObjects w w' ∧ AllValid w' l ∧ NodeWrites w w' l ∧
      (∀ a n, attrAt w'.heap a n = attrAt w.heap a n ∨ ∃ k u v, x.get k = some v ∧ s.get k = some u ∧
        attrAt w.heap a n = some (.val u) ∧ u.isNode = true ∧ LikeVal u v ∧ attrAt w'.heap a n = some (.val v)) ∧
      (∀ a p b, Walk w'.heap a p b ↔ Walk w.heap a p b) ∧
      (∀ a : Loc, ¬ Reaches w.heap l a → w'.heap[a]? = w.heap[a]?) ∧
      ∀ f f', w.heap.length < f → w.heap.length < f' → ∃ d s', getModuleDef f w.heap l = some d ∧ getModuleDef f' w'.heap l = some d ∧
        getState f' w'.heap l = some s' ∧ ∀ k, s'.get k = (x.get k).or (s.get k) := by
  obtain ⟨p1, p2, p3⟩ := state_paths wf.heap hl hs
  have hc : ∀ t ∈ [x], t.Canonical := by simpa using hx
  have hget : ∀ k v, (k, v) ∈ x.items → x.get k = some v := fun k v h => mem_dget hx.nodup h
  have hg : GoodUpdates [x] := by
    intro t ht k v hk
    rw [List.mem_singleton.1 ht] at hk
    obtain ⟨u, hu, hl'⟩ := hlike k v (hget k v hk)
    refine ⟨hl'.1, (getState_good wf.heap hl hs k u ?_).2⟩
    exact dget_mem hu
  have hcell : ∀ k v a n, x.get k = some v → Addresses w.heap l k a n →
      ∃ u, s.get k = some u ∧ attrAt w.heap a n = some (.val u) ∧ u.isNode = true ∧ LikeVal u v := by
    intro k v a n hk ha
    obtain ⟨u, hu, hl'⟩ := hlike k v hk
    obtain ⟨a', n', ha', h1, h2⟩ := p1 k u hu
    obtain ⟨rfl, rfl⟩ := ha'.functional ha
    exact ⟨u, hu, h1, h2, hl'⟩
  have hleaf : LeafPaths w.heap l [x] := by
    intro k v hk a n ha b hb
    rw [given_single] at hk
    obtain ⟨u, _, h1, _⟩ := hcell k v a n hk ha
    rw [h1] at hb; cases hb
  have hnc : NoConflict w.heap l [x] := by
    intro k v k' v' hk hk' a n ha ha'
    rw [given_single] at hk hk'
    obtain ⟨u, hu, _⟩ := hcell k v a n hk ha
    obtain ⟨u', hu', _⟩ := hcell k' v' a n hk' ha'
    have := p2 k k' a n (by rw [hu]; rfl) (by rw [hu']; rfl) ha ha'
    subst this
    rw [hk] at hk'; cases hk'; rfl
  obtain ⟨w', hw⟩ := C14_succeeds wf hl hf hc hg hleaf hnc hv (by
    intro k v hk
    rw [given_single] at hk
    obtain ⟨u, hu, hl'⟩ := hlike k v hk
    obtain ⟨a, n, ha, h1, _⟩ := p1 k u hu
    exact ⟨a, n, ha, by rw [h1]; exact hl'.compatible⟩)
  obtain ⟨so, hwalk, _, hset⟩ := C14_addressed_updated wf hl hc hg hleaf hnc hw
  obtain ⟨cf, _⟩ := confined_updateState (A := Reaches w.heap l) wf (fun a n b ⟨p, hp⟩ hb => ⟨_, hp.snoc hb (wf.heap.refs _ _ _ hb)⟩)
    ⟨[], .here hl⟩ hl hg hw
  have wf' := cf.wf
  have hat : ∀ a n, attrAt w'.heap a n = attrAt w.heap a n ∨
      ∃ k u v, x.get k = some v ∧ Addresses w.heap l k a n ∧ attrAt w.heap a n = some (.val u) ∧
        u.isNode = true ∧ LikeVal u v ∧ attrAt w'.heap a n = some (.val v) ∧ s.get k = some u := by
    intro a n
    by_cases hex : ∃ k v, given [x] k = some v ∧ Addresses w.heap l k a n
    · obtain ⟨k, v, hk, ha⟩ := hex
      have := hset k v a n hk ha
      rw [given_single] at hk
      obtain ⟨u, hu, h1, h2, h3⟩ := hcell k v a n hk ha
      rw [h1, h3.newValue] at this
      exact .inr ⟨k, u, v, hk, ha, h1, h2, h3, this, hu⟩
    · exact .inl (C14_frame wf hl hc hg hleaf hw (fun k v hk ha => hex ⟨k, v, hk, ha⟩))
  refine ⟨w', hw, wf', so, ?_, ?_, ?_, hwalk, ?_, ?_⟩
  · rintro a o' ⟨q, hq⟩ ho'
    have hq' := (hwalk l q a).1 hq
    have hlt := hq'.lt
    have ho : w.heap[a]? = some w.heap[a] := List.getElem?_eq_getElem hlt
    obtain ⟨_, _, _, h4⟩ := so.obj a _ _ ho ho'
    have := hv a _ ⟨q, hq'⟩ ho
    rw [traceValid_eq] at this ⊢
    rw [h4, this]
    simp only [World.curTrace, so.jax, so.stack]
  · intro a n _
    rcases hat a n with h | ⟨k, u, v, _, _, h1, _, h3, h4, _⟩
    · exact .inl h
    · refine .inr ⟨v, h4, h3.2.1, by rw [h1]; exact nofun, ?_⟩
      intro c y m e
      rw [h1] at e
      cases e
      exact h3.2.2 c y m rfl
  · intro a n
    rcases hat a n with h | ⟨k, u, v, h1, _, h2, h3, h4, h5, h6⟩
    · exact .inl h
    · exact .inr ⟨k, u, v, h1, h6, h2, h3, h4, h5⟩
  · intro a ha
    by_cases hlt : a < w.heap.length
    · exact cf.same a hlt ha
    · rw [List.getElem?_eq_none (Nat.not_lt.1 hlt), List.getElem?_eq_none (by rw [so.len]; exact Nat.not_lt.1 hlt)]
  · intro f f' hff hff'
    obtain ⟨d, s0, s', hd, hd', hs0, hs', hkeys⟩ := forget_same wf wf' so (by
      intro a n
      rcases hat a n with h | ⟨k, u, v, _, _, h1, h2, h3, h4, _⟩
      · rw [h]
      · rw [h1, h4]
        simp only [Option.map_some, forgetAttr, forgetVal, h2, h3.2.1, if_true]) hl hff hff'
    have : s0 = s := getState_det wf.heap hl hs0 hs
    subst this
    refine ⟨d, s', hd, hd', hs', ?_⟩
    obtain ⟨q1, q2, q3⟩ := state_paths wf'.heap (by rw [so.len]; exact hl) hs'
    intro k
    cases hk : s0.get k with
    | none =>
      have h1 := hkeys k
      rw [hk] at h1
      have h2 : x.get k = none := by
        cases hxk : x.get k with
        | none => rfl
        | some v => obtain ⟨u, hu, _⟩ := hlike k v hxk; rw [hk] at hu; cases hu
      rw [h2]
      cases hsk : s'.get k with
      | none => rfl
      | some v => rw [hsk] at h1; cases h1
    | some u =>
      have h1 := hkeys k
      rw [hk] at h1
      cases hsk : s'.get k with
      | none => rw [hsk] at h1; cases h1
      | some v' =>
        obtain ⟨a, n, ⟨p, e, hp⟩, h2, _⟩ := q1 k v' hsk
        have ha : Addresses w.heap l k a n := ⟨p, e, (hwalk _ _ _).1 hp⟩
        obtain ⟨a', n', ha', h3, _⟩ := p1 k u hk
        obtain ⟨rfl, rfl⟩ := ha'.functional ha
        cases hxk : x.get k with
        | some v =>
          have h4 := hset k v _ _ (by rw [given_single]; exact hxk) ha
          obtain ⟨u', _, h5, _, h6⟩ := hcell k v _ _ hxk ha
          rw [h5, h6.newValue, h2] at h4
          cases h4; rfl
        | none =>
          rcases hat a' n' with h | ⟨k2, u2, v2, hk2, ha2, _⟩
          · rw [h, h3] at h2; cases h2; rfl
          · obtain ⟨u3, hu3, _⟩ := hlike k2 v2 hk2
            have := p2 k k2 _ _ (by rw [hk]; rfl) (by rw [hu3]; rfl) ha ha2
            subst this
            rw [hxk] at hk2; cases hk2

/-- The same without the attributes. -/
theorem update_like {w : World α} (wf : WFWorld w) {l : Loc} (hl : l < w.heap.length) (hv : AllValid w l)
    {k0 : Nat} {s : State (PyVal α)} (hs : getState k0 w.heap l = some s) {x : State (PyVal α)} (hx : x.Canonical)
    (hlike : ∀ k v, x.get k = some v → ∃ u, s.get k = some u ∧ LikeVal u v) {fuel : Nat} (hf : w.heap.length < fuel) :
    ∃ w', updateState fuel l [x] w = (w', none) ∧ WFWorld w' ∧ SameObjects w w' ∧ AllValid w' l ∧ NodeWrites w w' l ∧
      (∀ a p b, Walk w'.heap a p b ↔ Walk w.heap a p b) ∧
      (∀ a : Loc, ¬ Reaches w.heap l a → w'.heap[a]? = w.heap[a]?) ∧
      ∀ f f', w.heap.length < f → w.heap.length < f' → ∃ d s', getModuleDef f w.heap l = some d ∧ getModuleDef f' w'.heap l = some d ∧
        getState f' w'.heap l = some s' ∧ ∀ k, s'.get k = (x.get k).or (s.get k) := by
  obtain ⟨w', h1, h2, h3, h4, h5, _, h6⟩ := update_like_full wf hl hv hs hx hlike hf
  exact ⟨w', h1, h2, h3, h4, h5, h6⟩

end Nnx
