import Verif.Spec.Donate
import Verif.Props.Jit
/-
Lemmas about buffers and outputs of compiled programs.
-/
namespace Nnx
variable {α β : Type}

/-! ### Buffers of a list of entries -/

theorem buffersM_eq {d : List (Str × PyVal (α × Nat))} (h : ∀ kv ∈ d, ∃ bs, kv.2.buffers = some bs) :
    buffersM d = some (d.flatMap fun kv => kv.2.buffers.getD []) := by
  induction d with
  | nil => rfl
  | cons kv d ih =>
    obtain ⟨k, v⟩ := kv
    obtain ⟨bs, hb⟩ := h (k, v) (by simp)
    have hb' : v.buffers = some bs := hb
    simp only [buffersM, ih fun x hx => h x (by simp [hx]), List.flatMap_cons, hb', Option.getD_some]

theorem buffersM_some {d : List (Str × PyVal (α × Nat))} {bs : List Nat} (h : buffersM d = some bs) :
    ∀ kv ∈ d, ∃ bs, kv.2.buffers = some bs := by
  induction d generalizing bs with
  | nil => intro kv hkv; cases hkv
  | cons kv d ih =>
    obtain ⟨k, v⟩ := kv
    simp only [buffersM] at h
    split at h
    · next a b h1 h2 =>
      intro x hx
      rcases List.mem_cons.1 hx with rfl | hx
      · exact ⟨a, h1⟩
      · exact ih h2 x hx
    · cases h

/-! ### Outputs -/

mutual
theorem output_exists (v : PyVal (α × Nat)) (bs : List Nat) (h : v.buffers = some bs) (k : Nat) :
    ∃ v', v.output k = some (v', k + bs.length) ∧ v'.buffers = some (List.range' k bs.length) ∧ SameContents v v' := by
  match v with
  | .none =>
    simp only [PyVal.buffers, Option.some.injEq] at h
    subst h
    exact ⟨_, rfl, rfl, _, rfl, rfl⟩
  | .data c a =>
    simp only [PyVal.buffers, Option.some.injEq] at h
    subst h
    exact ⟨_, rfl, rfl, _, rfl, rfl⟩
  | .tup xs =>
    simp only [PyVal.buffers] at h
    obtain ⟨ys, h1, h2, x, h3, h4⟩ := outputL_exists xs bs h k
    exact ⟨.tup ys, by simp only [PyVal.output, h1, Option.map_some], h2, .tup x,
      by simp only [PyVal.mapLeaves, h3, Option.map_some], by simp only [PyVal.mapLeaves, h4, Option.map_some]⟩
  | .cont c v m =>
    simp only [PyVal.buffers] at h
    obtain ⟨y, h1, h2, x, h3, h4⟩ := output_exists v bs h k
    exact ⟨.cont c y m, by simp only [PyVal.output, h1, Option.map_some], h2, .cont c x m,
      by simp only [PyVal.mapLeaves, h3, Option.map_some], by simp only [PyVal.mapLeaves, h4, Option.map_some]⟩
  | .dict d =>
    simp only [PyVal.buffers] at h
    obtain ⟨ys, h1, h2, x, h3, h4⟩ := outputM_exists d bs h k
    exact ⟨.dict ys, by simp only [PyVal.output, h1, Option.map_some], h2, .dict x,
      by simp only [PyVal.mapLeaves, h3, Option.map_some], by simp only [PyVal.mapLeaves, h4, Option.map_some]⟩
  | .str _ => simp only [PyVal.buffers] at h; cases h
  | .cmeta _ _ => simp only [PyVal.buffers] at h; cases h
  | .tree _ _ => simp only [PyVal.buffers] at h; cases h
theorem outputL_exists (xs : List (PyVal (α × Nat))) (bs : List Nat) (h : buffersL xs = some bs) (k : Nat) :
    ∃ ys, outputL xs k = some (ys, k + bs.length) ∧ buffersL ys = some (List.range' k bs.length) ∧
      ∃ x, mapLeavesL (fun a => some (a.1, 0)) xs = some x ∧ mapLeavesL (fun a => some (a.1, 0)) ys = some x := by
  match xs with
  | [] =>
    simp only [buffersL, Option.some.injEq] at h
    subst h
    exact ⟨_, rfl, rfl, _, rfl, rfl⟩
  | v :: xs =>
    simp only [buffersL] at h
    split at h
    · next b1 b2 e1 e2 =>
      cases h
      obtain ⟨y, h1, h2, x, h3, h4⟩ := output_exists v b1 e1 k
      obtain ⟨ys, g1, g2, z, g3, g4⟩ := outputL_exists xs b2 e2 (k + b1.length)
      refine ⟨y :: ys, ?_, ?_, x :: z, ?_, ?_⟩
      · simp only [outputL, h1, g1, Option.map_some, List.length_append, Nat.add_assoc]
      · simp only [buffersL, h2, g2, List.length_append, List.range'_append_1]
      · simp only [mapLeavesL, h3, g3]
      · simp only [mapLeavesL, h4, g4]
    · cases h
theorem outputM_exists (xs : List (Str × PyVal (α × Nat))) (bs : List Nat) (h : buffersM xs = some bs) (k : Nat) :
    ∃ ys, outputM xs k = some (ys, k + bs.length) ∧ buffersM ys = some (List.range' k bs.length) ∧
      ∃ x, mapLeavesM (fun a => some (a.1, 0)) xs = some x ∧ mapLeavesM (fun a => some (a.1, 0)) ys = some x := by
  match xs with
  | [] =>
    simp only [buffersM, Option.some.injEq] at h
    subst h
    exact ⟨_, rfl, rfl, _, rfl, rfl⟩
  | (n, v) :: xs =>
    simp only [buffersM] at h
    split at h
    · next b1 b2 e1 e2 =>
      cases h
      obtain ⟨y, h1, h2, x, h3, h4⟩ := output_exists v b1 e1 k
      obtain ⟨ys, g1, g2, z, g3, g4⟩ := outputM_exists xs b2 e2 (k + b1.length)
      refine ⟨(n, y) :: ys, ?_, ?_, (n, x) :: z, ?_, ?_⟩
      · simp only [outputM, h1, g1, Option.map_some, List.length_append, Nat.add_assoc]
      · simp only [buffersM, h2, g2, List.length_append, List.range'_append_1]
      · simp only [mapLeavesM, h3, g3]
      · simp only [mapLeavesM, h4, g4]
    · cases h
end

/-- What a returned value has in common with the value the function computed. -/
structure Output (v v' : PyVal (α × Nat)) : Prop where
  node : v'.isNode = v.isNode
  good : WFVal v → WFVal v'
  cont : ∀ c x m, v = .cont c x m → ∃ y, v' = .cont c y m
  contents : SameContents v v'

theorem output_plain {v v' : PyVal (α × Nat)} {k k' : Nat} (h : v.output k = some (v', k')) (hp : v.Plain) : v'.Plain := by
  cases v with
  | none => simp only [PyVal.output] at h; cases h; trivial
  | data c a => simp only [PyVal.output] at h; cases h; trivial
  | str _ => simp only [PyVal.output] at h; cases h
  | cmeta _ _ => cases hp
  | tree _ _ => simp only [PyVal.output] at h; cases h
  | cont _ _ _ => cases hp
  | tup xs =>
    simp only [PyVal.output, Option.map_eq_some_iff] at h
    obtain ⟨r, _, e⟩ := h
    cases e; trivial
  | dict xs =>
    simp only [PyVal.output, Option.map_eq_some_iff] at h
    obtain ⟨r, _, e⟩ := h
    cases e; trivial

theorem output_output {v v' : PyVal (α × Nat)} {k k' : Nat} {bs : List Nat} (hb : v.buffers = some bs)
    (h : v.output k = some (v', k')) : Output v v' := by
  have hc : SameContents v v' := by
    obtain ⟨w, h1, _, h2⟩ := output_exists v bs hb k
    rw [h] at h1
    cases h1; exact h2
  cases v with
  | none => simp only [PyVal.output] at h; cases h; exact ⟨rfl, fun h => h, nofun, hc⟩
  | data c a => simp only [PyVal.output] at h; cases h; exact ⟨rfl, fun _ => .inl trivial, nofun, hc⟩
  | str _ => simp only [PyVal.output] at h; cases h
  | cmeta _ _ => simp only [PyVal.output] at h; cases h
  | tree _ _ => simp only [PyVal.output] at h; cases h
  | tup xs =>
    simp only [PyVal.output, Option.map_eq_some_iff] at h
    obtain ⟨r, _, e⟩ := h
    cases e
    exact ⟨rfl, fun _ => .inl trivial, nofun, hc⟩
  | dict xs =>
    simp only [PyVal.output, Option.map_eq_some_iff] at h
    obtain ⟨r, _, e⟩ := h
    cases e
    exact ⟨rfl, fun _ => .inl trivial, nofun, hc⟩
  | cont c x m =>
    simp only [PyVal.output, Option.map_eq_some_iff] at h
    obtain ⟨r, hr, e⟩ := h
    cases e
    refine ⟨rfl, ?_, ?_, hc⟩
    · rintro (h | h)
      · cases h
      · cases h with
        | mk p nd nv st sh => exact .inr (.mk (output_plain (k' := r.2) hr p) nd nv st sh)
    · intro c' x' m' e
      cases e
      exact ⟨_, rfl⟩

/-- The entries of an output correspond to the entries of what the function computed. -/
theorem outputM_entries {d d' : Dict Str (PyVal (α × Nat))} {k k' : Nat} {bs : List Nat} (hb : buffersM d = some bs)
    (h : outputM d k = some (d', k')) : dkeys d' = dkeys d ∧
      (∀ key v, dget d key = some v → ∃ v', dget d' key = some v' ∧ Output v v') ∧
      (∀ key v', dget d' key = some v' → ∃ v, dget d key = some v ∧ Output v v') := by
  induction d generalizing d' k bs with
  | nil =>
    simp only [outputM] at h
    cases h
    exact ⟨rfl, nofun, nofun⟩
  | cons kv d ih =>
    obtain ⟨n, v⟩ := kv
    simp only [buffersM] at hb
    split at hb
    · next b1 b2 e1 e2 =>
      cases hb
      simp only [outputM] at h
      split at h
      · cases h
      · next y k1 ho =>
        simp only [Option.map_eq_some_iff] at h
        obtain ⟨⟨ys, k2⟩, hr, e⟩ := h
        cases e
        obtain ⟨i1, i2, i3⟩ := ih e2 hr
        have hy := output_output e1 ho
        refine ⟨?_, ?_, ?_⟩
        · simp only [dkeys, List.map_cons] at i1 ⊢
          rw [i1]
        · intro key u hu
          simp only [dget] at hu ⊢
          by_cases hk : n = key
          · simp only [hk, if_true, Option.some.injEq] at hu ⊢
            subst hu
            exact ⟨y, rfl, hy⟩
          · simp only [hk, if_false] at hu ⊢
            exact i2 key u hu
        · intro key u hu
          simp only [dget] at hu ⊢
          by_cases hk : n = key
          · simp only [hk, if_true, Option.some.injEq] at hu ⊢
            subst hu
            exact ⟨v, rfl, hy⟩
          · simp only [hk, if_false] at hu ⊢
            exact i3 key u hu
    · cases hb

theorem outputM_canonical {d d' : Dict Str (PyVal (α × Nat))} (hk : dkeys d' = dkeys d)
    (h : (⟨d⟩ : State (PyVal (α × Nat))).Canonical) : (⟨d'⟩ : State (PyVal (α × Nat))).Canonical := by
  have h1 : (dkeys d).Pairwise (fun a b => strLe a b = true ∧ a ≠ b) := List.pairwise_map.2 h
  rw [← hk] at h1
  exact List.pairwise_map.1 h1

theorem sameAttr_refl (x : Option (Attr (α × Nat))) : SameAttr x x := by
  cases x with
  | none => rfl
  | some x => cases x with
    | ref b => rfl
    | val v => exact .inl rfl

/-! ### Writing an output back -/

variable [DecidableEq α]

/-- Updating a module graph `u` with the output for the state of a graph `w'` that differs by node writes. -/
theorem update_output {u w' : World (α × Nat)} (wf : WFWorld u) (wf' : WFWorld w') {root : Loc} (hroot : root < u.heap.length)
    (hroot' : root < w'.heap.length) (hwalk : ∀ p b, Walk w'.heap root p b ↔ Walk u.heap root p b)
    (hv : AllValid u root) (hn : NodeWrites u w' root) {k : Nat} {s s' : State (PyVal (α × Nat))}
    (hs : getState k w'.heap root = some s) (hc : s'.Canonical)
    (h2 : ∀ key v', s'.get key = some v' → ∃ v, s.get key = some v ∧ Output v v')
    {fuel : Nat} (hf : u.heap.length < fuel) :
    ∃ u', updateState fuel root [s'] u = (u', none) ∧ WFWorld u' ∧ SameObjects u u' ∧
      (∀ a p b, Walk u'.heap a p b ↔ Walk u.heap a p b) ∧
      (∀ key v' a n, s'.get key = some v' → Addresses u.heap root key a n → attrAt u'.heap a n = some (.val v')) ∧
      (∀ a n, (∀ key v', s'.get key = some v' → ¬ Addresses u.heap root key a n) → attrAt u'.heap a n = attrAt u.heap a n) := by
  obtain ⟨p1, p2, p3⟩ := state_paths wf'.heap hroot' hs
  have hcs : ∀ t ∈ [s'], t.Canonical := by intro t ht; rw [List.mem_singleton.1 ht]; exact hc
  have hgiven : ∀ key, given [s'] key = s'.get key := fun key => given_single _ _
  have hadr : ∀ key a n, Addresses w'.heap root key a n ↔ Addresses u.heap root key a n := by
    intro key a n
    constructor
    · rintro ⟨p, e, hp⟩; exact ⟨p, e, (hwalk p a).1 hp⟩
    · rintro ⟨p, e, hp⟩; exact ⟨p, e, (hwalk p a).2 hp⟩
  have hval : ∀ key v a n, s.get key = some v → Addresses u.heap root key a n →
      attrAt w'.heap a n = some (.val v) ∧ v.isNode = true := by
    intro key v a n hk ha
    obtain ⟨a', n', ha', h1, h2⟩ := p1 key v hk
    obtain ⟨rfl, rfl⟩ := ha'.functional ((hadr key a n).2 ha)
    exact ⟨h1, h2⟩
  have hg : GoodUpdates [s'] := by
    intro t ht key v' hm
    rw [List.mem_singleton.1 ht] at hm
    obtain ⟨v, hk, ho⟩ := h2 key v' (mem_dget hc.nodup hm)
    obtain ⟨g1, g2⟩ := getState_good wf'.heap hroot' hs key v (dget_mem hk)
    exact ⟨ho.good g1, g2⟩
  have hleaf : LeafPaths u.heap root [s'] := by
    intro key v' hk a n ha b hb
    rw [hgiven] at hk
    obtain ⟨v, hk, _⟩ := h2 key v' hk
    obtain ⟨e1, _⟩ := hval key v a n hk ha
    rcases hn a n ha.reaches with h | ⟨v', _, _, h2, _⟩
    · rw [h, hb] at e1; cases e1
    · exact h2 b hb
  have hnc : NoConflict u.heap root [s'] := by
    intro key v key' v' hk hk' a n ha ha'
    rw [hgiven] at hk hk'
    obtain ⟨x, hx, _⟩ := h2 key v hk
    obtain ⟨x', hx', _⟩ := h2 key' v' hk'
    have := p2 key key' a n (by rw [hx]; rfl) (by rw [hx']; rfl) ((hadr _ _ _).2 ha) ((hadr _ _ _).2 ha')
    subst this
    rw [hk] at hk'; cases hk'; rfl
  have hnew : ∀ key v' a n, s'.get key = some v' → Addresses u.heap root key a n →
      Compatible (attrAt u.heap a n) v' ∧ newValue (attrAt u.heap a n) v' = v' := by
    intro key v' a n hk ha
    obtain ⟨v, hk, ho⟩ := h2 key v' hk
    obtain ⟨e1, _⟩ := hval key v a n hk ha
    have hcont : ∀ c x m, attrAt u.heap a n = some (.val (.cont c x m)) → ∃ y, v' = .cont c y m := by
      intro c x m hu
      rcases hn a n ha.reaches with h | ⟨z, e, _, _, h3⟩
      · rw [h, hu] at e1
        cases e1
        exact ho.cont c x m rfl
      · rw [e1] at e
        cases e
        obtain ⟨y, rfl⟩ := h3 c x m hu
        exact ho.cont c y m rfl
    have href : ∀ b, attrAt u.heap a n ≠ some (.ref b) := by
      intro b hu
      rcases hn a n ha.reaches with h | ⟨z, _, _, h3, _⟩
      · rw [h, hu] at e1; cases e1
      · exact h3 b hu
    cases hu : attrAt u.heap a n with
    | none => exact ⟨nofun, rfl⟩
    | some z =>
      cases z with
      | ref b => exact absurd hu (href b)
      | val z =>
        cases z with
        | cont c x m =>
          obtain ⟨y, rfl⟩ := hcont c x m hu
          refine ⟨?_, rfl⟩
          intro c' x' m' d' y' n' e1 e2
          cases e1; cases e2
          exact ⟨rfl, mdSame_refl' _⟩
        | _ => exact ⟨nofun, rfl⟩
  obtain ⟨u', hu'⟩ := C14_succeeds wf hroot hf hcs hg hleaf hnc hv (by
    intro key v' hk
    rw [hgiven] at hk
    obtain ⟨v, hkv, _⟩ := h2 key v' hk
    obtain ⟨a, n, ha, _⟩ := p1 key v hkv
    exact ⟨a, n, (hadr _ _ _).1 ha, (hnew key v' a n hk ((hadr _ _ _).1 ha)).1⟩)
  obtain ⟨so, hw, _, hset⟩ := C14_addressed_updated wf hroot hcs hg hleaf hnc hu'
  refine ⟨u', hu', (confined_updateState (A := fun _ => True) wf (fun _ _ _ _ _ => trivial) trivial hroot hg hu').1.wf, so, hw, ?_, ?_⟩
  · intro key v' a n hk ha
    rw [hset key v' a n (by rw [hgiven]; exact hk) ha, (hnew key v' a n hk ha).2]
  · intro a n hno
    exact C14_frame wf hroot hcs hg hleaf hu' (fun key v hk ha => hno key v (by rw [← hgiven]; exact hk) ha)

/-! ### The state of a Module that is ready -/

omit [DecidableEq α] in
/-- The buffers in use below a Module whose tree is not changed. -/
theorem uses_frame {w w' : World (α × Nat)} (wf : WFWorld w) {l : Loc} (hl : l < w.heap.length) (hlen : w.heap.length ≤ w'.heap.length)
    (hs : ∀ a n, Reaches w.heap l a → attrAt w'.heap a n = attrAt w.heap a n) (b : Nat) : Uses w' l b ↔ Uses w l b := by
  have hw1 : ∀ a p c, Reaches w.heap l a → (Walk w.heap a p c → Walk w'.heap a p c) := by
    intro a p c hra h
    induction h with
    | here h => exact .here (Nat.lt_of_lt_of_le h hlen)
    | @step a b c n p e _ ih =>
      obtain ⟨q, hq⟩ := hra
      have e' := hs a n ⟨q, hq⟩
      rw [e] at e'
      exact .step e' (ih ⟨_, hq.snoc e (wf.heap.refs _ _ _ e)⟩)
  have hw2 : ∀ a p c, Walk w'.heap a p c → Reaches w.heap l a → Walk w.heap a p c := by
    intro a p c h
    induction h with
    | here h => rintro ⟨q, hq⟩; exact .here hq.lt
    | @step a b c n p e _ ih =>
      rintro ⟨q, hq⟩
      have e' := hs a n ⟨q, hq⟩
      rw [e] at e'
      exact .step e'.symm (ih ⟨_, hq.snoc e'.symm (wf.heap.refs _ _ _ e'.symm)⟩)
  have hl0 : Reaches w.heap l l := ⟨[], .here hl⟩
  constructor
  · rintro ⟨a, n, v, bs, ⟨⟨q, hq⟩, h2, h3⟩, h4, h5⟩
    have hq' := hw2 _ _ _ hq hl0
    exact ⟨a, n, v, bs, ⟨⟨q, hq'⟩, by rw [← hs a n ⟨q, hq'⟩]; exact h2, h3⟩, h4, h5⟩
  · rintro ⟨a, n, v, bs, ⟨⟨q, hq⟩, h2, h3⟩, h4, h5⟩
    exact ⟨a, n, v, bs, ⟨⟨q, hw1 _ _ _ hl0 hq⟩, by rw [hs a n ⟨q, hq⟩]; exact h2, h3⟩, h4, h5⟩

omit [DecidableEq α] in
theorem uses_same {w w' : World (α × Nat)} (wf : WFWorld w) {l : Loc} (hl : l < w.heap.length) (hlen : w.heap.length ≤ w'.heap.length)
    (hs : ∀ a : Loc, a < w.heap.length → w'.heap[a]? = w.heap[a]?) (b : Nat) : Uses w' l b ↔ Uses w l b :=
  uses_frame wf hl hlen (fun a n ⟨q, hq⟩ => by simp only [attrAt, hs a hq.lt]) b

omit [DecidableEq α] in
/-- The buffers of the State of a Module whose nodes hold arrays. -/
theorem state_buffers {w : World (α × Nat)} (wf : WFWorld w) {l : Loc} (hl : l < w.heap.length) {k : Nat}
    {s : State (PyVal (α × Nat))} (hs : getState k w.heap l = some s)
    (ha : ∀ a n v, NodeAt w l a n v → ∃ bs, v.buffers = some bs) :
    ∃ bs, buffersM s.items = some bs ∧ ∀ b, b ∈ bs ↔ Uses w l b := by
  obtain ⟨p1, p2, p3⟩ := state_paths wf.heap hl hs
  have hnd := (getState_canonical hs).nodup
  have hnode : ∀ kv ∈ s.items, ∃ a n, NodeAt w l a n kv.2 := by
    rintro ⟨key, v⟩ hm
    obtain ⟨a, n, h1, h2, h3⟩ := p1 key v (mem_dget hnd hm)
    exact ⟨a, n, h1.reaches, h2, h3⟩
  refine ⟨_, buffersM_eq fun kv hkv => ?_, ?_⟩
  · obtain ⟨a, n, h⟩ := hnode kv hkv
    exact ha a n _ h
  · intro b
    rw [List.mem_flatMap]
    constructor
    · rintro ⟨⟨key, v⟩, hm, hb⟩
      obtain ⟨a, n, h⟩ := hnode _ hm
      obtain ⟨bs, e⟩ := ha a n _ h
      simp only [e, Option.getD_some] at hb
      exact ⟨a, n, v, bs, h, e, hb⟩
    · rintro ⟨a, n, v, bs, h, e, hb⟩
      obtain ⟨key, hk, _⟩ := p3 a n v h.below h.attr h.node
      exact ⟨(key, v), dget_mem hk, by simp only [e, Option.getD_some]; exact hb⟩

omit [DecidableEq α] in
/-- No buffer occurs twice in the State of a Module that is ready. -/
theorem state_once {w : World (α × Nat)} (wf : WFWorld w) {l : Loc} (hl : l < w.heap.length) {k : Nat}
    {s : State (PyVal (α × Nat))} (hs : getState k w.heap l = some s) {mem : Memory} (hr : Ready w l mem) {bs : List Nat}
    (hb : buffersM s.items = some bs) : bs.Nodup := by
  obtain ⟨p1, p2, p3⟩ := state_paths wf.heap hl hs
  have hnd := (getState_canonical hs).nodup
  have hbs := buffersM_eq (buffersM_some hb)
  rw [hb] at hbs
  cases hbs
  rw [List.nodup_flatMap]
  refine ⟨?_, ?_⟩
  · rintro ⟨key, v⟩ hm
    obtain ⟨a, n, h1, h2, h3⟩ := p1 key v (mem_dget hnd hm)
    obtain ⟨bs, e, h⟩ := hr.arrays a n v ⟨h1.reaches, h2, h3⟩
    simp only [e, Option.getD_some]
    exact h
  · have hpw : s.items.Pairwise (fun x y => x.1 ≠ y.1) := List.pairwise_map.1 hnd
    refine hpw.imp_of_mem ?_
    rintro ⟨key, v⟩ ⟨key', v'⟩ hm hm' hne b hb hb'
    obtain ⟨a, n, h1, h2, h3⟩ := p1 key v (mem_dget hnd hm)
    obtain ⟨a', n', h1', h2', h3'⟩ := p1 key' v' (mem_dget hnd hm')
    have hn : NodeAt w l a n v := ⟨h1.reaches, h2, h3⟩
    have hn' : NodeAt w l a' n' v' := ⟨h1'.reaches, h2', h3'⟩
    obtain ⟨bs, e, _⟩ := hr.arrays a n v hn
    obtain ⟨bs', e', _⟩ := hr.arrays a' n' v' hn'
    simp only [e, e', Option.getD_some] at hb hb'
    obtain ⟨rfl, rfl⟩ := hr.once a n v bs a' n' v' bs' b hn hn' e e' hb hb'
    exact hne (p2 key key' a n (Option.isSome_iff_exists.2 ⟨_, mem_dget hnd hm⟩)
      (Option.isSome_iff_exists.2 ⟨_, mem_dget hnd hm'⟩) h1 h1')

omit [DecidableEq α] in
/-- Two Modules that look the same use the same buffers. -/
theorem uses_graph {w : World (α × Nat)} (wf : WFWorld w) {m c : Loc} (hm : m < w.heap.length) (hc : c < w.heap.length)
    (hg : SameGraph w.heap m w.heap c) (ha : ∀ a n v, NodeAt w m a n v → ∃ bs, v.buffers = some bs) (b : Nat) :
    Uses w c b ↔ Uses w m b := by
  obtain ⟨s, d, h1, h2⟩ := C24_partition_canonical wf.heap wf.heap hm hc hg (Nat.lt_succ_self _) (Nat.lt_succ_self _)
  obtain ⟨s1, d1, hp1⟩ := partition_budget wf hm
  obtain ⟨s2, d2, hp2⟩ := partition_budget wf hc
  obtain ⟨e1, _, hs1⟩ := hp1 _ (Nat.lt_succ_self _)
  obtain ⟨e2, _, hs2⟩ := hp2 _ (Nat.lt_succ_self _)
  rw [h1] at e1
  rw [h2] at e2
  cases e1
  cases e2
  obtain ⟨bs, hb, hu⟩ := state_buffers wf hm hs1 ha
  have hac : ∀ a n v, NodeAt w c a n v → ∃ bs, v.buffers = some bs := by
    rintro a n v ⟨g1, g2, g3⟩
    obtain ⟨key, hk, _⟩ := (state_paths wf.heap hc hs2).2.2 a n v g1 g2 g3
    exact buffersM_some hb (key, v) (dget_mem hk)
  obtain ⟨bs', hb', hu'⟩ := state_buffers wf hc hs2 hac
  rw [hb] at hb'
  cases hb'
  rw [← hu, ← hu']

end Nnx
