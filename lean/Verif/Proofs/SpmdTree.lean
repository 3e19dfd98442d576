import Verif.Proofs.TreeMap
import Verif.Props.SpmdAxes
import Verif.Model.SpmdTree
import Verif.Spec.SpmdTree
/-
Trees in which Nodes are taken as a whole: flattening, unflattening and mapping, by induction on the tree.
-/
namespace Nnx
variable {α : Type}

theorem isNodeObj_iff {x : PyVal α} : isNodeObj x = true ↔ NodeObj x := by
  cases x with
  | cont c v m => exact ⟨fun h => ⟨c, v, m, rfl, h⟩, fun ⟨_, _, _, e, h⟩ => by cases e; exact h⟩
  | _ => exact ⟨fun h => by simp [isNodeObj] at h, fun ⟨_, _, _, e, _⟩ => by cases e⟩

theorem NodesMapped.mono {R S : PyVal α → PyVal α → Prop} {v w : PyVal α} (h : NodesMapped R v w) (hs : ∀ x y, R x y → S x y) : NodesMapped S v w := by
  induction h with
  | node h r => exact .node h (hs _ _ r)
  | leaf h r => exact .leaf h (hs _ _ r)
  | none => exact .none
  | tup len _ ih => exact .tup len ih
  | dict nd dom _ ih => exact .dict nd dom ih
  | cont node other _ ih => exact .cont node other ih
  | static => exact .static
  | tree nd dom _ others ih => exact .tree nd dom ih others

theorem NodesMapped.plain {R : PyVal α → PyVal α → Prop} {v w : PyVal α} (h : NodesMapped R v w)
    (hr : ∀ x y, R x y → x.Plain → y.Plain) (hv : v.Plain) : w.Plain := by
  cases h with
  | node h r => exact hr _ _ r hv
  | leaf h r => exact hr _ _ r hv
  | none => trivial
  | tup => trivial
  | dict => trivial
  | cont => exact hv.elim
  | static => exact hv.elim
  | tree => trivial

theorem NodesMapped.isNode {R : PyVal α → PyVal α → Prop} {v w : PyVal α} (h : NodesMapped R v w)
    (hr : ∀ x y, R x y → x.isNode = true → y.isNode = true) (hv : v.isNode = true) : w.isNode = true := by
  cases h with
  | node h r => exact hr _ _ r hv
  | leaf h r => exact hr _ _ r hv
  | none => exact hv
  | tup => exact hv
  | dict => exact hv
  | cont => exact hv
  | static => exact hv
  | tree => exact hv

theorem NodeMapped.same_class {K : TreeKey → PyVal α → PyVal α → Prop} {v w : PyVal α} (h : NodeMapped K v w) (hw : NodeObj w) : NodeObj v := by
  obtain ⟨c, x, m, rfl, hc⟩ := hw
  cases h with
  | cont => exact ⟨_, _, _, rfl, hc⟩
  | static => exact ⟨_, _, _, rfl, hc⟩

theorem NodeMapped.nodes {R : PyVal α → PyVal α → Prop} {v w : PyVal α} (hv : ¬ NodeObj v)
    (h : NodeMapped (fun _ => NodesMapped R) v w) : NodesMapped R v w := by
  cases h with
  | none => exact .none
  | tup len h => exact .tup len h
  | dict nd dom h => exact .dict nd dom h
  | @cont c v w m node h => exact .cont node (by
      cases hc : c.isSub cNode with
      | false => rfl
      | true => exact absurd ⟨c, v, m, rfl, hc⟩ hv) h
  | static => exact .static
  | tree nd dom h others => exact .tree nd dom h others

theorem treeFlattenUntil_eq (isLeaf : PyVal α → Bool) (v : PyVal α) : treeFlattenUntil isLeaf v =
    if isLeaf v then .ok ([v], .leaf)
    else match flattenNode v with
    | .error e => .error e
    | .ok none => .ok ([v], .leaf)
    | .ok (some (kids, d)) =>
      match allOk (kids.map (treeFlattenUntil isLeaf)) with
      | .error e => .error e
      | .ok rs => .ok (rs.flatMap (·.1), .node d (rs.map (·.2))) := by
  rw [treeFlattenUntil]
  split
  · rfl
  · split
    · next h => rw [h]
    · next h => rw [h]
    · next kids d h =>
      rw [h]
      have : kids.attach.map (fun k => treeFlattenUntil isLeaf k.1) = kids.map (treeFlattenUntil isLeaf) := by simp
      rw [this]
      simp only
      cases allOk (kids.map (treeFlattenUntil isLeaf)) <;> rfl

theorem flattenUntil_outer {y : PyVal α} (h : NodeObj y ∨ TreeLeaf y) : treeFlattenUntil isNodeObj y = .ok ([y], .leaf) := by
  rw [treeFlattenUntil_eq]
  split
  · rfl
  · next hn =>
    rcases h with h | h
    · exact absurd (isNodeObj_iff.2 h) hn
    · rw [flattenNode_leaf h]

variable [DecidableEq α]

/-- Everything about the outermost Nodes and leaves of one tree. -/
structure OuterSpec (v : PyVal α) (xs : List (PyVal α)) (t : TreeDef α) : Prop where
  flat : treeFlattenUntil isNodeObj v = .ok (xs, t)
  mem : ∀ x, x ∈ xs ↔ ∃ p, OuterAt v p x
  unflatten : ∀ ys tail, ys.length = xs.length → (∀ x y, (x, y) ∈ xs.zip ys → x.Plain → y.Plain) →
    ∃ w, unflattenFrom t (ys ++ tail) = .ok (w, tail) ∧ NodesMapped (fun x y => (x, y) ∈ xs.zip ys) v w ∧
      ((∀ x y, (x, y) ∈ xs.zip ys → x.isNode = true → y.isNode = true) → (∀ y ∈ ys, NodeObj y ∨ TreeLeaf y) →
        treeFlattenUntil isNodeObj w = .ok (ys, t))

/-- The same for the children of a node. -/
structure OuterKids (kids : List (PyVal α)) (xs : List (PyVal α)) (ts : List (TreeDef α)) : Prop where
  flat : ∃ rs, allOk (kids.map (treeFlattenUntil isNodeObj)) = .ok rs ∧ rs.flatMap (·.1) = xs ∧ rs.map (·.2) = ts
  mem : ∀ x, x ∈ xs ↔ ∃ k ∈ kids, ∃ p, OuterAt k p x
  unflatten : ∀ ys tail, ys.length = xs.length → (∀ x y, (x, y) ∈ xs.zip ys → x.Plain → y.Plain) →
    ∃ ws, unflattenAll ts (ys ++ tail) = .ok (ws, tail) ∧ ws.length = kids.length ∧
      (∀ (i : Nat) k w, kids[i]? = some k → ws[i]? = some w → NodesMapped (fun x y => (x, y) ∈ xs.zip ys) k w) ∧
      ((∀ x y, (x, y) ∈ xs.zip ys → x.isNode = true → y.isNode = true) → (∀ y ∈ ys, NodeObj y ∨ TreeLeaf y) →
        ∃ rs, allOk (ws.map (treeFlattenUntil isNodeObj)) = .ok rs ∧ rs.flatMap (·.1) = ys ∧ rs.map (·.2) = ts)

theorem outerKids {kids : List (PyVal α)} (h : ∀ k ∈ kids, ∃ xs t, OuterSpec k xs t) : ∃ xs ts, OuterKids kids xs ts := by
  induction kids with
  | nil =>
    refine ⟨[], [], ⟨⟨[], rfl, rfl, rfl⟩, by simp, ?_⟩⟩
    intro ys tail hl _
    simp at hl
    subst hl
    exact ⟨[], rfl, rfl, by simp, fun _ _ => ⟨[], rfl, rfl, rfl⟩⟩
  | cons k kids ih =>
    obtain ⟨x1, t, hk⟩ := h k (by simp)
    obtain ⟨x2, ts, hks⟩ := ih (fun k hk => h k (by simp [hk]))
    refine ⟨x1 ++ x2, t :: ts, ?_⟩
    constructor
    · obtain ⟨rs, h1, h2, h3⟩ := hks.flat
      exact ⟨(x1, t) :: rs, by simp [hk.flat, allOk, h1], by simp [h2], by simp [h3]⟩
    · intro x
      simp [hk.mem, hks.mem]
    · intro ys tail hl hp
      obtain ⟨y1, y2, rfl, l1, l2⟩ := split_length (hl.trans List.length_append)
      have hz : (x1 ++ x2).zip (y1 ++ y2) = x1.zip y1 ++ x2.zip y2 := List.zip_append l1.symm
      rw [hz] at hp ⊢
      obtain ⟨w, hw, hm, hb⟩ := hk.unflatten y1 (y2 ++ tail) l1 (fun x y h => hp x y (by simp [h]))
      obtain ⟨ws, hws, hlen, hms, hbs⟩ := hks.unflatten y2 tail l2 (fun x y h => hp x y (by simp [h]))
      refine ⟨w :: ws, by simp [unflattenAll, hw, hws], by simp [hlen], ?_, ?_⟩
      · intro i k' w' h2 h3
        cases i with
        | zero =>
          cases h2; cases h3
          exact hm.mono fun x y h => List.mem_append_left _ h
        | succ i => exact (hms i k' w' (by simpa using h2) (by simpa using h3)).mono fun x y h => List.mem_append_right _ h
      · intro hn hleaf
        have e1 := hb (fun x y h => hn x y (by simp [h])) (fun y h => hleaf y (by simp [h]))
        obtain ⟨rs, h1, h2, h3⟩ := hbs (fun x y h => hn x y (by simp [h])) (fun y h => hleaf y (by simp [h]))
        exact ⟨(y1, t) :: rs, by simp [e1, allOk, h1], by simp [h2], by simp [h3]⟩

omit [DecidableEq α] in
theorem sub_leaf {v x : PyVal α} {p : List TreeKey} (hl : TreeLeaf v) (h : Sub v p x) : p = [] ∧ x = v := by
  cases h with
  | here => exact ⟨rfl, rfl⟩
  | item => exact hl.elim
  | key => exact hl.elim
  | value hc => rw [hl.1] at hc; cases hc
  | field => exact hl.elim

omit [DecidableEq α] in
theorem outerAt_here {v : PyVal α} (h : NodeObj v ∨ TreeLeaf v) : OuterAt v [] v := by
  refine ⟨.here _, h, ?_⟩
  intro q r z e hr
  exact absurd (List.append_eq_nil_iff.1 e.symm).2 hr

omit [DecidableEq α] in
theorem sub_nil {v x : PyVal α} (h : Sub v [] x) : x = v := by cases h; rfl

/-- For every good tree. -/
theorem outerSpec {v : PyVal α} (h : GoodTree v) : ∃ xs t, OuterSpec v xs t := by
  have key : ∀ (n : Nat) (v : PyVal α), sizeOf v < n → GoodTree v → ∃ xs t, OuterSpec v xs t := by
    intro n
    induction n with
    | zero => intro v hv; omega
    | succ n ih =>
      intro v hv hg
      by_cases hs : NodeObj v
      · refine ⟨[v], .leaf, ⟨by rw [treeFlattenUntil_eq, if_pos (isNodeObj_iff.2 hs)], ?_, ?_⟩⟩
        · intro x
          rw [List.mem_singleton]
          constructor
          · rintro rfl; exact ⟨[], outerAt_here (.inl hs)⟩
          · rintro ⟨p, h1, _, h3⟩
            cases p with
            | nil => exact sub_nil h1
            | cons a p => exact absurd hs (h3 [] (a :: p) v rfl (by simp) (.here _))
        · intro ys tail hlen hp
          match ys, hlen with
          | [y], _ => exact ⟨y, rfl, .node hs (by simp), fun _ hleaf => flattenUntil_outer (hleaf y (by simp))⟩
      · have hns : isNodeObj v = false := by
          cases h : isNodeObj v with
          | false => rfl
          | true => exact absurd (isNodeObj_iff.1 h) hs
        rcases hg.cases' with ⟨hl, hf⟩ | ⟨kids, d, hi⟩
        · refine ⟨[v], .leaf, ⟨by rw [treeFlattenUntil_eq, hns, hf]; rfl, ?_, ?_⟩⟩
          · intro x
            rw [List.mem_singleton]
            constructor
            · rintro rfl; exact ⟨[], outerAt_here (.inr hl)⟩
            · rintro ⟨p, h1, _⟩; exact (sub_leaf hl h1).2
          · intro ys tail hlen hp
            match ys, hlen with
            | [y], _ => exact ⟨y, rfl, .leaf hl (by simp), fun _ hleaf => flattenUntil_outer (hleaf y (by simp))⟩
        · obtain ⟨xs, ts, hk⟩ := outerKids (kids := kids) (fun k hk => ih k (by have := flattenNode_lt hi.flat k hk; omega) (hi.good k hk))
          obtain ⟨rs, f1, f2, f3⟩ := hk.flat
          have hat : ∀ (i : Nat) k, kids[i]? = some k → ∃ s, d.steps[i]? = some s := by
            intro i k hki
            have : i < d.steps.length := by
              rw [hi.len]
              by_contra hc
              rw [List.getElem?_eq_none (by omega)] at hki
              cases hki
            exact ⟨_, List.getElem?_eq_getElem this⟩
          have hstep : ∀ {i j : Nat} {s : TreeKey}, d.steps[i]? = some s → d.steps[j]? = some s → i = j := fun {i j s} h1 h2 => by
            have hi' : i < d.steps.length := by
              by_contra hc
              rw [List.getElem?_eq_none (by omega)] at h1; cases h1
            exact (List.getElem?_inj hi' hi.nodup).1 (h1.trans h2.symm)
          refine ⟨xs, .node d ts, ⟨?_, ?_, ?_⟩⟩
          · rw [treeFlattenUntil_eq, hns, hi.flat]
            simp [f1, f2, f3]
          · intro x
            rw [hk.mem]
            constructor
            · rintro ⟨k, hkm, p, h1, h2, h3⟩
              obtain ⟨i, hki⟩ := List.getElem?_of_mem hkm
              obtain ⟨s, hsi⟩ := hat i k hki
              refine ⟨s :: p, hi.sub i s k p x hsi hki h1, h2, ?_⟩
              intro q r z e hr hz
              cases q with
              | nil => rw [sub_nil hz]; exact hs
              | cons a q =>
                simp only [List.cons_append, List.cons.injEq] at e
                obtain ⟨rfl, e⟩ := e
                rcases hi.inv _ z hz with ⟨e', _⟩ | ⟨j, s', k', q', g1, g2, g3, g4⟩
                · cases e'
                · cases g3
                  cases hstep hsi g1
                  rw [hki] at g2
                  cases g2
                  exact h3 q r z e hr g4
            · rintro ⟨p, h1, h2, h3⟩
              rcases hi.inv p x h1 with ⟨rfl, rfl⟩ | ⟨i, s, k, q, g1, g2, rfl, g4⟩
              · rcases h2 with h2 | h2
                · exact absurd h2 hs
                · exact absurd h2 hi.notLeaf
              · refine ⟨k, List.mem_of_getElem? g2, q, g4, h2, ?_⟩
                intro q' r z e hr hz
                exact h3 (s :: q') r z (by rw [e]; rfl) hr (hi.sub i s k q' z g1 g2 hz)
          · intro ys tail hlen hp
            obtain ⟨ws, hws, hwl, hm, hb⟩ := hk.unflatten ys tail hlen hp
            obtain ⟨w, hw, hmw, hfw⟩ := hi.build (fun _ => NodesMapped (fun x y => (x, y) ∈ xs.zip ys)) ws hwl
              (fun i s k w _ h2 h3 => ⟨hm i k w h2 h3, (hm i k w h2 h3).plain fun x y hr => hp x y hr⟩)
            refine ⟨w, by simp [unflattenFrom, hws, hw], hmw.nodes hs, ?_⟩
            intro hn hleaf
            obtain ⟨rs', g1, g2, g3⟩ := hb hn hleaf
            have hnw : isNodeObj w = false := by
              cases h : isNodeObj w with
              | false => rfl
              | true => exact absurd (hmw.same_class (isNodeObj_iff.1 h)) hs
            rw [treeFlattenUntil_eq, hnw, hfw fun i k w h2 h3 hkn => (hm i k w h2 h3).isNode hn hkn]
            simp [g1, g2, g3]
  exact key (sizeOf v + 1) v (by omega) h

end Nnx
