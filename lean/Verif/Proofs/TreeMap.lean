import Verif.Proofs.Tree
/-
The induction over trees: what `tree_flatten` returns, what `tree_unflatten` makes of other leaves, and when `flatten_up_to` succeeds.
-/
namespace Nnx
variable {α : Type} [DecidableEq α]

/-- Everything about the leaves and the structure of one tree. -/
structure FlatSpec (v : PyVal α) (xs : List (PyVal α)) (t : TreeDef α) : Prop where
  flat : treeFlatten v = .ok (xs, t)
  len : t.paths.length = xs.length
  nodup : t.paths.Nodup
  mem : ∀ p x, (p, x) ∈ t.paths.zip xs ↔ Sub v p x ∧ TreeLeaf x
  unflatten : ∀ ys tail, ys.length = xs.length → (∀ x y, (x, y) ∈ xs.zip ys → x.Plain → y.Plain) →
    ∃ w, unflattenFrom t (ys ++ tail) = .ok (w, tail) ∧ Mapped (fun p x y => (p, x, y) ∈ t.paths.zip (xs.zip ys)) v w ∧
      ((∀ x y, (x, y) ∈ xs.zip ys → x.isNode = true → y.isNode = true) → (∀ y ∈ ys, TreeLeaf y) → treeFlatten w = .ok (ys, t))
  upTo : ∀ r, GoodTree r →
    (Fits v r ∧ ∃ zs, flattenUpTo t r = .ok zs ∧ zs.length = xs.length ∧ ∀ p z, (p, z) ∈ t.paths.zip zs → Sub r p z) ∨
    (¬ Fits v r ∧ flattenUpTo t r = .error .valueError)

/-- The same for the children of a node. -/
structure KidsSpec (ss : List TreeKey) (kids : List (PyVal α)) (xs : List (PyVal α)) (ts : List (TreeDef α)) : Prop where
  flat : ∃ rs, allOk (kids.map treeFlatten) = .ok rs ∧ rs.flatMap (·.1) = xs ∧ rs.map (·.2) = ts
  len : (pathsAll ss ts).length = xs.length
  nodup : ss.Nodup → (pathsAll ss ts).Nodup
  mem : ∀ p x, (p, x) ∈ (pathsAll ss ts).zip xs ↔
    ∃ (i : Nat) (s : TreeKey) (k : PyVal α) (q : List TreeKey), ss[i]? = some s ∧ kids[i]? = some k ∧ p = s :: q ∧ Sub k q x ∧ TreeLeaf x
  unflatten : ∀ ys tail, ys.length = xs.length → (∀ x y, (x, y) ∈ xs.zip ys → x.Plain → y.Plain) →
    ∃ ws, unflattenAll ts (ys ++ tail) = .ok (ws, tail) ∧ ws.length = kids.length ∧
      (∀ (i : Nat) s k w, ss[i]? = some s → kids[i]? = some k → ws[i]? = some w →
        Mapped (fun p x y => (s :: p, x, y) ∈ (pathsAll ss ts).zip (xs.zip ys)) k w) ∧
      ((∀ x y, (x, y) ∈ xs.zip ys → x.isNode = true → y.isNode = true) → (∀ y ∈ ys, TreeLeaf y) →
        ∃ rs, allOk (ws.map treeFlatten) = .ok rs ∧ rs.flatMap (·.1) = ys ∧ rs.map (·.2) = ts)
  upTo : ∀ rs : List (PyVal α), rs.length = kids.length → (∀ r ∈ rs, GoodTree r) →
    ((∀ (i : Nat) k r, kids[i]? = some k → rs[i]? = some r → Fits k r) ∧
      ∃ zs, upToAll ts rs = .ok zs ∧ zs.length = xs.length ∧ ∀ p z, (p, z) ∈ (pathsAll ss ts).zip zs →
        ∃ (i : Nat) (s : TreeKey) (r : PyVal α) (q : List TreeKey), ss[i]? = some s ∧ rs[i]? = some r ∧ p = s :: q ∧ Sub r q z) ∨
    (¬ (∀ (i : Nat) k r, kids[i]? = some k → rs[i]? = some r → Fits k r) ∧ upToAll ts rs = .error .valueError)

omit [DecidableEq α] in
theorem mem_pathsAll {ss : List TreeKey} {ts : List (TreeDef α)} {p : List TreeKey} (h : p ∈ pathsAll ss ts) : ∃ s q, s ∈ ss ∧ p = s :: q := by
  induction ss generalizing ts with
  | nil => cases ts <;> cases h
  | cons s ss ih =>
    cases ts with
    | nil => cases h
    | cons t ts =>
      simp only [pathsAll, List.mem_append, List.mem_map] at h
      rcases h with ⟨q, _, rfl⟩ | h
      · exact ⟨s, q, by simp, rfl⟩
      · obtain ⟨s', q, h1, h2⟩ := ih h
        exact ⟨s', q, by simp [h1], h2⟩

theorem split_length {X : Type _} {l : List X} {a b : Nat} (h : l.length = a + b) :
    ∃ l1 l2, l = l1 ++ l2 ∧ l1.length = a ∧ l2.length = b :=
  ⟨l.take a, l.drop a, (List.take_append_drop a l).symm, by simp; omega, by simp; omega⟩

theorem mem_zip_map_left {X Y Z : Type _} {f : X → Z} {xs : List X} {ys : List Y} {z : Z} {y : Y} :
    (z, y) ∈ (xs.map f).zip ys ↔ ∃ x, z = f x ∧ (x, y) ∈ xs.zip ys := by
  rw [List.zip_map_left, List.mem_map]
  constructor
  · rintro ⟨⟨x, y'⟩, h, e⟩
    cases e
    exact ⟨x, rfl, h⟩
  · rintro ⟨x, rfl, h⟩
    exact ⟨(x, y), h, rfl⟩

theorem kidsSpec {kids : List (PyVal α)} (h : ∀ k ∈ kids, ∃ xs t, FlatSpec k xs t) :
    ∀ ss : List TreeKey, ss.length = kids.length → ∃ xs ts, KidsSpec ss kids xs ts := by
  induction kids with
  | nil =>
    intro ss hs
    simp at hs
    subst hs
    refine ⟨[], [], ⟨⟨[], rfl, rfl, rfl⟩, rfl, fun _ => List.nodup_nil, by simp [pathsAll], ?_, ?_⟩⟩
    · intro ys tail hl _
      simp at hl
      subst hl
      exact ⟨[], rfl, rfl, by simp, fun _ _ => ⟨[], rfl, rfl, rfl⟩⟩
    · intro rs hl _
      simp at hl
      subst hl
      exact .inl ⟨by simp, [], rfl, rfl, by simp [pathsAll]⟩
  | cons k kids ih =>
    intro ss hs
    cases ss with
    | nil => simp at hs
    | cons s ss =>
      obtain ⟨x1, t, hk⟩ := h k (by simp)
      obtain ⟨x2, ts, hks⟩ := ih (fun k hk => h k (by simp [hk])) ss (by simpa using hs)
      refine ⟨x1 ++ x2, t :: ts, ?_⟩
      have hlen1 : (t.paths.map (s :: ·)).length = x1.length := by simp [hk.len]
      have hzip : ∀ {Y : Type} (y1 y2 : List Y), y1.length = x1.length →
          (pathsAll (s :: ss) (t :: ts)).zip (y1 ++ y2) = (t.paths.map (s :: ·)).zip y1 ++ (pathsAll ss ts).zip y2 := by
        intro Y y1 y2 h1
        rw [pathsAll, List.zip_append (by rw [hlen1, h1])]
      constructor
      · obtain ⟨rs, h1, h2, h3⟩ := hks.flat
        exact ⟨(x1, t) :: rs, by simp [hk.flat, allOk, h1], by simp [h2], by simp [h3]⟩
      · simp [pathsAll, hk.len, hks.len]
      · intro hn
        rw [List.nodup_cons] at hn
        rw [pathsAll, List.nodup_append]
        refine ⟨List.Pairwise.map _ (fun a b h e => h (by cases e; rfl)) hk.nodup, hks.nodup hn.2, ?_⟩
        intro a ha b hb e
        subst e
        obtain ⟨q, _, rfl⟩ := List.mem_map.1 ha
        obtain ⟨s', q', h1, h2⟩ := mem_pathsAll hb
        cases h2
        exact hn.1 h1
      · intro p x
        rw [hzip _ _ rfl, List.mem_append, mem_zip_map_left, hks.mem]
        constructor
        · rintro (⟨q, rfl, hq⟩ | ⟨i, s', k', q, h1, h2, h3⟩)
          · exact ⟨0, s, k, q, rfl, rfl, rfl, (hk.mem q x).1 hq⟩
          · exact ⟨i + 1, s', k', q, by simpa using h1, by simpa using h2, h3⟩
        · rintro ⟨i, s', k', q, h1, h2, rfl, h3⟩
          cases i with
          | zero =>
            cases h1; cases h2
            exact .inl ⟨q, rfl, (hk.mem q x).2 h3⟩
          | succ i => exact .inr ⟨i, s', k', q, by simpa using h1, by simpa using h2, rfl, h3⟩
      · intro ys tail hl hp
        obtain ⟨y1, y2, rfl, l1, l2⟩ := split_length (hl.trans List.length_append)
        have hz : (x1 ++ x2).zip (y1 ++ y2) = x1.zip y1 ++ x2.zip y2 := List.zip_append l1.symm
        rw [hz] at hp ⊢
        have lz : (x1.zip y1).length = x1.length := by simp [l1]
        obtain ⟨w, hw, hm, hb⟩ := hk.unflatten y1 (y2 ++ tail) l1 (fun x y h => hp x y (by simp [h]))
        obtain ⟨ws, hws, hlen, hms, hbs⟩ := hks.unflatten y2 tail l2 (fun x y h => hp x y (by simp [h]))
        refine ⟨w :: ws, by simp [unflattenAll, hw, hws], by simp [hlen], ?_, ?_⟩
        · rw [hzip _ _ lz]
          intro i s' k' w' h1 h2 h3
          cases i with
          | zero =>
            cases h1; cases h2; cases h3
            refine hm.mono fun p x y h => ?_
            exact List.mem_append_left _ (mem_zip_map_left.2 ⟨p, rfl, h⟩)
          | succ i =>
            refine (hms i s' k' w' (by simpa using h1) (by simpa using h2) (by simpa using h3)).mono fun p x y h => ?_
            exact List.mem_append_right _ h
        · intro hn hleaf
          have e1 := hb (fun x y h => hn x y (by simp [h])) (fun y h => hleaf y (by simp [h]))
          obtain ⟨rs, h1, h2, h3⟩ := hbs (fun x y h => hn x y (by simp [h])) (fun y h => hleaf y (by simp [h]))
          exact ⟨(y1, t) :: rs, by simp [e1, allOk, h1], by simp [h2], by simp [h3]⟩
      · intro rs hl hg
        cases rs with
        | nil => simp at hl
        | cons r rs =>
          rcases hk.upTo r (hg r (by simp)) with ⟨f1, z1, e1, l1, m1⟩ | ⟨f1, e1⟩
          · rcases hks.upTo rs (by simpa using hl) (fun r h => hg r (by simp [h])) with ⟨f2, z2, e2, l2, m2⟩ | ⟨f2, e2⟩
            · refine .inl ⟨?_, z1 ++ z2, by simp [upToAll, e1, e2], by simp [l1, l2], ?_⟩
              · intro i k' r' h1 h2
                cases i with
                | zero => cases h1; cases h2; exact f1
                | succ i => exact f2 i k' r' (by simpa using h1) (by simpa using h2)
              · intro p z
                rw [hzip _ _ l1, List.mem_append, mem_zip_map_left]
                rintro (⟨q, rfl, hq⟩ | hq)
                · exact ⟨0, s, r, q, rfl, rfl, rfl, m1 q z hq⟩
                · obtain ⟨i, s', r', q, h1, h2, h3⟩ := m2 p z hq
                  exact ⟨i + 1, s', r', q, by simpa using h1, by simpa using h2, h3⟩
            · refine .inr ⟨fun hc => f2 fun i k' r' h1 h2 => hc (i + 1) k' r' (by simpa using h1) (by simpa using h2), ?_⟩
              simp [upToAll, e1, e2]
          · refine .inr ⟨fun hc => f1 (hc 0 k r rfl rfl), ?_⟩
            simp [upToAll, e1]

/-- Flattening, unflattening and fitting, for every good tree. -/
theorem flatSpec {v : PyVal α} (h : GoodTree v) : ∃ xs t, FlatSpec v xs t := by
  have key : ∀ (n : Nat) (v : PyVal α), sizeOf v < n → GoodTree v → ∃ xs t, FlatSpec v xs t := by
    intro n
    induction n with
    | zero => intro v hv; omega
    | succ n ih =>
      intro v hv hg
      rcases hg.cases' with ⟨hl, hf⟩ | ⟨kids, d, hi⟩
      · refine ⟨[v], .leaf, ⟨by rw [treeFlatten_eq, hf], rfl, by simp [TreeDef.paths], ?_, ?_, ?_⟩⟩
        · intro p x
          simp only [TreeDef.paths, List.zip_cons_cons, List.zip_nil_right, List.mem_singleton, Prod.mk.injEq]
          constructor
          · rintro ⟨rfl, rfl⟩
            exact ⟨.here _, hl⟩
          · rintro ⟨hs, _⟩
            cases hs with
            | here => exact ⟨rfl, rfl⟩
            | item => exact hl.elim
            | key => exact hl.elim
            | value hc => rw [hl.1] at hc; cases hc
            | field => exact hl.elim
        · intro ys tail hlen hp
          match ys, hlen with
          | [y], _ =>
            refine ⟨y, rfl, .leaf hl (by simp [TreeDef.paths]), ?_⟩
            intro hn hleaf
            rw [treeFlatten_eq, flattenNode_leaf (hleaf y (by simp))]
        · intro r hr
          exact .inl ⟨.leaf hl, [r], rfl, rfl, fun p z h => by
            simp [TreeDef.paths] at h
            obtain ⟨rfl, rfl⟩ := h
            exact .here _⟩
      · obtain ⟨xs, ts, hk⟩ := kidsSpec (kids := kids) (fun k hk => ih k (by have := flattenNode_lt hi.flat k hk; omega) (hi.good k hk)) d.steps hi.len
        obtain ⟨rs, f1, f2, f3⟩ := hk.flat
        refine ⟨xs, .node d ts, ⟨?_, hk.len, hk.nodup hi.nodup, ?_, ?_, ?_⟩⟩
        · rw [treeFlatten_eq, hi.flat]
          simp [f1, f2, f3]
        · intro p x
          rw [TreeDef.paths, hk.mem]
          constructor
          · rintro ⟨i, s, k, q, h1, h2, rfl, h3, h4⟩
            exact ⟨hi.sub i s k q x h1 h2 h3, h4⟩
          · rintro ⟨hs, hl⟩
            rcases hi.inv p x hs with ⟨rfl, rfl⟩ | ⟨i, s, k, q, h1, h2, h3, h4⟩
            · exact absurd hl hi.notLeaf
            · exact ⟨i, s, k, q, h1, h2, h3, h4, hl⟩
        · intro ys tail hlen hp
          obtain ⟨ws, hws, hwl, hm, hb⟩ := hk.unflatten ys tail hlen hp
          have hat : ∀ (i : Nat) k, kids[i]? = some k → ∃ s, d.steps[i]? = some s := by
            intro i k hki
            have : i < d.steps.length := by
              rw [hi.len]
              by_contra hc
              rw [List.getElem?_eq_none (by omega)] at hki
              cases hki
            exact ⟨_, List.getElem?_eq_getElem this⟩
          have hmem : ∀ {p : List TreeKey} {x y : PyVal α}, (p, x, y) ∈ (pathsAll d.steps ts).zip (xs.zip ys) → (x, y) ∈ xs.zip ys :=
            fun h => (List.of_mem_zip h).2
          obtain ⟨w, hw, hmw, hfw⟩ := hi.build (fun s => Mapped (fun p x y => (s :: p, x, y) ∈ (pathsAll d.steps ts).zip (xs.zip ys))) ws hwl
            (fun i s k w h1 h2 h3 => ⟨hm i s k w h1 h2 h3, (hm i s k w h1 h2 h3).plain fun p x y hr => hp x y (hmem hr)⟩)
          refine ⟨w, by simp [unflattenFrom, hws, hw], hmw.mapped, ?_⟩
          intro hn hleaf
          obtain ⟨rs', g1, g2, g3⟩ := hb hn hleaf
          rw [treeFlatten_eq, hfw ?_]
          · simp [g1, g2, g3]
          · intro i k w h2 h3 hkn
            obtain ⟨s, hs⟩ := hat i k h2
            exact (hm i s k w hs h2 h3).isNode (fun p x y hr => hn x y (hmem hr)) hkn
        · intro r hr
          rcases hr.cases' with ⟨hl, hf⟩ | ⟨kids', d', hi'⟩
          · refine .inr ⟨fun hc => not_fits_leaf hc hi.notLeaf hl, ?_⟩
            simp [flattenUpTo, hf]
          · have hiff := fits_iff hg hr hi.flat hi'.flat
            cases he : d.eqv d' with
            | false =>
              refine .inr ⟨fun hc => ?_, by simp [flattenUpTo, hi'.flat, he]⟩
              have := (hiff.1 hc).1
              rw [he] at this
              cases this
            | true =>
              have hst := eqv_steps he
              have hln : kids'.length = kids.length := by rw [← hi'.len, hst, hi.len]
              rcases hk.upTo kids' hln hi'.good with ⟨g1, zs, g2, g3, g4⟩ | ⟨g1, g2⟩
              · refine .inl ⟨hiff.2 ⟨he, hln, g1⟩, zs, by simp [flattenUpTo, hi'.flat, he, g2], g3, ?_⟩
                intro p z hz
                obtain ⟨i, s, k, q, h1, h2, rfl, h3⟩ := g4 p z hz
                exact hi'.sub i s k q z (by rw [hst]; exact h1) h2 h3
              · refine .inr ⟨fun hc => g1 (hiff.1 hc).2.2, by simp [flattenUpTo, hi'.flat, he, g2]⟩
  exact key (sizeOf v + 1) v (by omega) h

end Nnx
