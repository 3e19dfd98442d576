import Verif.Proofs.TreeMap
import Verif.Proofs.State
/-
C93: `jax.tree_map`, `tree_flatten` and `tree_unflatten` on trees of nnx values (containers, Pytrees, States, in tuples and dicts) replace exactly
the leaves, all the way down, and keep everything else.
-/
namespace Nnx
variable {α : Type}

/-- There is one value at a path. -/
theorem Sub.unique {v : PyVal α} {p : List TreeKey} {x y : PyVal α} (h : Sub v p x) (h' : Sub v p y) : x = y := by
  induction h with
  | here => cases h'; rfl
  | item hx _ ih => cases h' with | item hx' h' => rw [hx] at hx'; cases hx'; exact ih h'
  | key hx _ ih => cases h' with | key hx' h' => rw [hx] at hx'; cases hx'; exact ih h'
  | value _ _ ih => cases h' with | value _ h' => exact ih h'
  | field hx _ _ ih => cases h' with | field hx' _ h' => rw [hx] at hx'; cases hx'; exact ih h'

theorem Others.unique {rest : List (PyVal α)} {p : List TreeKey} {zs zs' : List (PyVal α)} (h : Others rest p zs) (h' : Others rest p zs') :
    zs = zs' := by
  apply List.ext_getElem (by rw [h.1, h'.1])
  intro i h1 h2
  have hi : i < rest.length := by rw [← h.1]; exact h1
  exact (h.2 i _ _ (List.getElem?_eq_getElem hi) (List.getElem?_eq_getElem h1)).unique
    (h'.2 i _ _ (List.getElem?_eq_getElem hi) (List.getElem?_eq_getElem h2))

theorem StateOthers.unique {rest : List (State (PyVal α))} {k : Str} {p : List TreeKey} {zs zs' : List (PyVal α)} (h : StateOthers rest k p zs)
    (h' : StateOthers rest k p zs') : zs = zs' := by
  apply List.ext_getElem (by rw [h.1, h'.1])
  intro i h1 h2
  have hi : i < rest.length := by rw [← h.1]; exact h1
  obtain ⟨u, e, s⟩ := h.2 i _ _ (List.getElem?_eq_getElem hi) (List.getElem?_eq_getElem h1)
  obtain ⟨u', e', s'⟩ := h'.2 i _ _ (List.getElem?_eq_getElem hi) (List.getElem?_eq_getElem h2)
  rw [e] at e'
  cases e'
  exact s.unique s'

/-! ### The columns -/

/-- `zs` are the entries of the lists `ls` beside the path `p`. -/
def Row (ps : List (List TreeKey)) (ls : List (List (PyVal α))) (p : List TreeKey) (zs : List (PyVal α)) : Prop :=
  zs.length = ls.length ∧ ∀ (j : Nat) l z, ls[j]? = some l → zs[j]? = some z → (p, z) ∈ ps.zip l

theorem mem_zip_iff {X Y : Type _} {xs : List X} {ys : List Y} {x : X} {y : Y} :
    (x, y) ∈ xs.zip ys ↔ ∃ i : Nat, xs[i]? = some x ∧ ys[i]? = some y := by
  rw [List.mem_iff_getElem?]
  simp only [List.getElem?_zip_eq_some]

theorem columns_row {ps : List (List TreeKey)} {xs : List (PyVal α)} {ls : List (List (PyVal α))} (hl : ∀ l ∈ ls, l.length = xs.length)
    {i : Nat} {p : List TreeKey} {x : PyVal α} (hp : ps[i]? = some p) (hx : xs[i]? = some x) :
    ∃ zs, (columns xs ls)[i]? = some (x :: zs) ∧ Row ps ls p zs := by
  obtain ⟨c, h1, h2, h3⟩ := columns_getElem hl hx
  refine ⟨c, h1, h2, ?_⟩
  intro j l z hj hz
  rw [h3 j l hj] at hz
  exact mem_zip_iff.2 ⟨i, hp, hz⟩

theorem columns_ok {ps : List (List TreeKey)} {xs ys : List (PyVal α)} {ls : List (List (PyVal α))} {f : List (PyVal α) → Except Err (PyVal α)}
    (hl : ∀ l ∈ ls, l.length = xs.length) (h : allOk ((columns xs ls).map f) = .ok ys) :
    ys.length = xs.length ∧ ∀ p x y, (p, x, y) ∈ ps.zip (xs.zip ys) → ∃ zs, Row ps ls p zs ∧ f (x :: zs) = .ok y := by
  obtain ⟨h1, h2⟩ := allOk_map_ok h
  rw [columns_length] at h1
  refine ⟨h1, ?_⟩
  intro p x y hm
  obtain ⟨i, hp, hxy⟩ := mem_zip_iff.1 hm
  rw [List.getElem?_zip_eq_some] at hxy
  obtain ⟨zs, hc, hr⟩ := columns_row hl hp hxy.1
  obtain ⟨y', hy', hf⟩ := h2 i _ hc
  rw [hxy.2] at hy'
  cases hy'
  exact ⟨zs, hr, hf⟩

theorem columns_error {ps : List (List TreeKey)} {xs : List (PyVal α)} {ls : List (List (PyVal α))} {f : List (PyVal α) → Except Err (PyVal α)}
    {e : Err} (hps : ps.length = xs.length) (hl : ∀ l ∈ ls, l.length = xs.length) (h : allOk ((columns xs ls).map f) = .error e) :
    ∃ p x zs, (p, x) ∈ ps.zip xs ∧ Row ps ls p zs ∧ f (x :: zs) = .error e := by
  obtain ⟨i, c, hc, hf, _⟩ := allOk_map_error h
  have hi : i < xs.length := by
    rw [← columns_length xs ls]
    by_contra hn
    rw [List.getElem?_eq_none (by omega)] at hc
    cases hc
  have hx := List.getElem?_eq_getElem hi
  have hp := List.getElem?_eq_getElem (show i < ps.length by omega)
  obtain ⟨zs, hc', hr⟩ := columns_row (ps := ps) hl hp hx
  rw [hc] at hc'
  cases hc'
  exact ⟨_, _, zs, mem_zip_iff.2 ⟨i, hp, hx⟩, hr, hf⟩

theorem columns_raises {ps : List (List TreeKey)} {xs ys : List (PyVal α)} {ls : List (List (PyVal α))} {f : List (PyVal α) → Except Err (PyVal α)}
    (hl : ∀ l ∈ ls, l.length = xs.length) (h : allOk ((columns xs ls).map f) = .ok ys) {p : List TreeKey} {x : PyVal α} (hm : (p, x) ∈ ps.zip xs) :
    ∃ zs y, Row ps ls p zs ∧ f (x :: zs) = .ok y := by
  obtain ⟨h1, h2⟩ := allOk_map_ok h
  obtain ⟨i, hp, hx⟩ := mem_zip_iff.1 hm
  obtain ⟨zs, hc, hr⟩ := columns_row hl hp hx
  obtain ⟨y', hy', hf⟩ := h2 i _ hc
  exact ⟨zs, y', hr, hf⟩

variable [DecidableEq α]

theorem upTo_all {v : PyVal α} {xs : List (PyVal α)} {t : TreeDef α} (hs : FlatSpec v xs t) {rest : List (PyVal α)} (hg : ∀ r ∈ rest, GoodTree r)
    (hf : ∀ r ∈ rest, Fits v r) : ∃ ls, allOk (rest.map (flattenUpTo t)) = .ok ls ∧ (∀ l ∈ ls, l.length = xs.length) ∧
      ∀ p zs, Row t.paths ls p zs → Others rest p zs := by
  have hone : ∀ r ∈ rest, ∃ zs, flattenUpTo t r = .ok zs ∧ zs.length = xs.length ∧ ∀ p z, (p, z) ∈ t.paths.zip zs → Sub r p z := by
    intro r hr
    rcases hs.upTo r (hg r hr) with ⟨_, h⟩ | ⟨h, _⟩
    · exact h
    · exact absurd (hf r hr) h
  obtain ⟨ls, hls⟩ := allOk_map_total (f := flattenUpTo t) (l := rest) fun r hr => let ⟨zs, h, _⟩ := hone r hr; ⟨zs, h⟩
  obtain ⟨h1, h2⟩ := allOk_map_ok hls
  have hat : ∀ (j : Nat) l, ls[j]? = some l → ∃ r, rest[j]? = some r ∧ flattenUpTo t r = .ok l := by
    intro j l hj
    have hlt : j < rest.length := by
      rw [← h1]
      by_contra hc
      rw [List.getElem?_eq_none (by omega)] at hj
      cases hj
    have hr := List.getElem?_eq_getElem hlt
    obtain ⟨y, hy, e⟩ := h2 j _ hr
    rw [hj] at hy
    cases hy
    exact ⟨_, hr, e⟩
  refine ⟨ls, hls, ?_, ?_⟩
  · intro l hl
    obtain ⟨j, hj⟩ := List.getElem?_of_mem hl
    obtain ⟨r, hr, e⟩ := hat j l hj
    obtain ⟨zs, e', hlen, _⟩ := hone r (List.mem_of_getElem? hr)
    rw [e] at e'
    cases e'
    exact hlen
  · intro p zs hrow
    refine ⟨by rw [hrow.1, h1], ?_⟩
    intro j r z hr hz
    obtain ⟨l, hl, e⟩ := h2 j r hr
    obtain ⟨zs', e', _, hsub⟩ := hone r (List.mem_of_getElem? hr)
    rw [e] at e'
    cases e'
    exact hsub p z (hrow.2 j l z hl hz)

omit [DecidableEq α] in
theorem plain_zip {ps : List (List TreeKey)} {xs ys : List (PyVal α)} {ls : List (List (PyVal α))} {f : List (PyVal α) → Except Err (PyVal α)}
    (hps : ps.length = xs.length) (hk : KeepsPlain f) (h : ∀ p x y, (p, x, y) ∈ ps.zip (xs.zip ys) → ∃ zs, Row ps ls p zs ∧ f (x :: zs) = .ok y) :
    ∀ x y, (x, y) ∈ xs.zip ys → x.Plain → y.Plain := by
  intro x y hm hx
  obtain ⟨i, hi⟩ := List.mem_iff_getElem?.1 hm
  have hlt : i < ps.length := by
    have := (List.getElem?_eq_some_iff.1 hi).1
    simp at this
    omega
  obtain ⟨zs, _, hf⟩ := h _ x y (mem_zip_iff.2 ⟨i, List.getElem?_eq_getElem hlt, hi⟩)
  exact hk _ _ _ hf hx

/-! ### C93 -/

/-- C93 (leaves): `tree_flatten_with_path` returns exactly the leaves of the tree, each once, with its path. -/
theorem C93_leaves {v : PyVal α} (h : GoodTree v) : ∃ xs t, treeFlatten v = .ok (xs, t) ∧ t.paths.length = xs.length ∧ t.paths.Nodup ∧
    ∀ p x, (p, x) ∈ t.paths.zip xs ↔ Sub v p x ∧ TreeLeaf x := by
  obtain ⟨xs, t, hs⟩ := flatSpec h
  exact ⟨xs, t, hs.flat, hs.len, hs.nodup, hs.mem⟩

mutual
/-- The number of leaves that a structure takes. -/
def TreeDef.count : TreeDef α → Nat
  | .leaf => 1
  | .node _ kids => countAll kids
def countAll : List (TreeDef α) → Nat
  | [] => 0
  | t :: ts => t.count + countAll ts
end

mutual
theorem unflattenFrom_count (t : TreeDef α) (xs : List (PyVal α)) (v : PyVal α) (rest : List (PyVal α))
    (h : unflattenFrom t xs = .ok (v, rest)) : xs.length = t.count + rest.length := by
  cases t with
  | leaf =>
    cases xs with
    | nil => cases h
    | cons x xs => cases h; simp [TreeDef.count, Nat.add_comm]
  | node d kids =>
    simp only [unflattenFrom] at h
    split at h
    · cases h
    · next vs rest' he =>
      split at h
      · cases h
      · cases h
        rw [TreeDef.count]
        exact unflattenAll_count kids xs vs rest he
theorem unflattenAll_count (ts : List (TreeDef α)) (xs : List (PyVal α)) (vs : List (PyVal α)) (rest : List (PyVal α))
    (h : unflattenAll ts xs = .ok (vs, rest)) : xs.length = countAll ts + rest.length := by
  cases ts with
  | nil => cases h; simp [countAll]
  | cons t ts =>
    simp only [unflattenAll] at h
    split at h
    · cases h
    · next v ys he =>
      split at h
      · cases h
      · next vs' zs he' =>
        cases h
        rw [countAll, unflattenFrom_count t xs v ys he, unflattenAll_count ts ys _ _ he', Nat.add_assoc]
end

omit [DecidableEq α] in
theorem treeFlatten_count : ∀ (n : Nat) (v : PyVal α) (xs : List (PyVal α)) (t : TreeDef α), sizeOf v ≤ n → treeFlatten v = .ok (xs, t) → xs.length = t.count := by
  intro n
  induction n with
  | zero => intro v xs t hn; cases v <;> simp at hn
  | succ n ih =>
    intro v xs t hn h
    rw [treeFlatten_eq] at h
    split at h
    · cases h
    · cases h; rfl
    · next kids d hk =>
      have hlt := flattenNode_lt hk
      split at h
      · cases h
      · next rs hr =>
        cases h
        rw [TreeDef.count]
        clear hk
        induction kids generalizing rs with
        | nil => cases hr; rfl
        | cons k kids ihk =>
          simp only [List.map_cons] at hr
          cases hk1 : treeFlatten k with
          | error e => rw [hk1] at hr; cases hr
          | ok r =>
            rw [hk1] at hr
            simp only [allOk] at hr
            split at hr
            · cases hr
            · next rs' hr' =>
              cases hr
              obtain ⟨ys, u⟩ := r
              have h1 := hlt k (by simp)
              have h2 := ih k ys u (by omega) hk1
              have h3 := ihk (fun k' hk' => hlt k' (by simp [hk'])) rs' hr'
              simp only [List.flatMap_cons, List.length_append, List.map_cons, countAll, h2, h3]

/-- C93 (number of leaves): a tree can be rebuilt only with as many leaves as it has; with more or fewer, `tree_unflatten` raises. -/
theorem C93_leaf_count {v : PyVal α} {xs ys : List (PyVal α)} {t : TreeDef α} (hf : treeFlatten v = .ok (xs, t)) (hne : ys.length ≠ xs.length) :
    ∃ e, treeUnflatten t ys = .error e := by
  unfold treeUnflatten
  split
  · next e he => exact ⟨e, rfl⟩
  · next w he =>
    have h1 := unflattenFrom_count _ _ _ _ he
    rw [← treeFlatten_count _ v xs t (Nat.le_refl _) hf] at h1
    exact absurd h1 hne
  · exact ⟨_, rfl⟩

/-- C93 (round trip): `tree_unflatten` of what `tree_flatten` returned is the same tree, and flattens to the same leaves and structure. -/
theorem C93_round_trip {v : PyVal α} {xs : List (PyVal α)} {t : TreeDef α} (h : GoodTree v) (hf : treeFlatten v = .ok (xs, t)) :
    ∃ w, treeUnflatten t xs = .ok w ∧ SameValue v w ∧ treeFlatten w = .ok (xs, t) := by
  obtain ⟨xs', t', hs⟩ := flatSpec h
  have := hs.flat
  rw [hf] at this
  cases this
  have hself : ∀ x y, (x, y) ∈ xs.zip xs → y = x := by
    intro x y hm
    obtain ⟨i, h1, h2⟩ := mem_zip_iff.1 hm
    rw [h1] at h2
    cases h2
    rfl
  obtain ⟨w, h1, h2, h3⟩ := hs.unflatten xs [] rfl (fun x y hm hx => hself x y hm ▸ hx)
  rw [List.append_nil] at h1
  refine ⟨w, by rw [treeUnflatten, h1], h2.mono fun p x y hm => hself x y (List.of_mem_zip hm).2, h3 (fun x y hm hx => hself x y hm ▸ hx) ?_⟩
  intro y hy
  obtain ⟨i, hi⟩ := List.getElem?_of_mem hy
  have hlt : i < t.paths.length := by
    rw [hs.len]
    exact (List.getElem?_eq_some_iff.1 hi).1
  exact ((hs.mem _ y).1 (mem_zip_iff.2 ⟨i, List.getElem?_eq_getElem hlt, hi⟩)).2

/-- C93 (map): `jax.tree_map(f, v, *rest)` is `v` with each leaf replaced by what `f` returns for it and the subtrees of the other trees at the same
path, and nothing else changed. -/
theorem C93_tree_map {f : List (PyVal α) → Except Err (PyVal α)} {v : PyVal α} {rest : List (PyVal α)} (hk : KeepsPlain f) (h : GoodTree v)
    (hg : ∀ r ∈ rest, GoodTree r) (hfit : ∀ r ∈ rest, Fits v r)
    (hf : ∀ p x zs, Sub v p x → TreeLeaf x → Others rest p zs → ∃ y, f (x :: zs) = .ok y) :
    ∃ w, treeMap f v rest = .ok w ∧ Mapped (LeafApplied f rest) v w := by
  obtain ⟨xs, t, hs⟩ := flatSpec h
  obtain ⟨ls, hls, hlen, hrow⟩ := upTo_all hs hg hfit
  cases hys : allOk ((columns xs ls).map f) with
  | error e =>
    obtain ⟨p, x, zs, hm, hr, he⟩ := columns_error hs.len hlen hys
    obtain ⟨y, hy⟩ := hf p x zs ((hs.mem p x).1 hm).1 ((hs.mem p x).1 hm).2 (hrow p zs hr)
    rw [he] at hy
    cases hy
  | ok ys =>
    obtain ⟨hl, hy⟩ := columns_ok (ps := t.paths) hlen hys
    obtain ⟨w, h1, h2, _⟩ := hs.unflatten ys [] hl (plain_zip hs.len hk hy)
    rw [List.append_nil] at h1
    refine ⟨w, by simp only [treeMap, hs.flat, hls, hys, treeUnflatten, h1], h2.mono fun p x y hm => ?_⟩
    obtain ⟨zs, hr, he⟩ := hy p x y hm
    exact ⟨zs, hrow p zs hr, he⟩

/-- C93 (misfit): a tree of another structure is refused with ValueError. -/
theorem C93_misfit {f : List (PyVal α) → Except Err (PyVal α)} {v : PyVal α} {rest : List (PyVal α)} (h : GoodTree v) (hg : ∀ r ∈ rest, GoodTree r)
    (hfit : ∃ r ∈ rest, ¬ Fits v r) : treeMap f v rest = .error .valueError := by
  obtain ⟨xs, t, hs⟩ := flatSpec h
  have : allOk (rest.map (flattenUpTo t)) = .error .valueError := by
    cases hc : allOk (rest.map (flattenUpTo t)) with
    | ok ls =>
      obtain ⟨r, hr, hn⟩ := hfit
      obtain ⟨i, hi⟩ := List.getElem?_of_mem hr
      obtain ⟨y, _, e⟩ := (allOk_map_ok hc).2 i r hi
      rcases hs.upTo r (hg r hr) with ⟨h, _⟩ | ⟨_, h⟩
      · exact absurd h hn
      · rw [e] at h; cases h
    | error e =>
      obtain ⟨i, r, hi, he, _⟩ := allOk_map_error hc
      rcases hs.upTo r (hg r (List.mem_of_getElem? hi)) with ⟨_, zs, h, _⟩ | ⟨_, h⟩
      · rw [he] at h; cases h
      · rw [he] at h; cases h; rfl
  simp only [treeMap, hs.flat, this]

/-- C93 (exceptions): otherwise `tree_map` raises only what `f` raises for a leaf, and it raises if `f` does for any leaf. -/
theorem C93_raises {f : List (PyVal α) → Except Err (PyVal α)} {v : PyVal α} {rest : List (PyVal α)} (hk : KeepsPlain f) (h : GoodTree v)
    (hg : ∀ r ∈ rest, GoodTree r) (hfit : ∀ r ∈ rest, Fits v r) :
    (∀ e, treeMap f v rest = .error e → ∃ p x zs, Sub v p x ∧ TreeLeaf x ∧ Others rest p zs ∧ f (x :: zs) = .error e) ∧
    ((∃ p x zs e, Sub v p x ∧ TreeLeaf x ∧ Others rest p zs ∧ f (x :: zs) = .error e) → ∃ e, treeMap f v rest = .error e) := by
  obtain ⟨xs, t, hs⟩ := flatSpec h
  obtain ⟨ls, hls, hlen, hrow⟩ := upTo_all hs hg hfit
  simp only [treeMap, hs.flat, hls]
  cases hys : allOk ((columns xs ls).map f) with
  | error e =>
    refine ⟨?_, fun _ => ⟨e, rfl⟩⟩
    intro e' he'
    cases he'
    obtain ⟨p, x, zs, hm, hr, he⟩ := columns_error hs.len hlen hys
    exact ⟨p, x, zs, ((hs.mem p x).1 hm).1, ((hs.mem p x).1 hm).2, hrow p zs hr, he⟩
  | ok ys =>
    obtain ⟨hl, hy⟩ := columns_ok (ps := t.paths) hlen hys
    obtain ⟨w, h1, h2, _⟩ := hs.unflatten ys [] hl (plain_zip hs.len hk hy)
    rw [List.append_nil] at h1
    constructor
    · intro e he
      simp only [treeUnflatten, h1] at he
      cases he
    · rintro ⟨p, x, zs, e, hsub, hx, ho, he⟩
      obtain ⟨zs', y, hr, hy⟩ := columns_raises hlen hys ((hs.mem p x).2 ⟨hsub, hx⟩)
      have := (hrow p zs' hr).unique ho
      subst this
      rw [he] at hy
      cases hy

omit [DecidableEq α] in
/-- Replacing leaves by plain leaves gives a tree on which all of this can be done again. -/
theorem Mapped.good {R : List TreeKey → PyVal α → PyVal α → Prop} {v w : PyVal α} (h : Mapped R v w) (hv : GoodTree v)
    (hr : ∀ p x y, R p x y → TreeLeaf y ∧ y.Plain) : GoodTree w := by
  induction h with
  | leaf h r => exact .leaf (hr _ _ _ r).1
  | none => exact .none
  | @tup R xs ys len _ ih =>
    cases hv with
    | leaf h => exact h.elim
    | tup hx =>
      refine .tup fun y hy => ?_
      obtain ⟨i, hi⟩ := List.getElem?_of_mem hy
      have hlt : i < xs.length := by
        rw [← len]
        exact (List.getElem?_eq_some_iff.1 hi).1
      have hxi := List.getElem?_eq_getElem hlt
      exact ih i _ y hxi hi (hx _ (List.mem_of_getElem? hxi)) fun p => hr _
  | @dict R m n nd dom _ ih =>
    cases hv with
    | leaf h => exact h.elim
    | dict _ hx =>
      refine .dict nd fun k y hy => ?_
      obtain ⟨x, hxk⟩ := Option.isSome_iff_exists.1 (dget_isSome.2 ((dom k).1 (dget_isSome.1 (by rw [hy]; rfl))))
      exact ih k x y hxk hy (hx k x hxk) fun p => hr _
  | @cont R c v w m node hm ih =>
    cases hv with
    | leaf h => rw [h.1] at node; cases node
    | cont wf hg =>
      have hw : w.Plain := hm.plain (fun p x y r _ => (hr _ x y r).2) wf.plain
      refine .cont ?_ (ih hg fun p => hr _)
      cases wf with
      | mk plain nodup novalue static sh => exact .mk hw nodup novalue static sh
  | static => exact hv
  | @tree R c m n nd dom nodes others ih =>
    cases hv with
    | leaf h => exact h.elim
    | tree wf hx =>
      have look : ∀ k y, dget n k = some y → ∃ x, dget m k = some x := fun k y hy =>
        Option.isSome_iff_exists.1 (dget_isSome.2 ((dom k).1 (dget_isSome.1 (by rw [hy]; rfl))))
      refine .tree { nodup := nd, noInit := ?_, noMut := ?_, sorted := ?_, good := ?_ } ?_
      · rw [dom]; exact wf.noInit
      · rw [dom]; exact wf.noMut
      · have hn : (sortItems n).map (·.1) = (sortItems m).map (·.1) := sortItems_names_ext nd wf.nodup dom
        have e : ∀ d : Md α, (sortItems d).map (fun kv => (PyVal.str kv.1 : PyVal α)) = ((sortItems d).map (·.1)).map .str := by
          intro d; simp [Function.comp_def]
        have := others _ _ wf.sorted rfl
        rwa [e, ← hn, ← e] at this
      · intro k y hy
        obtain ⟨x, hxk⟩ := look k y hy
        cases hb : x.isNode with
        | false =>
          have := others k x hxk hb
          rw [hy] at this
          cases this
          exact wf.good k y hxk
        | true =>
          have hm := nodes k x y hxk hb hy
          have hgy := ih k x y hxk hb hy (hx k x hxk hb) fun p => hr _
          cases hgy with
          | leaf hl =>
            rcases hm with ⟨_, r⟩ | _ | _ | _ | _ | _ | _
            · exact .inl (hr _ _ _ r).2
            · exact hl.elim
            · exact hl.elim
            · exact hl.elim
            · next node _ => rw [hl.1] at node; cases node
            · exact absurd rfl hl.2
            · exact hl.elim
          | none => exact .inl trivial
          | tup => exact .inl trivial
          | dict => exact .inl trivial
          | cont wf' => exact .inr wf'
          | tree => exact .inl trivial
      · intro k y hy hn
        obtain ⟨x, hxk⟩ := look k y hy
        cases hb : x.isNode with
        | false =>
          have := others k x hxk hb
          rw [hy] at this
          cases this
          rw [hn] at hb
          cases hb
        | true => exact ih k x y hxk hb hy (hx k x hxk hb) fun p => hr _

/-- C93 (structure): if `f` returns leaves, and array leaves for array leaves, then `tree_map` keeps the tree structure: the result has the same
paths, and its leaves are what `f` returned. -/
theorem C93_structure {f : List (PyVal α) → Except Err (PyVal α)} {v w : PyVal α} {rest : List (PyVal α)} {xs : List (PyVal α)} {t : TreeDef α}
    (hk : KeepsPlain f) (h : GoodTree v) (hg : ∀ r ∈ rest, GoodTree r) (hleaf : ∀ x zs y, f (x :: zs) = .ok y → TreeLeaf y)
    (hnode : ∀ x zs y, f (x :: zs) = .ok y → x.isNode = true → y.isNode = true) (hf : treeFlatten v = .ok (xs, t))
    (hw : treeMap f v rest = .ok w) :
    ∃ ys, treeFlatten w = .ok (ys, t) ∧ ys.length = xs.length ∧ ∀ p x y, (p, x, y) ∈ t.paths.zip (xs.zip ys) → LeafApplied f rest p x y := by
  obtain ⟨xs', t', hs⟩ := flatSpec h
  have := hs.flat
  rw [hf] at this
  cases this
  have hfit : ∀ r ∈ rest, Fits v r := by
    intro r hr
    by_contra hc
    rw [C93_misfit h hg ⟨r, hr, hc⟩] at hw
    cases hw
  obtain ⟨ls, hls, hlen, hrow⟩ := upTo_all hs hg hfit
  simp only [treeMap, hf, hls] at hw
  cases hys : allOk ((columns xs ls).map f) with
  | error e => rw [hys] at hw; cases hw
  | ok ys =>
    rw [hys] at hw
    obtain ⟨hl, hy⟩ := columns_ok (ps := t.paths) hlen hys
    obtain ⟨w', h1, h2, h3⟩ := hs.unflatten ys [] hl (plain_zip hs.len hk hy)
    rw [List.append_nil] at h1
    simp only [treeUnflatten, h1, Except.ok.injEq] at hw
    subst hw
    have hz : ∀ x y, (x, y) ∈ xs.zip ys → ∃ zs, f (x :: zs) = .ok y := by
      intro x y hm
      obtain ⟨i, hi⟩ := List.mem_iff_getElem?.1 hm
      have hlt : i < t.paths.length := by
        have := (List.getElem?_eq_some_iff.1 hi).1
        simp at this
        have := hs.len
        omega
      obtain ⟨zs, _, he⟩ := hy _ x y (mem_zip_iff.2 ⟨i, List.getElem?_eq_getElem hlt, hi⟩)
      exact ⟨zs, he⟩
    refine ⟨ys, h3 (fun x y hm => let ⟨zs, he⟩ := hz x y hm; hnode x zs y he) ?_, hl, ?_⟩
    · intro y hmy
      obtain ⟨i, hi⟩ := List.getElem?_of_mem hmy
      have hlt : i < xs.length := by
        rw [← hl]
        exact (List.getElem?_eq_some_iff.1 hi).1
      obtain ⟨zs, he⟩ := hz _ y (mem_zip_iff.2 ⟨i, List.getElem?_eq_getElem hlt, hi⟩)
      exact hleaf _ _ _ he
    · intro p x y hm
      obtain ⟨zs, hr, he⟩ := hy p x y hm
      exact ⟨zs, hrow p zs hr, he⟩

omit [DecidableEq α] in
theorem columns_nil (xs : List (PyVal α)) : columns xs [] = xs.map fun x => [x] := by
  induction xs with
  | nil => rfl
  | cons x xs ih => simp [columns, ih]

/-- C93 (composition): mapping `f` and then `g` is mapping `g ∘ f`. -/
theorem C93_compose {f g : List (PyVal α) → Except Err (PyVal α)} {v w : PyVal α} (hk : KeepsPlain f) (h : GoodTree v)
    (hleaf : ∀ x zs y, f (x :: zs) = .ok y → TreeLeaf y) (hnode : ∀ x zs y, f (x :: zs) = .ok y → x.isNode = true → y.isNode = true)
    (hw : treeMap f v [] = .ok w) : treeMap g w [] = treeMap (fun xs => (f xs).bind fun y => g [y]) v [] := by
  obtain ⟨xs, t, hs⟩ := flatSpec h
  obtain ⟨ys, h1, h2, h3⟩ := C93_structure hk h (by simp) hleaf hnode hs.flat hw
  simp only [treeMap, hs.flat, h1, List.map_nil, allOk, columns_nil]
  have : allOk ((ys.map fun y => [y]).map g) = allOk ((xs.map fun x => [x]).map fun xs => (f xs).bind fun y => g [y]) := by
    have hpt : ∀ (i : Nat) x y, xs[i]? = some x → ys[i]? = some y → f [x] = .ok y := by
      intro i x y hx hy
      have hlt : i < t.paths.length := by
        rw [hs.len]
        exact (List.getElem?_eq_some_iff.1 hx).1
      obtain ⟨zs, ho, he⟩ := h3 _ x y (mem_zip_iff.2 ⟨i, List.getElem?_eq_getElem hlt, by rw [List.getElem?_zip_eq_some]; exact ⟨hx, hy⟩⟩)
      have := ho.1
      simp at this
      subst this
      exact he
    congr 1
    apply List.ext_getElem?
    intro i
    simp only [List.getElem?_map]
    cases hx : xs[i]? with
    | none =>
      rw [List.getElem?_eq_none_iff] at hx
      rw [List.getElem?_eq_none (by omega)]
      rfl
    | some x =>
      have hlt : i < ys.length := by
        rw [h2]
        exact (List.getElem?_eq_some_iff.1 hx).1
      have hy := List.getElem?_eq_getElem hlt
      rw [hy]
      simp [hpt i x _ hx hy, Except.bind]
  rw [this]

/-- C93 (identity): mapping the identity gives the same tree. -/
theorem C93_identity {v : PyVal α} (h : GoodTree v) : ∃ w, treeMap (fun xs => .ok (xs.headD .none)) v [] = .ok w ∧ SameValue v w := by
  obtain ⟨w, h1, h2⟩ := C93_tree_map (f := fun xs => .ok (xs.headD .none)) (rest := [])
    (fun x zs y he hx => by simp at he; subst he; exact hx) h (by simp) (by simp) (fun p x zs _ _ _ => ⟨x, rfl⟩)
  refine ⟨w, h1, h2.mono ?_⟩
  rintro p x y ⟨zs, _, he⟩
  simp at he
  exact he.symm

/-! ### States -/

omit [DecidableEq α] in
theorem state_at {s : State (PyVal α)} (hn : DNodup s.mapping) {i : Nat} {st : TreeKey} {x : PyVal α} (h1 : (s.keys.map TreeKey.key)[i]? = some st)
    (h2 : s.flatten.1[i]? = some x) : ∃ k, st = .key k ∧ s.get k = some x ∧ s.keys[i]? = some k := by
  simp only [State.keys, dkeys, State.flatten, State.items, List.getElem?_map, Option.map_eq_some_iff] at h1 h2
  obtain ⟨k, ⟨kv, e1, rfl⟩, rfl⟩ := h1
  obtain ⟨kv', e2, rfl⟩ := h2
  rw [e1] at e2
  cases e2
  exact ⟨kv.1, rfl, mem_dget hn (List.mem_of_getElem? e1), by simp [State.keys, dkeys, e1]⟩

omit [DecidableEq α] in
theorem state_index {s : State (PyVal α)} {k : Str} {x : PyVal α} (h : s.get k = some x) :
    ∃ i : Nat, s.keys[i]? = some k ∧ s.flatten.1[i]? = some x := by
  obtain ⟨i, hi⟩ := List.getElem?_of_mem (dget_mem h)
  exact ⟨i, by simp [State.keys, dkeys, hi], by simp [State.flatten, State.items, hi]⟩

/-- What `KidsSpec` says for a State. -/
theorem stateSpec {s : State (PyVal α)} (h : TreeState s) :
    ∃ xs ts, KidsSpec (s.keys.map TreeKey.key) s.flatten.1 xs ts ∧ stateFlatten s = .ok (xs, (s.keys, ts)) := by
  obtain ⟨xs, ts, hs⟩ := kidsSpec (kids := s.flatten.1) (fun x hx => by
    obtain ⟨kv, hm, rfl⟩ := List.mem_map.1 hx
    exact flatSpec (h.good kv.1 kv.2 (mem_dget h.nodup hm))) (s.keys.map TreeKey.key) (by simp [State.keys, State.flatten, State.items, dkeys])
  refine ⟨xs, ts, hs, ?_⟩
  obtain ⟨rs, h1, rfl, rfl⟩ := hs.flat
  simp only [stateFlatten, h1]
  rfl

theorem state_up_to {s r : State (PyVal α)} (h : TreeState s) (hr : TreeState r) {xs : List (PyVal α)} {ts : List (TreeDef α)}
    (hs : KidsSpec (s.keys.map TreeKey.key) s.flatten.1 xs ts) :
    (FitsState s r ∧ ∃ zs, stateUpTo (s.keys, ts) r = .ok zs ∧ zs.length = xs.length ∧
      ∀ p z, (p, z) ∈ (pathsAll (s.keys.map TreeKey.key) ts).zip zs → ∃ k q u, p = .key k :: q ∧ r.get k = some u ∧ Sub u q z) ∨
    (¬ FitsState s r ∧ stateUpTo (s.keys, ts) r = .error .valueError) := by
  by_cases hk : r.keys = s.keys
  · have hlen : r.flatten.1.length = s.flatten.1.length := by
      have := congrArg List.length hk
      simpa [State.keys, dkeys, State.flatten, State.items] using this
    have hif : stateUpTo (s.keys, ts) r = upToAll ts r.flatten.1 := by
      rw [stateUpTo]
      exact if_pos hk.symm
    rw [hif]
    rcases hs.upTo r.flatten.1 hlen (fun x hx => by
      obtain ⟨kv, hm, rfl⟩ := List.mem_map.1 hx
      exact hr.good kv.1 kv.2 (mem_dget hr.nodup hm)) with ⟨h1, zs, h2, h3, h4⟩ | ⟨h1, h2⟩
    · refine .inl ⟨⟨hk, ?_⟩, zs, h2, h3, ?_⟩
      · intro k x u hx hu
        obtain ⟨i, e1, e2⟩ := state_index hx
        rw [← hk] at e1
        obtain ⟨j, e3, e4⟩ := state_index hu
        have hij : i = j := by
          have hnd : r.keys.Nodup := hr.nodup
          have hi := (List.getElem?_eq_some_iff.1 e1).1
          exact (List.getElem?_inj hi hnd).1 (by rw [e1, e3])
        subst hij
        exact h1 i x u e2 e4
      · intro p z hm
        obtain ⟨i, st, u, q, g1, g2, g3, g4⟩ := h4 p z hm
        rw [← hk] at g1
        obtain ⟨k, rfl, hu, _⟩ := state_at hr.nodup g1 g2
        exact ⟨k, q, u, g3, hu, g4⟩
    · refine .inr ⟨fun hf => h1 ?_, h2⟩
      intro i x u hx hu
      have hlt : i < (s.keys.map TreeKey.key).length := by
        have := (List.getElem?_eq_some_iff.1 hx).1
        simpa [State.keys, dkeys, State.flatten, State.items] using this
      obtain ⟨st, hst⟩ : ∃ st, (s.keys.map TreeKey.key)[i]? = some st := ⟨_, List.getElem?_eq_getElem hlt⟩
      obtain ⟨k, e1, e2, _⟩ := state_at h.nodup hst hx
      rw [← hk] at hst
      obtain ⟨k', e3, e4, _⟩ := state_at hr.nodup hst hu
      rw [e1] at e3
      cases e3
      exact hf.fits k x u e2 e4
  · refine .inr ⟨fun hf => hk hf.keys, ?_⟩
    rw [stateUpTo]
    exact if_neg (fun e => hk e.symm)

theorem state_up_to_all {s : State (PyVal α)} (h : TreeState s) {xs : List (PyVal α)} {ts : List (TreeDef α)}
    (hs : KidsSpec (s.keys.map TreeKey.key) s.flatten.1 xs ts) {rest : List (State (PyVal α))} (hg : ∀ r ∈ rest, TreeState r)
    (hf : ∀ r ∈ rest, FitsState s r) : ∃ ls, allOk (rest.map (stateUpTo (s.keys, ts))) = .ok ls ∧ (∀ l ∈ ls, l.length = xs.length) ∧
      ∀ k q zs, Row (pathsAll (s.keys.map TreeKey.key) ts) ls (.key k :: q) zs → StateOthers rest k q zs := by
  have hone : ∀ r ∈ rest, ∃ zs, stateUpTo (s.keys, ts) r = .ok zs ∧ zs.length = xs.length ∧
      ∀ p z, (p, z) ∈ (pathsAll (s.keys.map TreeKey.key) ts).zip zs → ∃ k q u, p = .key k :: q ∧ r.get k = some u ∧ Sub u q z := by
    intro r hr
    rcases state_up_to h (hg r hr) hs with ⟨_, h⟩ | ⟨h, _⟩
    · exact h
    · exact absurd (hf r hr) h
  obtain ⟨ls, hls⟩ := allOk_map_total (f := stateUpTo (s.keys, ts)) (l := rest) fun r hr => let ⟨zs, h, _⟩ := hone r hr; ⟨zs, h⟩
  obtain ⟨h1, h2⟩ := allOk_map_ok hls
  refine ⟨ls, hls, ?_, ?_⟩
  · intro l hl
    obtain ⟨j, hj⟩ := List.getElem?_of_mem hl
    have hlt : j < rest.length := by
      rw [← h1]
      exact (List.getElem?_eq_some_iff.1 hj).1
    have hr := List.getElem?_eq_getElem hlt
    obtain ⟨y, hy, e⟩ := h2 j _ hr
    rw [hj] at hy
    cases hy
    obtain ⟨zs, e', hlen, _⟩ := hone _ (List.mem_of_getElem? hr)
    rw [e] at e'
    cases e'
    exact hlen
  · intro k q zs hrow
    refine ⟨by rw [hrow.1, h1], ?_⟩
    intro j r z hr hz
    obtain ⟨l, hl, e⟩ := h2 j r hr
    obtain ⟨zs', e', _, hsub⟩ := hone r (List.mem_of_getElem? hr)
    rw [e] at e'
    cases e'
    obtain ⟨k', q', u, e1, e2, e3⟩ := hsub _ z (hrow.2 j l z hl hz)
    cases e1
    exact ⟨u, e2, e3⟩

/-- What a leaf of a State and its companions become. -/
def StateApplied (f : List (PyVal α) → Except Err (PyVal α)) (rest : List (State (PyVal α))) (k : Str) (p : List TreeKey) (x y : PyVal α) : Prop :=
  ∃ zs, StateOthers rest k p zs ∧ f (x :: zs) = .ok y

/-- Either `f` raises for some leaf, or the result is as described. -/
theorem state_map_core {f : List (PyVal α) → Except Err (PyVal α)} {s : State (PyVal α)} {rest : List (State (PyVal α))} (hk : KeepsPlain f)
    (h : TreeState s) (hg : ∀ r ∈ rest, TreeState r) (hfit : ∀ r ∈ rest, FitsState s r) :
    (∃ k p x v zs e, s.get k = some v ∧ Sub v p x ∧ TreeLeaf x ∧ StateOthers rest k p zs ∧ f (x :: zs) = .error e ∧
      stateTreeMap f s rest = .error e) ∨
    ((∀ k p x v, s.get k = some v → Sub v p x → TreeLeaf x → ∃ y, StateApplied f rest k p x y) ∧
      ∃ s', stateTreeMap f s rest = .ok s' ∧ s'.keys = s.keys ∧ DNodup s'.mapping ∧
      ∀ k v w, s.get k = some v → s'.get k = some w → Mapped (StateApplied f rest k) v w) := by
  obtain ⟨xs, ts, hs, hflat⟩ := stateSpec h
  obtain ⟨ls, hls, hlen, hrow⟩ := state_up_to_all h hs hg hfit
  simp only [stateTreeMap, hflat, hls]
  cases hys : allOk ((columns xs ls).map f) with
  | error e =>
    obtain ⟨p, x, zs, hm, hr, he⟩ := columns_error hs.len hlen hys
    obtain ⟨i, st, v, q, g1, g2, rfl, g3, g4⟩ := (hs.mem p x).1 hm
    obtain ⟨k, rfl, hv, _⟩ := state_at h.nodup g1 g2
    exact .inl ⟨k, q, x, v, zs, e, hv, g3, g4, hrow k q zs hr, he, rfl⟩
  | ok ys =>
    obtain ⟨hl, hy⟩ := columns_ok (ps := pathsAll (s.keys.map TreeKey.key) ts) hlen hys
    obtain ⟨ws, h1, h2, h3, _⟩ := hs.unflatten ys [] hl (plain_zip hs.len hk hy)
    rw [List.append_nil] at h1
    have hkn : s.keys.Nodup := h.nodup
    have hwl : ws.length = s.keys.length := by rw [h2]; simp [State.flatten, State.items, State.keys, dkeys]
    have hzn : DNodup (s.keys.zip ws) := dnodup_zip hkn ws
    have hun : State.unflatten s.keys ws = ⟨s.keys.zip ws⟩ := by rw [State.unflatten, dofList_of_nodup hzn]
    refine .inr ⟨?_, ⟨s.keys.zip ws⟩, ?_, ?_, hzn, ?_⟩
    · intro k p x v hv hsub hx
      obtain ⟨i, e1, e2⟩ := state_index hv
      obtain ⟨zs, y, hr, hy⟩ := columns_raises hlen hys
        ((hs.mem (.key k :: p) x).2 ⟨i, .key k, v, p, by simp [e1], e2, rfl, hsub, hx⟩)
      exact ⟨y, zs, hrow k p zs hr, hy⟩
    · simp only [stateUnflatten, h1, hun]
    · exact List.map_fst_zip (by omega)
    · intro k v w hv hw
      obtain ⟨i, e1, e2⟩ := state_index hv
      have hlt : i < ws.length := by
        rw [hwl]
        exact (List.getElem?_eq_some_iff.1 e1).1
      have hwi := List.getElem?_eq_getElem hlt
      have : (⟨s.keys.zip ws⟩ : State (PyVal α)).get k = some ws[i] := dget_zip hkn e1 hwi
      rw [hw] at this
      cases this
      refine (h3 i (.key k) v _ (by simp [e1]) e2 hwi).mono fun p x y hm => ?_
      obtain ⟨zs, hr, he⟩ := hy _ x y hm
      exact ⟨zs, hrow k p zs hr, he⟩

/-- C93 (States): `jax.tree_map(f, state, *rest)` has the paths of `state`, in the same order, and under each path the value of `state` with its leaves
replaced by what `f` returns for them and the matching parts of the other States; nothing else changes. -/
theorem C93_state_map {f : List (PyVal α) → Except Err (PyVal α)} {s : State (PyVal α)} {rest : List (State (PyVal α))} (hk : KeepsPlain f)
    (h : TreeState s) (hg : ∀ r ∈ rest, TreeState r) (hfit : ∀ r ∈ rest, FitsState s r)
    (hf : ∀ k p x v zs, s.get k = some v → Sub v p x → TreeLeaf x → StateOthers rest k p zs → ∃ y, f (x :: zs) = .ok y) :
    ∃ s', stateTreeMap f s rest = .ok s' ∧ s'.keys = s.keys ∧
      ∀ k v w, s.get k = some v → s'.get k = some w → Mapped (fun p x y => ∃ zs, StateOthers rest k p zs ∧ f (x :: zs) = .ok y) v w := by
  rcases state_map_core hk h hg hfit with ⟨k, p, x, v, zs, e, h1, h2, h3, h4, h5, _⟩ | ⟨_, s', h1, h2, _, h3⟩
  · obtain ⟨y, hy⟩ := hf k p x v zs h1 h2 h3 h4
    rw [h5] at hy
    cases hy
  · exact ⟨s', h1, h2, h3⟩

/-- C93 (States, exceptions): ValueError if a State does not fit; otherwise `tree_map` raises only what `f` raises for a leaf, and it raises if `f`
does for any leaf. -/
theorem C93_state_raises {f : List (PyVal α) → Except Err (PyVal α)} {s : State (PyVal α)} {rest : List (State (PyVal α))} (hk : KeepsPlain f)
    (h : TreeState s) (hg : ∀ r ∈ rest, TreeState r) :
    ((∃ r ∈ rest, ¬ FitsState s r) → stateTreeMap f s rest = .error .valueError) ∧
    ((∀ r ∈ rest, FitsState s r) →
      (∀ e, stateTreeMap f s rest = .error e →
        ∃ k v p x zs, s.get k = some v ∧ Sub v p x ∧ TreeLeaf x ∧ StateOthers rest k p zs ∧ f (x :: zs) = .error e) ∧
      ((∃ k v p x zs e, s.get k = some v ∧ Sub v p x ∧ TreeLeaf x ∧ StateOthers rest k p zs ∧ f (x :: zs) = .error e) →
        ∃ e, stateTreeMap f s rest = .error e)) := by
  constructor
  · intro hfit
    obtain ⟨xs, ts, hs, hflat⟩ := stateSpec h
    have : allOk (rest.map (stateUpTo (s.keys, ts))) = .error .valueError := by
      cases hc : allOk (rest.map (stateUpTo (s.keys, ts))) with
      | ok ls =>
        obtain ⟨r, hr, hn⟩ := hfit
        obtain ⟨i, hi⟩ := List.getElem?_of_mem hr
        obtain ⟨y, _, e⟩ := (allOk_map_ok hc).2 i r hi
        rcases state_up_to h (hg r hr) hs with ⟨h, _⟩ | ⟨_, h⟩
        · exact absurd h hn
        · rw [e] at h; cases h
      | error e =>
        obtain ⟨i, r, hi, he, _⟩ := allOk_map_error hc
        rcases state_up_to h (hg r (List.mem_of_getElem? hi)) hs with ⟨_, zs, h, _⟩ | ⟨_, h⟩
        · rw [he] at h; cases h
        · rw [he] at h; cases h; rfl
    simp only [stateTreeMap, hflat, this]
  · intro hfit
    rcases state_map_core hk h hg hfit with ⟨k, p, x, v, zs, e, h1, h2, h3, h4, h5, h6⟩ | ⟨h1, s', h2, _⟩
    · refine ⟨fun e' he' => ?_, fun _ => ⟨e, h6⟩⟩
      rw [h6] at he'
      cases he'
      exact ⟨k, v, p, x, zs, h1, h2, h3, h4, h5⟩
    · refine ⟨fun e he => (by rw [h2] at he; cases he), ?_⟩
      rintro ⟨k, v, p, x, zs, e, g1, g2, g3, g4, g5⟩
      obtain ⟨y, zs', g6, g7⟩ := h1 k p x v g1 g2 g3
      have := g6.unique g4
      subst this
      rw [g5] at g7
      cases g7

/-- C93 (parameter update): in `jax.tree_map(f, params, grads)` each `Variable` keeps its class and metadata, and its value becomes what `f` returns for
it and the value of the `Variable` under the same path in `grads`. -/
theorem C93_update {f : List (PyVal α) → Except Err (PyVal α)} {s g s' : State (PyVal α)} (hk : KeepsPlain f) (h : TreeState s) (hg : TreeState g)
    (hs : stateTreeMap f s [g] = .ok s') :
    s'.keys = s.keys ∧ ∀ k c v m, s.get k = some (.cont c v m) → c.isSub cNodeBase = true → TreeLeaf v →
      ∃ u n y, g.get k = some (.cont c u n) ∧ MdSame m n ∧ f [v, u] = .ok y ∧ s'.get k = some (.cont c y m) := by
  have hfit : ∀ r ∈ [g], FitsState s r := by
    intro r hr
    by_contra hc
    rw [(C93_state_raises (f := f) hk h (rest := [g]) (by simpa using hg)).1 ⟨r, hr, hc⟩] at hs
    cases hs
  rcases state_map_core hk h (rest := [g]) (by simpa using hg) hfit with ⟨k, p, x, v, zs, e, _, _, _, _, _, h6⟩ | ⟨_, t, h2, h3, h4, h5⟩
  · rw [h6] at hs
    cases hs
  · rw [hs] at h2
    cases h2
    refine ⟨h3, ?_⟩
    intro k c v m hv hc hl
    have hfs := hfit g (by simp)
    have hin : ∀ r : State (PyVal α), r.keys = s.keys → ∃ u, r.get k = some u := by
      intro r hr
      have : k ∈ r.keys := by
        rw [hr]
        exact dget_isSome.1 (by rw [show dget s.mapping k = _ from hv]; rfl)
      exact Option.isSome_iff_exists.1 (dget_isSome.2 this)
    obtain ⟨u, hu⟩ := hin g hfs.keys
    obtain ⟨w, hw⟩ := hin s' h3
    have hnl : ¬ TreeLeaf (.cont c v m) := by simp [TreeLeaf, hc]
    have hns : ¬ (cStatic.isSub cNodeBase = true) := by decide
    have hm := h5 k _ w hv hw
    cases hfs.fits k _ u hv hu with
    | leaf h => exact absurd h hnl
    | static => exact absurd hc hns
    | @cont _ _ u' _ n _ same _ =>
      cases hm with
      | leaf h => exact absurd h hnl
      | static => exact absurd hc hns
      | @cont _ _ _ w' _ _ hm =>
        cases hm with
        | leaf _ r =>
          obtain ⟨zs, ho, he⟩ := r
          match zs, ho.1 with
          | [z], _ =>
            obtain ⟨u'', e, hsub⟩ := ho.2 0 g z rfl rfl
            rw [hu] at e
            cases e
            cases hsub with
            | value _ hsub =>
              cases hsub
              exact ⟨_, n, w', hu, same, he, hw⟩
        | none => exact hl.elim
        | tup => exact hl.elim
        | dict => exact hl.elim
        | cont hc' => rw [hl.1] at hc'; cases hc'
        | static => exact absurd rfl hl.2
        | tree => exact hl.elim

/-! ### A case -/

/-- The `vars` of a Pytree with a `Node`, a bare array and a static field. -/
def exPyVars : Md Nat :=
  [(kSorted, .tup [.str kSorted, .str (py! "w"), .str (py! "x"), .str (py! "y")]),
    (py! "y", .cont cNode (.data cArray 3) []), (py! "x", .data cNdarray 2), (py! "w", .none)]

/-- A dict with a `Param` and a tuple of a Pytree, None and a `Static`. -/
def exTree : PyVal Nat :=
  .dict [(py! "b", .cont cParam (.data cArray 1) [(py! "sharding", .none)]),
    (py! "a", .tup [.tree cPytree exPyVars, .none, .cont cStatic (.data cArray 9) []])]

theorem exPyVars_wf : WFPytree exPyVars where
  nodup := by decide
  noInit := by decide
  noMut := by decide
  sorted := by rfl
  good := by
    intro k v h
    have := dget_mem h
    simp only [exPyVars, List.mem_cons, List.not_mem_nil, or_false, Prod.mk.injEq] at this
    rcases this with ⟨_, rfl⟩ | ⟨_, rfl⟩ | ⟨_, rfl⟩ | ⟨_, rfl⟩
    · exact .inl trivial
    · exact .inr (.mk trivial (by simp [DNodup]) (by simp) (fun _ => rfl) (fun _ h => absurd h (by decide)))
    · exact .inl trivial
    · exact .inl trivial

theorem exPyTree_good : GoodTree (.tree cPytree exPyVars) := by
  refine .tree exPyVars_wf ?_
  intro k v h hn
  have := dget_mem h
  simp only [exPyVars, List.mem_cons, List.not_mem_nil, or_false, Prod.mk.injEq] at this
  rcases this with ⟨_, rfl⟩ | ⟨_, rfl⟩ | ⟨_, rfl⟩ | ⟨_, rfl⟩
  · cases hn
  · exact .cont (.mk trivial (by simp [DNodup]) (by simp) (fun _ => rfl) (fun _ h => absurd h (by decide))) (.leaf trivial)
  · exact .leaf trivial
  · exact .none

/-- The hypotheses hold for that tree. -/
theorem exTree_good : GoodTree exTree := by
  refine .dict (by decide) ?_
  intro k v h
  have := dget_mem h
  simp only [List.mem_cons, List.not_mem_nil, or_false, Prod.mk.injEq] at this
  rcases this with ⟨_, rfl⟩ | ⟨_, rfl⟩
  · exact .cont (.mk trivial (by decide) (by decide) (fun h => absurd h (by decide)) (fun _ _ => ⟨_, _, rfl⟩)) (.leaf trivial)
  · refine .tup ?_
    intro x hx
    simp only [List.mem_cons, List.not_mem_nil, or_false] at hx
    rcases hx with rfl | rfl | rfl
    · exact exPyTree_good
    · exact .none
    · exact .cont (.mk trivial (by simp [DNodup]) (by simp) (fun _ => rfl) (fun h => absurd h (by decide))) (.leaf trivial)

/-- Adds the numbers of two arrays. -/
def exAdd : List (PyVal Nat) → Except Err (PyVal Nat)
  | [.data c a, .data _ b] => .ok (.data c (a + b))
  | _ => .error .typeError

example : KeepsPlain exAdd := by
  intro x zs y h hx
  unfold exAdd at h
  split at h
  · cases h; trivial
  · cases h

/-- The leaves of that tree, with their paths. -/
example : (treeFlatten exTree).map (fun r => (r.1, r.2.paths)) = .ok ([.data cNdarray 2, .data cArray 3, .data cArray 1],
    [[.key (py! "a"), .item 0, .attr (py! "x")], [.key (py! "a"), .item 0, .attr (py! "y"), .attr (py! "value")],
      [.key (py! "b"), .attr (py! "value")]]) := by
  decide +kernel

/-- Rebuilding that tree with two or with four leaves raises ValueError. -/
example : (treeFlatten exTree).bind (fun r => treeUnflatten r.2 [.data cArray 1, .data cArray 1]) = .error .valueError ∧
    (treeFlatten exTree).bind (fun r => treeUnflatten r.2 [.data cArray 1, .data cArray 1, .data cArray 1, .data cArray 1]) = .error .valueError := by
  exact ⟨by decide +kernel, by decide +kernel⟩

/-- `jax.tree_map(add, tree, tree)`: all numbers double, the entries of the dicts come in sorted order, and nothing else changes. -/
example : treeMap exAdd exTree [exTree] = .ok (.dict
    [(py! "a", .tup [.tree cPytree [(py! "x", .data cNdarray 4), (py! "y", .cont cNode (.data cArray 6) []),
        (kSorted, .tup [.str kSorted, .str (py! "w"), .str (py! "x"), .str (py! "y")]), (py! "w", .none)],
        .none, .cont cStatic (.data cArray 9) []]),
      (py! "b", .cont cParam (.data cArray 2) [(py! "sharding", .none)])]) := by
  decide +kernel

/-- A tree with another key, and one with another `Static`, do not fit. -/
example : treeMap exAdd exTree [.dict [(py! "b", .none)]] = .error .valueError ∧
    treeMap exAdd (.cont cStatic (.data cArray 9) []) [.cont cStatic (.data cArray 8) []] = .error .valueError := by
  exact ⟨by decide +kernel, by decide +kernel⟩

/-- The class of Python's float. -/
def exFloat : Cls := { name := py! "float" }

/-- Without the condition on arrays `C93_structure` is false: `jax.tree_map(float, pytree)` turns a field that holds a bare array into a static field, so
that the result has no such leaf. -/
theorem C93_bare_arrays : ∃ (f : List (PyVal Nat) → Except Err (PyVal Nat)) (v w : PyVal Nat),
    KeepsPlain f ∧ (∀ x zs y, f (x :: zs) = .ok y → TreeLeaf y) ∧ GoodTree v ∧
      (treeFlatten v).map (·.1) = .ok [.data cNdarray 2, .data cArray 3] ∧ treeMap f v [] = .ok w ∧
      (treeFlatten w).map (·.1) = .ok [.data exFloat 7] := by
  refine ⟨fun _ => .ok (.data exFloat 7), .tree cPytree exPyVars,
    .tree cPytree [(py! "x", .data exFloat 7), (py! "y", .cont cNode (.data exFloat 7) []),
        (kSorted, .tup [.str kSorted, .str (py! "w"), .str (py! "x"), .str (py! "y")]), (py! "w", .none)],
    ?_, ?_, exPyTree_good, by decide +kernel, by decide +kernel, by decide +kernel⟩
  · intro x zs y h _
    cases h
    trivial
  · intro x zs y h
    cases h
    trivial

/-- Two States as in a training step. -/
def exTreeParams : State (PyVal Nat) := ⟨[(py! "b", .cont cParam (.data cArray 1) [(py! "sharding", .none)]),
  (py! "w", .cont cParam (.data cArray 10) [(py! "sharding", .none)])]⟩
def exTreeGrads : State (PyVal Nat) := ⟨[(py! "b", .cont cParam (.data cArray 5) [(py! "sharding", .none)]),
  (py! "w", .cont cParam (.data cArray 6) [(py! "sharding", .none)])]⟩

theorem exTree_states {k : Str} {s : State (PyVal Nat)} (h : s = exTreeParams ∨ s = exTreeGrads) {x : PyVal Nat} (hx : s.get k = some x) : GoodTree x := by
  have hm := dget_mem hx
  rcases h with rfl | rfl <;> simp only [exTreeParams, exTreeGrads, List.mem_cons, List.not_mem_nil, or_false, Prod.mk.injEq] at hm <;>
    rcases hm with ⟨_, rfl⟩ | ⟨_, rfl⟩ <;>
    exact .cont (.mk trivial (by decide) (by decide) (fun h => absurd h (by decide)) (fun _ _ => ⟨_, _, rfl⟩)) (.leaf trivial)

/-- The hypotheses of `C93_update` hold for them. -/
example : TreeState exTreeParams ∧ TreeState exTreeGrads ∧ stateTreeMap exAdd exTreeParams [exTreeGrads] =
    .ok ⟨[(py! "b", .cont cParam (.data cArray 6) [(py! "sharding", .none)]), (py! "w", .cont cParam (.data cArray 16) [(py! "sharding", .none)])]⟩ :=
  ⟨⟨by decide, fun _ _ h => exTree_states (.inl rfl) h⟩, ⟨by decide, fun _ _ h => exTree_states (.inr rfl) h⟩, by decide +kernel⟩

end Nnx
