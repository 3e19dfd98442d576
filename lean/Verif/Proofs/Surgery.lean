import Verif.Spec.Surgery
import Verif.Proofs.Lifted
/-
Traversals of a Module with a submodule that shares nothing with the rest.
-/
namespace Nnx
variable {α : Type}

/-- The two lists of ids agree on the Modules in `Q`. -/
def SeenAgree (h : Heap α) (Q : Loc → Prop) (S T : List Nat) : Prop :=
  ∀ (a : Loc) o, Q a → h[a]? = some o → (o.uid ∈ S ↔ o.uid ∈ T)

theorem SeenAgree.push {h : Heap α} {Q : Loc → Prop} {S T : List Nat} (hs : SeenAgree h Q S T) (u : Nat) :
    SeenAgree h Q (S ++ [u]) (T ++ [u]) := by
  intro a o ha e
  simp only [List.mem_append, List.mem_singleton, hs a o ha e]

/-- A traversal of a closed set of Modules depends only on these Modules and on which of them were seen before. -/
theorem Dfs.frame {h h' : Heap α} {ord} {Q : Loc → Prop} (hQ : Closed h Q) (hh : ∀ a, Q a → h'[a]? = h[a]?) (hord : IsOrder ord) (wf : WFHeap h)
    {f t S vs S'} (d : Dfs h ord f t S vs S') :
    (match t with
      | .visit l _ => Q l
      | .attrs as _ => ∀ m b, (m, Attr.ref b) ∈ as → Q b) →
    ∀ T, SeenAgree h Q S T → ∃ T', Dfs h' ord f t T vs T' ∧ SeenAgree h Q S' T' := by
  induction d with
  | seen e hm => exact fun hl T hs => ⟨T, .seen ((hh _ hl).trans e) ((hs _ _ hl e).1 hm), hs⟩
  | @visit f l p S S' o vs e hm d ih =>
    intro hl T hs
    obtain ⟨T', d', hs'⟩ := ih (fun m b hb => hQ l m b hl (attrAt_of_mem wf e ((hord _).mem_iff.1 hb))) _ (hs.push o.uid)
    exact ⟨T', .visit ((hh _ hl).trans e) (fun h => hm ((hs _ _ hl e).2 h)) d', hs'⟩
  | nil => exact fun _ T hs => ⟨T, .nil, hs⟩
  | val d ih =>
    intro hl T hs
    obtain ⟨T', d', hs'⟩ := ih (fun m b hb => hl m b (List.mem_cons_of_mem _ hb)) T hs
    exact ⟨T', .val d', hs'⟩
  | @ref f m l rest p S vs S1 ws S2 d1 d2 ih1 ih2 =>
    intro hl T hs
    obtain ⟨T1, d1', hs1⟩ := ih1 (hl m l List.mem_cons_self) T hs
    obtain ⟨T2, d2', hs2⟩ := ih2 (fun m b hb => hl m b (List.mem_cons_of_mem _ hb)) T1 hs1
    exact ⟨T2, .ref d1' d2', hs2⟩

/-- A traversal stays within a closed set. -/
theorem Dfs.stays {h : Heap α} {ord} {Q : Loc → Prop} (hQ : Closed h Q) (hord : IsOrder ord) (wf : WFHeap h)
    {f t S vs S'} (d : Dfs h ord f t S vs S') :
    (match t with
      | .visit l _ => Q l
      | .attrs as _ => ∀ m b, (m, Attr.ref b) ∈ as → Q b) → ∀ x ∈ vs, Q x.1 := by
  induction d with
  | seen => exact fun _ x hx => by cases hx
  | @visit f l p S S' o vs e hm d ih =>
    intro hl x hx
    rcases List.mem_cons.1 hx with rfl | hx
    · exact hl
    · exact ih (fun m b hb => hQ l m b hl (attrAt_of_mem wf e ((hord _).mem_iff.1 hb))) x hx
  | nil => exact fun _ x hx => by cases hx
  | val d ih => exact fun hl => ih (fun m b hb => hl m b (List.mem_cons_of_mem _ hb))
  | @ref f m l rest p S vs S1 ws S2 d1 d2 ih1 ih2 =>
    intro hl x hx
    rcases List.mem_append.1 hx with hx | hx
    · exact ih1 (hl m l List.mem_cons_self) x hx
    · exact ih2 (fun m b hb => hl m b (List.mem_cons_of_mem _ hb)) x hx

/-- Seeing Modules outside `Q` does not matter for `Q`. -/
theorem SeenAgree.skip {h : Heap α} (wf : WFHeap h) {Q P : Loc → Prop} (hPQ : ∀ a, P a → ¬ Q a) {ord f t S vs S' T}
    (d : Dfs h ord f t S vs S') (hvs : ∀ x ∈ vs, P x.1) (hs : SeenAgree h Q S T) : SeenAgree h Q S' T := by
  intro a o ha e
  rw [← hs a o ha e, d.seen_eq]
  simp only [List.mem_append, or_iff_left_iff_imp, List.mem_map]
  rintro ⟨x, hx, hxu⟩
  have hlt := d.lt x hx
  rw [uidAt_of (List.getElem?_eq_getElem hlt)] at hxu
  have := wf.uids _ _ _ _ (List.getElem?_eq_getElem hlt) e hxu
  exact absurd ha (this ▸ hPQ _ (hvs x hx))

section
variable {h : Heap α} {n : Str} {P Q : Loc → Prop}

/-- Leaving out the attribute `n` leaves the traversal of the others as it is. -/
theorem Dfs.without (wf : WFHeap h) {ord} (hord : IsOrder ord) (hP : Closed h P) (hQ : Closed h Q) (hPQ : ∀ a, P a → ¬ Q a) {f p} :
    ∀ {as : List (Str × Attr α)} {S vs S'}, Dfs h ord f (.attrs as p) S vs S' →
    (∀ b l, (b, Attr.ref l) ∈ as → b ≠ n → Q l) → (∀ l, (n, Attr.ref l) ∈ as → P l) → ∀ T, SeenAgree h Q S T →
    ∃ ws T', Dfs h ord f (.attrs (as.filter fun x => x.1 ≠ n) p) T ws T' ∧ SeenAgree h Q S' T' ∧ ∀ x, x ∈ ws ↔ x ∈ vs ∧ Q x.1 := by
  intro as
  induction as with
  | nil => intro S vs S' d _ _ T hs; cases d; exact ⟨[], T, .nil, hs, by simp⟩
  | cons y as ih =>
    obtain ⟨b, y⟩ := y
    intro S vs S' d hq hp T hs
    have hq' : ∀ b l, (b, Attr.ref l) ∈ as → b ≠ n → Q l := fun b l hb => hq b l (List.mem_cons_of_mem _ hb)
    have hp' : ∀ l, (n, Attr.ref l) ∈ as → P l := fun l hl => hp l (List.mem_cons_of_mem _ hl)
    cases d with
    | val d =>
      obtain ⟨ws, T', d', hs', hm⟩ := ih d hq' hp' T hs
      by_cases hb : b = n
      · exact ⟨ws, T', by rw [List.filter_cons_of_neg (by simpa using hb)]; exact d', hs', hm⟩
      · exact ⟨ws, T', by rw [List.filter_cons_of_pos (by simpa using hb)]; exact .val d', hs', hm⟩
    | @ref _ _ l _ _ _ vs1 S1 vs2 _ d1 d2 =>
      by_cases hb : b = n
      · subst hb
        have hin := d1.stays hP hord wf (hp l List.mem_cons_self)
        obtain ⟨ws, T', d', hs', hm⟩ := ih d2 hq' hp' T (hs.skip wf hPQ d1 hin)
        refine ⟨ws, T', by rw [List.filter_cons_of_neg (by simp)]; exact d', hs', fun x => ?_⟩
        rw [hm, List.mem_append]
        exact ⟨fun ⟨h1, h2⟩ => ⟨.inr h1, h2⟩, fun ⟨h1, h2⟩ => ⟨h1.resolve_left fun h => hPQ _ (hin x h) h2, h2⟩⟩
      · have hl := hq b l List.mem_cons_self hb
        obtain ⟨T1, d1', hs1⟩ := d1.frame (h' := h) hQ (fun _ _ => rfl) hord wf hl T hs
        obtain ⟨ws, T', d', hs', hm⟩ := ih d2 hq' hp' T1 hs1
        refine ⟨vs1 ++ ws, T', by rw [List.filter_cons_of_pos (by simpa using hb)]; exact .ref d1' d', hs', fun x => ?_⟩
        rw [List.mem_append, List.mem_append, hm]
        exact ⟨fun h => h.elim (fun h => ⟨.inl h, d1.stays hQ hord wf hl x h⟩) (fun h => ⟨.inr h.1, h.2⟩),
          fun ⟨h1, h2⟩ => h1.imp id fun h => ⟨h, h2⟩⟩

/-- The part of a traversal below the attribute `n` is the traversal of the submodule. -/
theorem Dfs.inside (wf : WFHeap h) {ord} (hord : IsOrder ord) (hP : Closed h P) (hQ : Closed h Q) (hPQ : ∀ a, P a → ¬ Q a) {u : Nat}
    (hu : ∀ a o, P a → h[a]? = some o → o.uid ≠ u) {m : Loc} (hm : P m) {f f0 vm Sm} (dm : Dfs h ord f0 (.visit m []) [] vm Sm) :
    ∀ {as : List (Str × Attr α)} {S vs S'}, Dfs h ord f (.attrs as []) S vs S' → DNodup as →
    (∀ b l, (b, Attr.ref l) ∈ as → b ≠ n → Q l) → (n, Attr.ref m) ∈ as → SeenAgree h P S [u] →
    ∀ x, x ∈ vs ∧ P x.1 ↔ ∃ y ∈ vm, x = (y.1, n :: y.2) := by
  intro as
  induction as with
  | nil => intro S vs S' _ _ _ h; cases h
  | cons y as ih =>
    obtain ⟨b, y⟩ := y
    intro S vs S' d hnd hq hin hs x
    have hq' : ∀ b l, (b, Attr.ref l) ∈ as → b ≠ n → Q l := fun b l hb => hq b l (List.mem_cons_of_mem _ hb)
    have hnd' : b ∉ dkeys as ∧ DNodup as := by
      simpa [DNodup, dkeys] using hnd
    cases d with
    | val d =>
      rcases List.mem_cons.1 hin with h | hin
      · cases h
      · exact ih d hnd'.2 hq' hin hs x
    | @ref _ _ l _ _ _ vs1 S1 vs2 _ d1 d2 =>
      by_cases hb : b = n
      · subst hb
        have hl : l = m := by
          rcases List.mem_cons.1 hin with h | h
          · cases h; rfl
          · exact absurd (List.mem_map.2 ⟨_, h, rfl⟩) hnd'.1
        subst hl
        have du := dm.under hP (fun _ _ => rfl) hord wf hu b hm
        obtain ⟨T', d3, _⟩ := du.frame (h' := h) hP (fun _ _ => rfl) hord wf hm S (fun a o ha e => (hs a o ha e).symm)
        obtain ⟨rfl, _⟩ := d1.functional d3
        have hout : ∀ x ∈ vs2, Q x.1 := by
          refine d2.stays hQ hord wf ?_
          intro c l' hc
          refine hq' c l' hc ?_
          rintro rfl
          exact hnd'.1 (List.mem_map.2 ⟨_, hc, rfl⟩)
        rw [List.mem_append]
        constructor
        · rintro ⟨h1 | h1, h2⟩
          · obtain ⟨y, hy, rfl⟩ := List.mem_map.1 h1
            exact ⟨y, hy, rfl⟩
          · exact absurd (hout x h1) (hPQ _ h2)
        · rintro ⟨y, hy, rfl⟩
          exact ⟨.inl (List.mem_map.2 ⟨y, hy, rfl⟩), dm.stays hP hord wf hm y hy⟩
      · have hl := hq b l List.mem_cons_self hb
        have hst := d1.stays hQ hord wf hl
        have hin' : (n, Attr.ref m) ∈ as := by
          rcases List.mem_cons.1 hin with h | h
          · cases h; exact absurd rfl hb
          · exact h
        rw [← ih d2 hnd'.2 hq' hin' (hs.skip wf (fun a ha hb => hPQ a hb ha) d1 hst) x, List.mem_append]
        exact ⟨fun ⟨h1, h2⟩ => ⟨h1.resolve_left fun h => hPQ _ h2 (hst x h), h2⟩, fun ⟨h1, h2⟩ => ⟨.inr h1, h2⟩⟩

end

/-- What can be reached from `r` through attributes other than `n`. -/
def Beside (h : Heap α) (r : Loc) (n : Str) (a : Loc) : Prop := ∃ b l p, b ≠ n ∧ attrAt h r b = some (.ref l) ∧ Walk h l p a

theorem Beside.closed {h : Heap α} (wf : WFHeap h) {r : Loc} {n : Str} : Closed h (Beside h r n) := by
  rintro a c a' ⟨b, l, p, hb, e, w⟩ e'
  exact ⟨b, l, p ++ [c], hb, e, w.snoc e' (wf.refs _ _ _ e')⟩

theorem OnlyThrough.apart {h : Heap α} {r m : Loc} {n : Str} (ho : OnlyThrough h r n m) : ∀ a, Reaches h m a → ¬ Beside h r n a := by
  rintro a ha ⟨b, l, p, hb, e, w⟩
  obtain ⟨q, hq⟩ := ho a ha (b :: p) (.step e w)
  exact hb (List.cons.inj hq).1

theorem OnlyThrough.not_root {h : Heap α} {r m : Loc} {n : Str} (ho : OnlyThrough h r n m) (hr : r < h.length) : ¬ Reaches h m r := by
  intro ha
  obtain ⟨q, hq⟩ := ho r ha [] (.here hr)
  cases hq

theorem sortItems_filter {V : Type} {d : List (Str × V)} (hd : DNodup d) (p : Str × V → Bool) : (sortItems d).filter p = sortItems (d.filter p) := by
  have hs := sortItems_strict hd
  have h1 : StrictSorted ((sortItems d).filter p) := List.Pairwise.filter _ hs
  have h2 : DNodup (d.filter p) := List.Nodup.sublist (List.Sublist.map _ List.filter_sublist) hd
  refine h1.ext_mem (sortItems_strict h2) fun x => ?_
  rw [List.mem_filter, (sortItems_perm d).mem_iff, (sortItems_perm _).mem_iff, List.mem_filter]


theorem dset_filter {V : Type} {n : Str} {a : V} : ∀ {d : Dict Str V}, (dset d n a).filter (fun x => x.1 ≠ n) = d.filter (fun x => x.1 ≠ n) := by
  intro d
  induction d with
  | nil => simp [dset]
  | cons y d ih =>
    obtain ⟨b, y⟩ := y
    by_cases hb : b = n
    · subst hb
      simp [dset]
    · simp only [dset, if_neg hb]
      rw [List.filter_cons_of_pos (by simpa using hb), List.filter_cons_of_pos (by simpa using hb), ih]

/-- A path is below `n` exactly if its first component is `n` and there are others. -/
theorem below_join {n : Str} {q : List Str} {c : Str} : joinSlash ((n :: q) ++ [c]) = below n (joinSlash (q ++ [c])) := by
  cases q <;> rfl

theorem split_below {n : Str} (hn : NoSlash n) (k : Str) : splitSlash (below n k) = n :: splitSlash k := splitSlash_append_slash k hn

/-- The state below a submodule that shares nothing with the rest. -/
theorem state_below {h : Heap α} (wf : WFHeap h) {r : Loc} (hr : r < h.length) {n : Str} {m : Loc} (hat : attrAt h r n = some (.ref m))
    (ho : OnlyThrough h r n m) {f f' : Nat} {s t : State (PyVal α)} (hs : getState f h r = some s) (ht : getState f' h m = some t) (k : Str) (v : PyVal α) :
    s.get (below n k) = some v ↔ t.get k = some v := by
  have hm : m < h.length := wf.refs _ _ _ hat
  have hns : NoSlash n := wf.slash _ _ _ hat
  obtain ⟨vs, S', d, _, hg⟩ := getState_spec wf hr hs
  obtain ⟨vm, Sm, dm, _, hgm⟩ := getState_spec wf hm ht
  have hwalk := d.walk wf isOrder_sort (.here hr)
  have hwm := dm.walk wf isOrder_sort (.here hm)
  cases d with
  | seen _ hmem => cases hmem
  | @visit f _ _ _ _ o vs' e _ d' =>
    have hin := Dfs.inside (P := Reaches h m) (Q := Beside h r n) wf isOrder_sort (fun a c b ha e => ha.step wf e) (Beside.closed wf) ho.apart
      (u := o.uid) (n := n) (fun a o' ha e' hu => ho.not_root hr (wf.uids _ _ _ _ e' e hu ▸ ha)) (.refl hm) dm d' (dnodup_perm (sortItems_perm o.attrs).symm (wf.nodup _ _ e))
      (fun b l hb hbn => by
        have := attrAt_of_mem wf e ((sortItems_perm _).mem_iff.1 hb)
        exact ⟨b, l, [], hbn, this, .here (wf.refs _ _ _ this)⟩)
      ((sortItems_perm _).mem_iff.2 (dget_mem (by simpa [attrAt, e] using hat)))
      (fun a o' _ _ => by simp)
    rw [hg, hgm]
    constructor
    · rintro ⟨x, hx, c, ha, hv, hk⟩
      have hc : NoSlash c := wf.slash _ _ _ ha
      have hsp := congrArg splitSlash hk
      rw [split_below hns, split_join (by simp) (by
        intro z hz
        rcases List.mem_append.1 hz with hz | hz
        · exact (hwalk x hx).noSlash wf z hz
        · rw [List.mem_singleton.1 hz]; exact hc)] at hsp
      obtain ⟨a, q⟩ := x
      cases q with
      | nil =>
        simp only [List.nil_append, List.cons.injEq] at hsp
        exact absurd hsp.2 (splitSlash_ne_nil k)
      | cons b q =>
        simp only [List.cons_append, List.cons.injEq] at hsp
        obtain ⟨rfl, hsp⟩ := hsp
        have hw := hwalk _ hx
        have hxv : (a, n :: q) ∈ vs' := by
          rcases List.mem_cons.1 hx with h | h
          · cases h
          · exact h
        cases hw with
        | step e1 hw =>
          rw [hat] at e1
          cases e1
          obtain ⟨y, hy, hxy⟩ := (hin (a, n :: q)).1 ⟨hxv, ⟨q, hw⟩⟩
          simp only [Prod.mk.injEq, List.cons.injEq, true_and] at hxy
          refine ⟨y, hy, c, hxy.1 ▸ ha, hv, ?_⟩
          rw [← hxy.2, ← hsp, join_split]
    · rintro ⟨y, hy, c, ha, hv, rfl⟩
      have := (hin (y.1, n :: y.2)).2 ⟨y, hy, rfl⟩
      exact ⟨_, List.mem_cons_of_mem _ this.1, c, ha, hv, below_join.symm⟩

/-- The state beside the attribute `n` comes from a traversal of the other attributes. -/
theorem state_beside {h : Heap α} (wf : WFHeap h) {r : Loc} (hr : r < h.length) {n : Str}
    (ho : ∀ m, attrAt h r n = some (.ref m) → OnlyThrough h r n m) {f : Nat} {s : State (PyVal α)} (hs : getState f h r = some s) {o : ModObj α} (e : h[r]? = some o) :
    ∃ f0 ws T', Dfs h sortItems f0 (.attrs (sortItems (o.attrs.filter fun x => x.1 ≠ n)) []) [o.uid] ws T' ∧ (∀ x ∈ ws, Beside h r n x.1) ∧
      ∀ k, k ≠ n → (∀ k', k ≠ below n k') → ∀ v, s.get k = some v ↔
        ∃ x ∈ (r, []) :: ws, ∃ c, attrAt h x.1 c = some (.val v) ∧ v.isNode = true ∧ k = joinSlash (x.2 ++ [c]) := by
  obtain ⟨vs, S', d, _, hg⟩ := getState_spec wf hr hs
  have hwalk := d.walk wf isOrder_sort (.here hr)
  cases d with
  | seen _ hmem => cases hmem
  | @visit f _ _ _ _ o' vs' e' _ d' =>
    rw [e] at e'
    cases e'
    have hmem : ∀ b x, (b, x) ∈ sortItems o.attrs → attrAt h r b = some x := fun b x hb => attrAt_of_mem wf e ((sortItems_perm _).mem_iff.1 hb)
    obtain ⟨ws, T', d2, _, hws⟩ := d'.without (n := n) (P := fun a => ∃ m, attrAt h r n = some (.ref m) ∧ Reaches h m a) (Q := Beside h r n) wf isOrder_sort
      (by rintro a c b ⟨m, hm, ha⟩ e; exact ⟨m, hm, ha.step wf e⟩) (Beside.closed wf) (by rintro a ⟨m, hm, ha⟩; exact (ho m hm).apart a ha)
      (fun b l hb hbn => ⟨b, l, [], hbn, hmem _ _ hb, .here (wf.refs _ _ _ (hmem _ _ hb))⟩)
      (fun l hl => ⟨l, hmem _ _ hl, .refl (wf.refs _ _ _ (hmem _ _ hl))⟩) [o.uid] (fun a o' _ _ => by simp)
    refine ⟨f, ws, T', ?_, fun x hx => ((hws x).1 hx).2, ?_⟩
    · rw [← sortItems_filter (wf.nodup _ _ e)]; exact d2
    · intro k hkn hkb v
      rw [hg]
      constructor
      · rintro ⟨x, hx, c, ha, hv, rfl⟩
        refine ⟨x, ?_, c, ha, hv, rfl⟩
        rcases List.mem_cons.1 hx with rfl | hx'
        · exact List.mem_cons_self
        · obtain ⟨a, p⟩ := x
          have hw := hwalk _ hx
          cases hw with
          | here _ => exact List.mem_cons_self
          | @step _ b _ c' q e1 hw =>
            refine List.mem_cons_of_mem _ ((hws _).2 ⟨hx', c', b, q, ?_, e1, hw⟩)
            rintro rfl
            exact hkb _ below_join
      · rintro ⟨x, hx, c, ha, hv, rfl⟩
        refine ⟨x, ?_, c, ha, hv, rfl⟩
        rcases List.mem_cons.1 hx with rfl | hx
        · exact List.mem_cons_self
        · exact List.mem_cons_of_mem _ ((hws x).1 hx).1

end Nnx
