import Verif.Proofs.Evolve
/-
Observationally equal modules are interchangeable.
-/
namespace Nnx
variable {α β : Type}

/-- Attributes of modules at the same path in observationally equal graphs. -/
theorem SameGraph.attr {h h' : Heap α} (wf : WFHeap h) (wf' : WFHeap h') {r r' : Loc} (g : SameGraph h r h' r') {p : List Str} {a b : Loc}
    (wa : Walk h r p a) (wb : Walk h' r' p b) (n : Str) :
    (attrAt h a n = none ∧ attrAt h' b n = none) ∨ (∃ v, attrAt h a n = some (.val v) ∧ attrAt h' b n = some (.val v)) ∨
      ∃ c c', attrAt h a n = some (.ref c) ∧ attrAt h' b n = some (.ref c') := by
  have hobs := g.1 (p ++ [n])
  simp only [observe, access_snoc' wa, access_snoc' wb] at hobs
  have href : ∀ {h : Heap α} (_ : WFHeap h) {a c : Loc}, attrAt h a n = some (.ref c) → ∃ cl i, shown h (.ref c) = some (.module cl i) := by
    intro h wf a c e
    have := List.getElem?_eq_getElem (wf.refs _ _ _ e)
    exact ⟨_, _, by simp only [shown, this]; rfl⟩
  rcases hA : attrAt h a n with _ | (c | v) <;> rcases hB : attrAt h' b n with _ | (c' | u)
  · exact .inl ⟨rfl, rfl⟩
  · obtain ⟨_, _, e⟩ := href wf' hB
    rw [hA, hB, Option.bind_some, e] at hobs; cases hobs
  · rw [hA, hB] at hobs; cases hobs
  · obtain ⟨_, _, e⟩ := href wf hA
    rw [hA, hB, Option.bind_some, e] at hobs; cases hobs
  · exact .inr (.inr ⟨c, c', rfl, rfl⟩)
  · obtain ⟨_, _, e⟩ := href wf hA
    rw [hA, hB, Option.bind_some, Option.bind_some, e] at hobs; cases hobs
  · rw [hA, hB] at hobs; cases hobs
  · obtain ⟨_, _, e⟩ := href wf' hB
    rw [hA, hB, Option.bind_some, Option.bind_some, e] at hobs; cases hobs
  · rw [hA, hB] at hobs
    simp only [Option.bind_some, shown, Option.some.injEq, Shown.value.injEq] at hobs
    subst hobs
    exact .inr (.inl ⟨_, rfl, rfl⟩)

theorem SameGraph.one {h h' : Heap α} (wf : WFHeap h) (wf' : WFHeap h') {r r' : Loc} (hr : r < h.length) (hr' : r' < h'.length)
    (g : SameGraph h r h' r') {p q : List Str} {a b c d : Loc} (wa : Walk h r p a) (wb : Walk h' r' p b) (wc : Walk h r q c)
    (wd : Walk h' r' q d) : a = c ↔ b = d := by
  have key := g.2 p q
  unfold SameModule at key
  simp only [access_ref wf hr, access_ref wf' hr'] at key
  constructor
  · rintro rfl
    obtain ⟨l, h1, h2⟩ := key.2 ⟨a, wa, wc⟩
    exact (wb.functional h1).trans (h2.functional wd)
  · rintro rfl
    obtain ⟨l, h1, h2⟩ := key.1 ⟨b, wb, wd⟩
    exact (wa.functional h1).trans (h2.functional wc)

open Classical in
/-- Observationally equal graphs are isomorphic. -/
theorem SameGraph.iso {h h' : Heap α} (wf : WFHeap h) (wf' : WFHeap h') {r r' : Loc} (hr : r < h.length) (hr' : r' < h'.length)
    (g : SameGraph h r h' r') : ∃ f, GraphIso h r h' r' f := by
  let f : Loc → Loc := fun a => if e : ∃ b p, Walk h r p a ∧ Walk h' r' p b then e.choose else 0
  have hf : ∀ {p a b}, Walk h r p a → Walk h' r' p b → f a = b := by
    intro p a b wa wb
    have e : ∃ b p, Walk h r p a ∧ Walk h' r' p b := ⟨b, p, wa, wb⟩
    have : f a = e.choose := dif_pos e
    rw [this]
    obtain ⟨q, h1, h2⟩ := e.choose_spec
    exact (g.one wf wf' hr hr' h1 h2 wa wb).1 rfl
  refine ⟨f, hf (.here hr) (.here hr'), ?_, ?_, ?_⟩
  · rintro a c ⟨p, wa⟩ ⟨q, wc⟩ e
    obtain ⟨b, wb⟩ := g.walk wf wf' hr hr' wa
    obtain ⟨d, wd⟩ := g.walk wf wf' hr hr' wc
    rw [hf wa wb, hf wc wd] at e
    exact (g.one wf wf' hr hr' wa wb wc wd).2 e
  · rintro a o ⟨p, wa⟩ ho
    obtain ⟨b, wb⟩ := g.walk wf wf' hr hr' wa
    rw [hf wa wb]
    have hobs := g.1 p
    have eb := List.getElem?_eq_getElem wb.lt
    rw [observe_walk wf hr wa, observe_walk wf' hr' wb, ho, eb] at hobs
    simp only [Option.map_some, Option.some.injEq, Shown.module.injEq] at hobs
    exact ⟨_, eb, hobs.1, hobs.2⟩
  · rintro a ⟨p, wa⟩ n
    obtain ⟨b, wb⟩ := g.walk wf wf' hr hr' wa
    rw [hf wa wb]
    rcases g.attr wf wf' wa wb n with ⟨h1, h2⟩ | ⟨v, h1, h2⟩ | ⟨c, c', h1, h2⟩
    · rw [h1, h2]; rfl
    · rw [h1, h2]; rfl
    · rw [h1, h2]
      simp only [Option.map_some, Attr.redirect, hf (wa.snoc h1 (wf.refs _ _ _ h1)) (wb.snoc h2 (wf'.refs _ _ _ h2))]

/-- Isomorphic modules that may be modified. -/
theorem GraphIso.bisim {w w' : World α} (wf : WFWorld w) {r r' : Loc} (hr : r < w.heap.length) {f : Loc → Loc}
    (g : GraphIso w.heap r w'.heap r' f) (hv : AllValid w r) (hv' : AllValid w' r') : Bisim (Reaches w.heap r) f w w' := by
  refine ⟨g.inj, ?_, ?_⟩
  · rintro a ⟨q, hq⟩
    have hlt := hq.lt
    have ho : w.heap[a]? = some w.heap[a] := List.getElem?_eq_getElem hlt
    obtain ⟨o', ho', h1, h2⟩ := g.obj a _ ⟨q, hq⟩ ho
    refine ⟨w.heap[a], o', ho, ho', h1, h2, hv a _ ⟨q, hq⟩ ho, ?_, ?_⟩
    · have := g.walk wf.heap ⟨[], .here hr⟩ hq
      rw [g.root] at this
      exact hv' _ _ ⟨q, this⟩ ho'
    · intro n
      have := g.attr a ⟨q, hq⟩ n
      simpa only [attrAt, ho, ho'] using this
  · rintro a n b ⟨q, hq⟩ hb
    exact ⟨q ++ [n], hq.snoc hb (wf.heap.refs _ _ _ hb)⟩

/-- A net effect on nodes is one on nodes of the corresponding modules. -/
theorem NodesOnly.back {w w' v v' : World α} (wf : WFWorld w) {r : Loc} (hr : r < w.heap.length) {f f' : Loc → Loc} {S' : Loc → Prop}
    (g : GraphIso w.heap r w'.heap (f r) f) (B' : Bisim S' f' v v') (hS : ∀ a, Reaches w.heap r a → S' a ∧ f' a = f a)
    (hn : NodesOnly w' v' (f r)) : NodesOnly w v r := by
  rintro a n ⟨p, hp⟩
  obtain ⟨hSa, hfa⟩ := hS a ⟨p, hp⟩
  have h1 := g.attr a ⟨p, hp⟩ n
  have h2 := B'.attr hSa n
  rw [hfa] at h2
  have hold : ∀ b, attrAt w.heap a n = some (.ref b) → S' b ∧ f' b = f b := fun b hb => hS b ⟨p ++ [n], hp.snoc hb (wf.heap.refs _ _ _ hb)⟩
  rcases hn (f a) n ⟨p, g.walk wf.heap ⟨[], .here hr⟩ hp⟩ with h | ⟨v1, h3, h4, h5⟩
  · left
    rw [h, h1] at h2
    rcases hA : attrAt w.heap a n with _ | (b | u) <;> rcases hB : attrAt v.heap a n with _ | (b' | u') <;> rw [hA, hB] at h2 <;>
      simp only [Option.map_none, Option.map_some, Attr.redirect, Option.some.injEq, reduceCtorEq, Attr.ref.injEq, Attr.val.injEq] at h2
    · obtain ⟨h6, h7⟩ := hold _ hA
      rw [← h7] at h2
      rw [B'.inj _ _ h6 (B'.closed _ _ _ hSa hB) h2]
    · rw [h2]
  · right
    rw [h3] at h2
    rcases hB : attrAt v.heap a n with _ | (b' | u') <;> rw [hB] at h2 <;>
      simp only [Option.map_none, Option.map_some, Attr.redirect, Option.some.injEq, reduceCtorEq, Attr.val.injEq] at h2
    subst h2
    refine ⟨_, rfl, h4, ?_⟩
    intro x hx
    rw [hx] at h1
    obtain ⟨u, hu, h6⟩ := h5 _ h1
    cases x with
    | ref b => cases hu
    | val v => cases hu; exact ⟨_, rfl, h6⟩

variable [DecidableEq α]

/-- A program on observationally equal modules. -/
theorem SameGraph.run {w w' : World α} (wf : WFWorld w) (wf' : WFWorld w') {r r' : Loc} (hr : r < w.heap.length) (hr' : r' < w'.heap.length)
    (g : SameGraph w.heap r w'.heap r') (hv : AllValid w r) (hv' : AllValid w' r') {p : Prog α β} (hp : p.Good) :
    (p.call r w).2 = (p.call r' w').2 ∧ SameGraph (p.call r w).1.heap r (p.call r' w').1.heap r' ∧
      (NodesOnly w' (p.call r' w').1 r' → NodesOnly w (p.call r w).1 r) := by
  obtain ⟨f, gi⟩ := g.iso wf.heap wf'.heap hr hr'
  have B := gi.bisim wf hr hv hv'
  have hroot : Reaches w.heap r r := ⟨[], .here hr⟩
  obtain ⟨S', f', hS, B', he⟩ := p.bisim hp _ f [r] w w' B wf wf' (by simpa using hroot)
  rw [List.map_singleton, gi.root] at B' he
  obtain ⟨H, st⟩ := p.steps [r] [r] w hp wf (by simpa using hr) (fun _ h => h)
  have wd := st.wf wf (by simpa using hr)
  have hr2 := (B'.lt (hS r hroot).1).1
  refine ⟨he, ?_, ?_⟩
  · have := (B'.iso (hS r hroot).1).sameGraph wd.1.heap hr2
    rwa [(hS r hroot).2, gi.root] at this
  · intro hn
    obtain ⟨rfl⟩ : f r = r' := gi.root
    exact NodesOnly.back wf hr gi B' hS hn

end Nnx
