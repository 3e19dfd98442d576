import Verif.Proofs.Transforms
/-
Laws of correspondences of module graphs.
-/
namespace Nnx
variable {α : Type}

theorem Attr.redirect_id (x : Attr α) : x.redirect id = x := by cases x <;> rfl

theorem Attr.redirect_comp (f g : Loc → Loc) (x : Attr α) : (x.redirect f).redirect g = x.redirect (g ∘ f) := by cases x <;> rfl

theorem Bisim.valid {S : Loc → Prop} {f : Loc → Loc} {w w' : World α} (B : Bisim S f w w') {l : Loc} (hl : S l) :
    AllValid w l := by
  rintro a o ⟨q, hq⟩ ho
  have ha : S a := by
    clear ho
    induction hq with
    | here _ => exact hl
    | step e _ ih => exact ih (B.closed _ _ _ hl e)
  obtain ⟨o1, _, h1, _, _, _, h2, _⟩ := B.obj a ha
  rw [ho] at h1
  cases h1
  exact h2

theorem Bisim.congr {S : Loc → Prop} {f g : Loc → Loc} {w w' : World α} (B : Bisim S f w w') (h : ∀ a, S a → f a = g a) :
    Bisim S g w w' := by
  refine ⟨?_, ?_, B.closed⟩
  · intro a b ha hb e
    rw [← h a ha, ← h b hb] at e
    exact B.inj a b ha hb e
  · intro a ha
    obtain ⟨o, o', h1, h2, h3, h4, h5, h6, h7⟩ := B.obj a ha
    refine ⟨o, o', h1, by rw [← h a ha]; exact h2, h3, h4, h5, h6, ?_⟩
    intro n
    rw [h7 n]
    cases hx : dget o.attrs n with
    | none => rfl
    | some x =>
      simp only [Option.map_some, Option.some.injEq]
      refine redirect_congr h ?_
      rintro b rfl
      exact B.closed a n b ha (by simp only [attrAt, h1, hx])

/-- A set of Modules that corresponds to something corresponds to itself. -/
theorem Bisim.left {S : Loc → Prop} {f : Loc → Loc} {w w' : World α} (B : Bisim S f w w') : Bisim S id w w := by
  refine ⟨fun _ _ _ _ e => e, ?_, B.closed⟩
  intro a ha
  obtain ⟨o, o', h1, h2, h3, h4, h5, h6, h7⟩ := B.obj a ha
  refine ⟨o, o, h1, h1, rfl, rfl, h5, h5, ?_⟩
  intro n
  cases dget o.attrs n with
  | none => rfl
  | some x => simp only [Option.map_some, Attr.redirect_id]

theorem Bisim.comp {S T : Loc → Prop} {f g : Loc → Loc} {w w' w'' : World α} (B : Bisim S f w w') (B' : Bisim T g w' w'') :
    Bisim (fun a => S a ∧ T (f a)) (g ∘ f) w w'' := by
  refine ⟨?_, ?_, ?_⟩
  · intro a b ha hb e
    exact B.inj a b ha.1 hb.1 (B'.inj _ _ ha.2 hb.2 e)
  · intro a ha
    obtain ⟨o, o', h1, h2, h3, h4, h5, h6, h7⟩ := B.obj a ha.1
    obtain ⟨p, p', k1, k2, k3, k4, k5, k6, k7⟩ := B'.obj _ ha.2
    rw [h2] at k1
    cases k1
    refine ⟨o, p', h1, k2, k3.trans h3, k4.trans h4, h5, k6, ?_⟩
    intro n
    rw [k7, h7]
    cases dget o.attrs n with
    | none => rfl
    | some x => simp only [Option.map_some, Attr.redirect_comp]
  · intro a n b ha e
    refine ⟨B.closed a n b ha.1 e, ?_⟩
    have := B.attr ha.1 n
    rw [e] at this
    exact B'.closed _ n _ ha.2 this

/-- The other direction of a correspondence. -/
theorem Bisim.symm {S : Loc → Prop} {f : Loc → Loc} {w w' : World α} (B : Bisim S f w w') :
    ∃ g, Bisim (fun b => ∃ a, S a ∧ f a = b) g w' w ∧ ∀ a, S a → g (f a) = a := by
  classical
  refine ⟨fun b => if h : ∃ a, S a ∧ f a = b then h.choose else b, ?_, ?_⟩
  swap
  · intro a ha
    have h : ∃ a', S a' ∧ f a' = f a := ⟨a, ha, rfl⟩
    simp only [dif_pos h]
    exact B.inj _ _ h.choose_spec.1 ha h.choose_spec.2
  have hg : ∀ a, S a → (fun b => if h : ∃ a, S a ∧ f a = b then h.choose else b) (f a) = a := by
    intro a ha
    have h : ∃ a', S a' ∧ f a' = f a := ⟨a, ha, rfl⟩
    simp only [dif_pos h]
    exact B.inj _ _ h.choose_spec.1 ha h.choose_spec.2
  generalize (fun b => if h : ∃ a, S a ∧ f a = b then h.choose else b) = g at hg
  refine ⟨?_, ?_, ?_⟩
  · rintro _ _ ⟨a, ha, rfl⟩ ⟨b, hb, rfl⟩ e
    rw [hg a ha, hg b hb] at e
    rw [e]
  · rintro _ ⟨a, ha, rfl⟩
    obtain ⟨o, o', h1, h2, h3, h4, h5, h6, h7⟩ := B.obj a ha
    refine ⟨o', o, h2, by rw [hg a ha]; exact h1, h3.symm, h4.symm, h6, h5, ?_⟩
    intro n
    rw [h7]
    cases hx : dget o.attrs n with
    | none => rfl
    | some x =>
      simp only [Option.map_some, Attr.redirect_comp]
      cases x with
      | val v => rfl
      | ref b =>
        have : S b := B.closed a n b ha (by simp only [attrAt, h1, hx])
        simp only [Attr.redirect, Function.comp, hg b this]
  · rintro _ n c ⟨a, ha, rfl⟩ e
    rw [B.attr ha n] at e
    cases hx : attrAt w.heap a n with
    | none => rw [hx] at e; cases e
    | some x =>
      rw [hx] at e
      cases x with
      | val v => cases e
      | ref b => cases e; exact ⟨b, B.closed a n b ha hx, rfl⟩

/-- The image of a correspondence corresponds to itself. -/
theorem Bisim.right {S : Loc → Prop} {f : Loc → Loc} {w w' : World α} (B : Bisim S f w w') :
    Bisim (fun b => ∃ a, S a ∧ f a = b) id w' w' := by
  obtain ⟨g, B', _⟩ := B.symm
  exact B'.left

theorem traceValid_of {w w' : World α} (h1 : w'.jaxTrace = w.jaxTrace) (h2 : w'.nnxStack = w.nnxStack) (t : Trace) :
    w'.traceValid t = w.traceValid t := by
  have : w'.curTrace = w.curTrace := by simp only [World.curTrace, h1, h2]
  unfold World.traceValid
  rw [this]

/-- Adding Modules: what there was is as before. -/
theorem grown {w w3 : World α} (wf3 : WFWorld w3) (hlen : w.heap.length ≤ w3.heap.length)
    (hold : ∀ a : Loc, a < w.heap.length → w3.heap[a]? = w.heap[a]?) (hj : w3.jaxTrace = w.jaxTrace) (hst : w3.nnxStack = w.nnxStack)
    (hcl : Closed w3.heap (fun x => w.heap.length ≤ x)) :
    Keeps w w3 ∧ (∀ A, Closed w.heap A → Confined A w w3) ∧ ∀ S, Bisim S id w w → Bisim S id w w3 := by
  refine ⟨⟨hj, hst, hlen, fun a ha => by simp only [objInfo, hold a ha]⟩, ?_, ?_⟩
  · intro A hA
    refine ⟨wf3, hlen, fun a ha _ => hold a ha, ?_, ?_⟩
    · rintro x n y hx e
      by_cases h : w.heap.length ≤ x
      · exact .inr (hcl x n y h e)
      · have hx' := hx.resolve_right h
        rw [attrAt, hold x (Nat.lt_of_not_le h)] at e
        exact .inl (hA x n y hx' e)
    · intro a o ho
      exact ⟨o, by rw [hold a (List.getElem?_eq_some_iff.1 ho).1]; exact ho, rfl, rfl, rfl⟩
  · intro S B
    refine ⟨B.inj, ?_, B.closed⟩
    intro a ha
    obtain ⟨o, o', h1, h2, h3, h4, h5, h6, h7⟩ := B.obj a ha
    refine ⟨o, o', h1, ?_, h3, h4, h5, ?_, h7⟩
    · rw [← h2]; exact hold _ (B.lt ha).2
    · rw [traceValid_of hj hst]; exact h6

end Nnx
