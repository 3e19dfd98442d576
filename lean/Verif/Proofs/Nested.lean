import Verif.Props.Grad
import Verif.Props.Remat
import Verif.Spec.Nested
import Verif.Proofs.ScanSim
/-
Nested transforms: the function with its transforms corresponds to the function without them.
-/
namespace Nnx
variable {α κ L β : Type}

/-! ### Operations -/

/-- Two sets of Modules that correspond, one of old Modules and one of new ones. -/
theorem Bisim.union {S T : Loc → Prop} {f g : Loc → Loc} {v v' : World α} (B : Bisim S f v v') {n n' : Nat}
    (hS : ∀ a, S a → a < n ∧ f a < n') (Bt : Bisim T g v v') (hT : ∀ a, T a → n ≤ a ∧ n' ≤ g a) :
    ∃ f1, (∀ a, S a → f1 a = f a) ∧ (∀ a, T a → f1 a = g a) ∧ Bisim (fun a => S a ∨ T a) f1 v v' := by
  have h1 : ∀ a, S a → (if a < n then f a else g a) = f a := fun a ha => if_pos (hS a ha).1
  have h2 : ∀ a, T a → (if a < n then f a else g a) = g a := fun a ha => if_neg (Nat.not_lt.2 (hT a ha).1)
  refine ⟨fun a => if a < n then f a else g a, h1, h2, ?_, ?_, ?_⟩
  · intro a b ha hb e
    rcases ha with ha | ha <;> rcases hb with hb | hb
    · rw [h1 a ha, h1 b hb] at e; exact B.inj a b ha hb e
    · rw [h1 a ha, h2 b hb] at e
      exact absurd (hS a ha).2 (Nat.not_lt.2 (by rw [e]; exact (hT b hb).2))
    · rw [h2 a ha, h1 b hb] at e
      exact absurd (hS b hb).2 (Nat.not_lt.2 (by rw [← e]; exact (hT a ha).2))
    · rw [h2 a ha, h2 b hb] at e; exact Bt.inj a b ha hb e
  · have red : ∀ {R : Loc → Prop} {h : Loc → Loc}, (∀ a, R a → (if a < n then f a else g a) = h a) → Bisim R h v v' → ∀ a, R a →
        ∃ o o', v.heap[a]? = some o ∧ v'.heap[if a < n then f a else g a]? = some o' ∧ o'.cls = o.cls ∧ o'.isInit = o.isInit ∧
          v.traceValid o.trace = true ∧ v'.traceValid o'.trace = true ∧
          ∀ n_1, dget o'.attrs n_1 = (dget o.attrs n_1).map (Attr.redirect fun a => if a < n then f a else g a) := by
      intro R h hh Br a ha
      obtain ⟨o, o', e1, e2, e3, e4, e5, e6, e7⟩ := Br.obj a ha
      refine ⟨o, o', e1, by rw [hh a ha]; exact e2, e3, e4, e5, e6, ?_⟩
      intro m
      rw [e7 m]
      cases hx : dget o.attrs m with
      | none => rfl
      | some x =>
        cases x with
        | val v => rfl
        | ref b =>
          have hb := Br.closed a m b ha (by simp only [attrAt, e1]; exact hx)
          simp only [Option.map_some, Attr.redirect, hh b hb]
    rintro a (ha | ha)
    · exact red h1 B a ha
    · exact red h2 Bt a ha
  · rintro a m b (ha | ha) e
    · exact .inl (B.closed a m b ha e)
    · exact .inr (Bt.closed a m b ha e)

/-- The new Modules among Modules that correspond. -/
theorem Bisim.fresh {T : Loc → Prop} {g : Loc → Loc} {v v' : World α} (B : Bisim T g v v') {n n' : Nat}
    (cl : Closed v.heap (fun x => n ≤ x)) (cl' : Closed v'.heap (fun x => n' ≤ x)) :
    Bisim (fun a => T a ∧ n ≤ a ∧ n' ≤ g a) g v v' := by
  refine ⟨fun a b ha hb => B.inj a b ha.1 hb.1, fun a ha => B.obj a ha.1, ?_⟩
  rintro a m b ⟨ha, h1, h2⟩ e
  refine ⟨B.closed a m b ha e, cl a m b h1 e, cl' (g a) m (g b) h2 ?_⟩
  rw [B.attr ha, e]
  rfl

variable [DecidableEq α]

/-- Clones of corresponding Modules correspond. -/
theorem Bisim.clone {S : Loc → Prop} {f : Loc → Loc} {w w' : World α} (B : Bisim S f w w') (wf : WFWorld w) (wf' : WFWorld w') {l : Loc}
    (hl : S l) : ∃ (T : Loc → Prop) (g : Loc → Loc) (v v' : World α), cloneModule (w.heap.length + 1) l w = (v, .ok w.heap.length) ∧
      cloneModule (w'.heap.length + 1) (f l) w' = (v', .ok w'.heap.length) ∧ T w.heap.length ∧ g w.heap.length = w'.heap.length ∧
      (∀ a, T a → w.heap.length ≤ a ∧ w'.heap.length ≤ g a) ∧ Bisim T g v v' ∧ Added w v ∧ Added w' v' := by
  obtain ⟨s, d, h1, h2, h3, h4⟩ := B.getState wf.heap wf'.heap hl (Nat.lt_succ_self _) (Nat.lt_succ_self _)
  have hlt := (B.lt hl).1
  have hd : getModuleDef (w.heap.length + 1) w.heap l = some d := by
    simp only [partitionModule] at h1
    split at h1
    · next hd _ => cases h1; exact hd
    · cases h1
  have hg : GoodUpdates [s] := by
    intro u hu k v hkv
    rw [List.mem_singleton.1 hu] at hkv
    exact getState_good wf.heap hlt h3 k v hkv
  obtain ⟨g, T, hgu, hT, Bt, ho⟩ := mergeDef_bisim wf.heap hlt hd [s] w w'
  obtain ⟨a, hlen, _⟩ := mergeDef_added wf.heap hlt hd hg wf
  obtain ⟨a', hlen', _⟩ := mergeDef_added wf.heap hlt hd hg wf'
  obtain ⟨v, _, hm, _⟩ := mergeDef_spec wf.heap hlt hd h3 (pieces_self (getState_canonical h3)) wf.heap.conts
  have ho := ho.resolve_right (by rintro ⟨e, he, _⟩; rw [hm] at he; cases he)
  refine ⟨_, g, (mergeDef d [s] w).1, (mergeDef d [s] w').1, ?_, ?_, ⟨hT, Nat.le_refl _, by rw [hgu]⟩, hgu,
    fun a ha => ha.2, Bt.fresh a.closed a'.closed, a, a'⟩
  · simp only [cloneModule, h1, ← ho.1]
  · simp only [cloneModule, h2, ← ho.2]

theorem clone_added {w v : World α} (wf : WFWorld w) {l : Loc} (hl : l < w.heap.length) {fuel : Nat} {l' : Loc}
    (h : cloneModule fuel l w = (v, .ok l')) : (Added w v ∧ w.heap.length < v.heap.length) ∧ l' = w.heap.length := by
  unfold cloneModule at h
  split at h
  · cases h
  · next ss d hp =>
    obtain ⟨hg, hd⟩ := partition_good wf.heap hl hp
    obtain ⟨a, hlen, he⟩ := mergeDef_added wf.heap hl hd (goodUpdates_iff.2 hg) wf
    rw [h] at a hlen he
    exact ⟨⟨a, hlen⟩, he l' rfl⟩

/-- Operations cannot tell corresponding graphs apart. -/
theorem Op.bisim {o : Op α} (hg : o.Good) {S : Loc → Prop} {f : Loc → Loc} {K : List Loc} {w w' : World α}
    (B : Bisim S f w w') (wf : WFWorld w) (wf' : WFWorld w') (hK : ∀ k ∈ K, S k) :
    (∃ e, o.run K w = .error e ∧ o.run (K.map f) w' = .error e) ∨
    ∃ x K1 w1 w1' S1 f1, o.run K w = .ok (x, K1, w1) ∧ o.run (K.map f) w' = .ok (x, K1.map f1, w1') ∧ Bisim S1 f1 w1 w1' ∧
      (∀ a, S a → S1 a ∧ f1 a = f a) ∧ (∀ k ∈ K1, S1 k) ∧ WFWorld w1 ∧ WFWorld w1' ∧ x.Good := by
  have hsame : ∀ {x : Seen α} {r r' : Except Err (Seen α × List Loc × World α)}, r = .ok (x, K, w) → r' = .ok (x, K.map f, w') → x.Good →
      (∃ e : Err, r = .error e ∧ r' = .error e) ∨
      ∃ x K1 w1 w1' S1 f1, r = .ok (x, K1, w1) ∧ r' = .ok (x, K1.map f1, w1') ∧ Bisim S1 f1 w1 w1' ∧
        (∀ a, S a → S1 a ∧ f1 a = f a) ∧ (∀ k ∈ K1, S1 k) ∧ WFWorld w1 ∧ WFWorld w1' ∧ x.Good :=
    fun h1 h2 hx => .inr ⟨_, K, w, w', S, f, h1, h2, B, fun a ha => ⟨ha, rfl⟩, hK, wf, wf', hx⟩
  cases o with
  | get m n =>
    simp only [Op.run, List.getElem?_map]
    cases hl : K[m]? with
    | none => exact .inl ⟨_, rfl, rfl⟩
    | some l =>
      have hS := hK l (List.mem_of_getElem? hl)
      simp only [Option.map_some, B.attr hS]
      cases ha : attrAt w.heap l n with
      | none => exact hsame rfl rfl (fun _ _ _ h => by cases h)
      | some a =>
        cases a with
        | val v => exact hsame rfl rfl (value_wf wf ha)
        | ref b =>
          have hb := B.closed l n b hS ha
          have hsh : shown w'.heap (.ref (f b)) = shown w.heap (.ref b) := by
            obtain ⟨o, o', ho, ho', h1, h2, _⟩ := B.obj b hb
            simp only [shown, ho, ho', Option.map_some, h1, h2]
          simp only [Option.map_some, Attr.redirect, hsh]
          refine .inr ⟨_, K ++ [b], w, w', S, f, rfl, by simp, B, fun a ha => ⟨ha, rfl⟩, ?_, wf, wf', module_wf⟩
          intro x hx
          rcases List.mem_append.1 hx with hx | hx
          · exact hK x hx
          · rw [List.mem_singleton.1 hx]; exact hb
  | same m m' =>
    simp only [Op.run, List.getElem?_map]
    cases hl : K[m]? with
    | none => exact .inl ⟨_, rfl, rfl⟩
    | some l =>
      cases hl' : K[m']? with
      | none => exact .inl ⟨_, rfl, rfl⟩
      | some l' =>
        have e : decide (f l = f l') = decide (l = l') :=
          decide_eq_decide.2 ⟨B.inj l l' (hK l (List.mem_of_getElem? hl)) (hK l' (List.mem_of_getElem? hl')), fun h => h ▸ rfl⟩
        simp only [Option.map_some, e]
        exact hsame rfl rfl trivial
  | set m n v =>
    simp only [Op.run, List.getElem?_map]
    cases hl : K[m]? with
    | none => exact .inl ⟨_, rfl, rfl⟩
    | some l =>
      have hS := hK l (List.mem_of_getElem? hl)
      simp only [Option.map_some]
      rcases B.setAttr hS n (x := .val v) (by intro b hb; cases hb) with ⟨e, h1, h2⟩ | ⟨u, u', h1, h2, B'⟩
      · simp only [Attr.redirect] at h2
        simp only [h1, h2]
        exact hsame rfl rfl trivial
      · simp only [Attr.redirect] at h2
        simp only [h1, h2]
        refine .inr ⟨_, K, u, u', S, f, rfl, rfl, B', fun a ha => ⟨ha, rfl⟩, hK, ?_, ?_, trivial⟩
        · exact (Step.assign (K := [l]) (by simp) hg.1 hg.2 h1).wfWorld wf (by simpa using (B.lt hS).1)
        · exact (Step.assign (K := [f l]) (by simp) hg.1 hg.2 h2).wfWorld wf' (by simpa using (B.lt hS).2)
  | link m n m' =>
    simp only [Op.run, List.getElem?_map]
    cases hl : K[m]? with
    | none => exact .inl ⟨_, rfl, rfl⟩
    | some l =>
      cases hl' : K[m']? with
      | none => exact .inl ⟨_, rfl, rfl⟩
      | some l' =>
        have hS := hK l (List.mem_of_getElem? hl)
        have hS' := hK l' (List.mem_of_getElem? hl')
        simp only [Option.map_some]
        rcases B.setAttr hS n (x := .ref l') (by intro b hb; cases hb; exact hS') with ⟨e, h1, h2⟩ | ⟨u, u', h1, h2, B'⟩
        · simp only [Attr.redirect] at h2
          simp only [h1, h2]
          exact hsame rfl rfl trivial
        · simp only [Attr.redirect] at h2
          simp only [h1, h2]
          refine .inr ⟨_, K, u, u', S, f, rfl, rfl, B', fun a ha => ⟨ha, rfl⟩, hK, ?_, ?_, trivial⟩
          · exact (Step.link (K := [l, l']) (by simp) (by simp) hg h1).wfWorld wf (by simpa using ⟨(B.lt hS).1, (B.lt hS').1⟩)
          · exact (Step.link (K := [f l, f l']) (by simp) (by simp) hg h2).wfWorld wf' (by simpa using ⟨(B.lt hS).2, (B.lt hS').2⟩)
  | del m n =>
    simp only [Op.run, List.getElem?_map]
    cases hl : K[m]? with
    | none => exact .inl ⟨_, rfl, rfl⟩
    | some l =>
      have hS := hK l (List.mem_of_getElem? hl)
      simp only [Option.map_some]
      rcases B.delAttr hS (fun o => wf.heap.nodup _ o) (fun o => wf'.heap.nodup _ o) n with ⟨e, h1, h2⟩ | ⟨u, u', h1, h2, B'⟩
      · simp only [h1, h2]
        exact hsame rfl rfl trivial
      · simp only [h1, h2]
        refine .inr ⟨_, K, _, _, S, f, rfl, rfl, B', fun a ha => ⟨ha, rfl⟩, hK, ?_, ?_, trivial⟩
        · exact (Step.delete (K := [l]) (by simp) h1).wfWorld wf (by simpa using (B.lt hS).1)
        · exact (Step.delete (K := [f l]) (by simp) h2).wfWorld wf' (by simpa using (B.lt hS).2)
  | new c =>
    obtain ⟨f1, hn, hf, B1⟩ := B.new c
    refine .inr ⟨_, K ++ [w.heap.length], _, _, _, f1, rfl, ?_, B1, fun a ha => ⟨.inl ha, hf a ha⟩, ?_,
      (Step.create (K := []) c).wfWorld wf (by simp), (Step.create (K := []) c).wfWorld wf' (by simp), trivial⟩
    · have hmap : (K ++ [w.heap.length]).map f1 = K.map f ++ [w'.heap.length] := by
        rw [List.map_append, List.map_singleton, hn]
        congr 1
        exact List.map_congr_left fun x hx => hf x (hK x hx)
      rw [hmap]
      rfl
    · intro x hx
      rcases List.mem_append.1 hx with hx | hx
      · exact .inl (hK x hx)
      · exact .inr (List.mem_singleton.1 hx)
  | state m =>
    simp only [Op.run, List.getElem?_map]
    cases hl : K[m]? with
    | none => exact .inl ⟨_, rfl, rfl⟩
    | some l =>
      have hS := hK l (List.mem_of_getElem? hl)
      obtain ⟨s, d, _, _, h1, h2⟩ := B.getState wf.heap wf'.heap hS (Nat.lt_succ_self _) (Nat.lt_succ_self _)
      simp only [Option.map_some, h1, h2]
      exact hsame rfl rfl (getState_good wf.heap (B.lt hS).1 h1)
  | update m us =>
    simp only [Op.run, List.getElem?_map]
    cases hl : K[m]? with
    | none => exact .inl ⟨_, rfl, rfl⟩
    | some l =>
      have hS := hK l (List.mem_of_getElem? hl)
      obtain ⟨s, d, _, _, h1, h2⟩ := B.getState wf.heap wf'.heap hS (Nat.lt_succ_self _) (Nat.lt_succ_self _)
      have hu : updateState (w'.heap.length + 1) (f l) us w' = updateState (w.heap.length + 1) (f l) us w' := by
        have h3 := (B.getState_same wf.heap wf'.heap hS (w.heap.length + 1)).trans h1
        simp only [updateState, h2, h3]
      obtain ⟨B1, he⟩ := B.updateState wf.heap wf'.heap hS (w.heap.length + 1) us
      simp only [Option.map_some, hu, he]
      refine .inr ⟨_, K, _, _, S, f, rfl, rfl, B1, fun a ha => ⟨ha, rfl⟩, hK, ?_, ?_, trivial⟩
      · exact (confined_updateState (A := fun _ => True) wf (fun _ _ _ _ _ => trivial) trivial (B.lt hS).1 hg rfl).1.wf
      · exact (confined_updateState (A := fun _ => True) wf' (fun _ _ _ _ _ => trivial) trivial (B.lt hS).2 hg rfl).1.wf
  | clone m =>
    simp only [Op.run, List.getElem?_map]
    cases hl : K[m]? with
    | none => exact .inl ⟨_, rfl, rfl⟩
    | some l =>
      have hS := hK l (List.mem_of_getElem? hl)
      obtain ⟨T, g, v, v', h1, h2, hT, hg, hge, Bt, a, a'⟩ := B.clone wf wf' hS
      obtain ⟨f1, hf, hft, B1⟩ := (B.added a a').union (fun x hx => B.lt hx) Bt hge
      simp only [Option.map_some, h1, h2]
      refine .inr ⟨_, K ++ [w.heap.length], v, v', _, f1, rfl, ?_, B1, fun a ha => ⟨.inl ha, hf a ha⟩, ?_, a.wf, a'.wf, trivial⟩
      · have hmap : (K ++ [w.heap.length]).map f1 = K.map f ++ [w'.heap.length] := by
          rw [List.map_append, List.map_singleton, hft _ hT, hg]
          congr 1
          exact List.map_congr_left fun x hx => hf x (hK x hx)
        rw [hmap]
      · intro x hx
        rcases List.mem_append.1 hx with hx | hx
        · exact .inl (hK x hx)
        · rw [List.mem_singleton.1 hx]; exact .inr hT

/-- The case of a set of Modules that corresponds to itself. -/
theorem Op.sound {o : Op α} (hg : o.Good) {S : Loc → Prop} {K : List Loc} {w : World α} (B : Bisim S id w w) (wf : WFWorld w)
    (hK : ∀ k ∈ K, S k) {x : Seen α} {K1 : List Loc} {w1 : World α} (h : o.run K w = .ok (x, K1, w1)) :
    ∃ S1, Bisim S1 id w1 w1 ∧ (∀ a, S a → S1 a) ∧ (∀ k ∈ K1, S1 k) ∧ WFWorld w1 ∧ x.Good := by
  rcases Op.bisim hg B wf wf hK with ⟨e, h1, _⟩ | ⟨x', K', v, v', S1, f1, h1, h2, B1, hS, hK1, wf1, _, hx⟩
  · rw [h] at h1; cases h1
  · rw [h] at h1
    cases h1
    exact ⟨S1, B1.left, fun a ha => (hS a ha).1, hK1, wf1, hx⟩

/-- An operation is confined to what the function can reach. -/
theorem Op.confined {o : Op α} (hg : o.Good) {A : Loc → Prop} {K : List Loc} {w : World α} (wf : WFWorld w) (hA : Closed w.heap A)
    (hK : ∀ k ∈ K, k < w.heap.length ∧ A k) {x : Seen α} {K1 : List Loc} {w1 : World α} (h : o.run K w = .ok (x, K1, w1)) :
    Confined A w w1 ∧ (∀ k ∈ K1, k < w1.heap.length ∧ (A k ∨ w.heap.length ≤ k)) ∧ Keeps w w1 ∧ x.Good := by
  have hsame : ∀ {x' : Seen α}, (x', K, w) = (x, K1, w1) → x'.Good →
      Confined A w w1 ∧ (∀ k ∈ K1, k < w1.heap.length ∧ (A k ∨ w.heap.length ≤ k)) ∧ Keeps w w1 ∧ x.Good := by
    intro x' e hx
    cases e
    exact ⟨.refl wf hA, fun k hk => ⟨(hK k hk).1, .inl (hK k hk).2⟩, .refl w, hx⟩
  have hwrite : ∀ {v : World α}, Confined A w v ∧ v.heap.length = w.heap.length → Keeps w v →
      (Seen.outcome none, K, v) = (x, K1, w1) →
      Confined A w w1 ∧ (∀ k ∈ K1, k < w1.heap.length ∧ (A k ∨ w.heap.length ≤ k)) ∧ Keeps w w1 ∧ x.Good := by
    intro v hc hk e
    cases e
    exact ⟨hc.1, fun k hk => ⟨by rw [hc.2]; exact (hK k hk).1, .inl (hK k hk).2⟩, hk, trivial⟩
  cases o with
  | get m n =>
    simp only [Op.run] at h
    split at h
    · cases h
    next l hl =>
    split at h
    · exact hsame (Except.ok.inj h) (fun _ _ _ h => by cases h)
    · next b hb =>
      cases h
      refine ⟨.refl wf hA, ?_, .refl w, module_wf⟩
      intro k hk
      rcases List.mem_append.1 hk with hk | hk
      · exact ⟨(hK k hk).1, .inl (hK k hk).2⟩
      · rw [List.mem_singleton.1 hk]
        exact ⟨wf.heap.refs _ _ _ hb, .inl (hA _ _ _ (hK l (List.mem_of_getElem? hl)).2 hb)⟩
    · next v hv => exact hsame (Except.ok.inj h) (value_wf wf hv)
  | same m m' =>
    simp only [Op.run] at h
    split at h
    · exact hsame (Except.ok.inj h) trivial
    · cases h
  | set m n v =>
    simp only [Op.run] at h
    split at h
    · cases h
    next l hl =>
    split at h
    · exact hsame (Except.ok.inj h) trivial
    · next u hu =>
      exact hwrite (confined_setAttr_val wf hA (hK l (List.mem_of_getElem? hl)).2 hg.1 hg.2 hu) (.setAttr hu) (Except.ok.inj h)
  | link m n m' =>
    simp only [Op.run] at h
    split at h
    · next l l' hl hl' =>
      split at h
      · exact hsame (Except.ok.inj h) trivial
      · next u hu =>
        have h' := hK l' (List.mem_of_getElem? hl')
        exact hwrite (confined_setAttr_ref wf hA (hK l (List.mem_of_getElem? hl)).2 hg h'.2 h'.1 hu) (.setAttr hu) (Except.ok.inj h)
    · cases h
  | del m n =>
    simp only [Op.run] at h
    split at h
    · cases h
    next l hl =>
    split at h
    · exact hsame (Except.ok.inj h) trivial
    · next u hu =>
      exact hwrite (confined_delAttr wf hA (hK l (List.mem_of_getElem? hl)).2 hu) (.delAttr hu) (Except.ok.inj h)
  | new c =>
    simp only [Op.run] at h
    cases h
    have hc := confined_newModule wf hA c
    refine ⟨hc, ?_, ?_, trivial⟩
    · intro k hk
      rcases List.mem_append.1 hk with hk | hk
      · exact ⟨Nat.lt_of_lt_of_le (hK k hk).1 hc.len, .inl (hK k hk).2⟩
      · rw [List.mem_singleton.1 hk]
        exact ⟨by simp [newModule], .inr (Nat.le_refl _)⟩
    · refine ⟨rfl, rfl, by simp [newModule], ?_⟩
      intro l hl
      simp only [objInfo, newModule, List.getElem?_append_left hl]
  | state m =>
    simp only [Op.run] at h
    split at h
    · cases h
    next l hl =>
    split at h
    · cases h
    · next s hs => exact hsame (Except.ok.inj h) (getState_good wf.heap (hK l (List.mem_of_getElem? hl)).1 hs)
  | update m us =>
    simp only [Op.run] at h
    split at h
    · cases h
    next l hl =>
    cases h
    have hl' := hK l (List.mem_of_getElem? hl)
    have hc : Confined A w (updateState (w.heap.length + 1) l us w).1 ∧
        (updateState (w.heap.length + 1) l us w).1.heap.length = w.heap.length := confined_updateState wf hA hl'.2 hl'.1 hg rfl
    exact ⟨hc.1, fun k hk => ⟨by rw [hc.2]; exact (hK k hk).1, .inl (hK k hk).2⟩, updateState_keeps _ _ _ _, trivial⟩
  | clone m =>
    simp only [Op.run] at h
    split at h
    · cases h
    next l hl =>
    have hl' := hK l (List.mem_of_getElem? hl)
    split at h
    · cases h
    · next v l1 hcl =>
      cases h
      obtain ⟨a, e⟩ := clone_added wf hl'.1 hcl
      subst e
      refine ⟨a.1.confined hA, ?_, a.1.keeps, trivial⟩
      intro k hk
      rcases List.mem_append.1 hk with hk | hk
      · exact ⟨Nat.lt_of_lt_of_le (hK k hk).1 a.1.len, .inl (hK k hk).2⟩
      · rw [List.mem_singleton.1 hk]
        exact ⟨a.2, .inr (Nat.le_refl _)⟩

/-! ### Functions without transforms -/

variable {J : Jax α κ L}

omit [DecidableEq α] in
theorem confined_if {A : Loc → Prop} {w w' : World α} {b : Bool} (wf : WFWorld w) (hA : Closed w.heap A) (c : Confined A w w') :
    Confined A w (if b then w' else w) := by
  cases b
  · exact .refl wf hA
  · exact c

omit [DecidableEq α] in
theorem keeps_if {w w' : World α} {b : Bool} (k : Keeps w w') : Keeps w (if b then w' else w) := by
  cases b
  · exact .refl w
  · exact k

omit [DecidableEq α] in
theorem held_later {A : Loc → Prop} {K : List Loc} {w w' : World α} (hK : ∀ k ∈ K, k < w.heap.length ∧ A k)
    (hlen : w.heap.length ≤ w'.heap.length) : ∀ k ∈ K, k < w'.heap.length ∧ (A k ∨ w.heap.length ≤ k) :=
  fun k hk => ⟨Nat.lt_of_lt_of_le (hK k hk).1 hlen, .inl (hK k hk).2⟩

omit [DecidableEq α] in
theorem Parametric.withLoss {F : Loc → World α → World α × Except Err β} (hF : Parametric F) (loss : β → L) :
    Parametric (withLoss loss F) := by
  refine ⟨?_, hF.confined, hF.keeps⟩
  intro S f l w w' B wf wf' hl
  obtain ⟨S', f', h1, h2, h3⟩ := hF.bisim S f l w w' B wf wf' hl
  exact ⟨S', f', h1, h2, by simp only [Nnx.withLoss, h3]⟩

omit [DecidableEq α] in
/-- The entries that are differentiated, and the others. -/
theorem selected_spec {w : World α} (wf : WFWorld w) {l : Loc} (hl : l < w.heap.length) {wrt : Filter α} (hw : wrt.WellFormed) :
    ∃ p s d nondiff, toPredicate wrt = .ok p ∧
      (∀ fuel, w.heap.length < fuel → getModuleDef fuel w.heap l = some d ∧ getState fuel w.heap l = some s ∧
        partitionModule fuel w.heap l [.pred p, .ellipsis] = .ok ([selected wrt l w, nondiff], d)) ∧
      Pieces s [selected wrt l w, nondiff] ∧ nondiff.Canonical ∧
      (∀ k v, (selected wrt l w).get k = some v ↔ s.get k = some v ∧ wrt.Matches k v) ∧
      (∀ k v, nondiff.get k = some v ↔ s.get k = some v ∧ ¬ wrt.Matches k v) := by
  obtain ⟨s, d, hpart⟩ := partition_budget wf hl
  obtain ⟨_, hdef, hs⟩ := hpart _ (Nat.lt_succ_self _)
  have hob := getState_obtainable hs
  obtain ⟨p, diff, nondiff, hp, hsp, hc1, hc2, h1, h2⟩ := grad_partition hob hw
  have hsel : selected wrt l w = diff := by
    have hs' : getState (w.heap.length + 1) w.heap l = some s := hs
    simp only [selected, hs']
    have hsplit : ∃ t, s.filter [wrt] = .ok [t] := by
      cases hf : s.filter [wrt] with
      | error e =>
        exfalso
        rcases toPredicate_spec wrt with ⟨_, p', hp', _⟩ | ⟨h, _⟩
        · simp only [State.filter, splitState, ellipsisMisplaced, toPredicates, hp'] at hf
          simp at hf
        · exact h hw
      | ok ss =>
        have := (C04_filter_restricts hob hf).1
        match ss, this with
        | [t], _ => exact ⟨t, rfl⟩
    obtain ⟨t, ht⟩ := hsplit
    simp only [ht]
    have hr := (C04_filter_restricts hob ht).2 0 t rfl
    refine State.Canonical.ext ?_ hc1 ?_
    · exact (Obtainable.filter hob ht (by simp)).canonical
    · intro k
      have : ∀ v, t.get k = some v ↔ diff.get k = some v := by
        intro v
        rw [hr k v, h1 k v]
        refine and_congr_right fun _ => ?_
        constructor
        · rintro ⟨⟨f, hf, hm⟩, _⟩
          cases hf
          exact hm
        · intro hm
          exact ⟨⟨_, rfl, hm⟩, fun j hj => absurd hj (Nat.not_lt_zero _)⟩
      exact Option.ext this
  refine ⟨p, s, d, nondiff, hp, ?_, ?_, hc2, ?_, h2⟩
  · intro fuel hf
    obtain ⟨_, h3, h4⟩ := hpart fuel hf
    refine ⟨h3, h4, ?_⟩
    rw [hsel]
    simp only [partitionModule, h3, h4, hsp]
  · rw [hsel]; exact partition_pieces hob hsp
  · rw [hsel]; exact h1

omit [DecidableEq α] in
theorem selected_bisim {S : Loc → Prop} {f : Loc → Loc} {w w' : World α} (B : Bisim S f w w') (wf : WFWorld w) (wf' : WFWorld w')
    {l : Loc} (hl : S l) (wrt : Filter α) : selected wrt (f l) w' = selected wrt l w := by
  obtain ⟨s, d, _, _, h1, h2⟩ := B.getState wf.heap wf'.heap hl (Nat.lt_succ_self _) (Nat.lt_succ_self _)
  have h1' : getState (w.heap.length + 1) w.heap l = some s := h1
  have h2' : getState (w'.heap.length + 1) w'.heap (f l) = some s := h2
  simp only [selected, h1', h2']

/-- Gradients at corresponding Modules are equal. -/
theorem grad_bisim (hlaw : GradLaw J.gradOf) {F : Loc → World α → World α × Except Err (L × β)} (hF : Parametric F)
    {S : Loc → Prop} {f : Loc → Loc} {w w' : World α} (B : Bisim S f w w') (wf : WFWorld w) (wf' : WFWorld w')
    {l : Loc} (hl : S l) {wrt : Filter α} (hw : wrt.WellFormed) :
    J.gradOf (directLoss F (w'.heap.length + 1) (f l) w') (selected wrt (f l) w') =
      J.gradOf (directLoss F (w.heap.length + 1) l w) (selected wrt l w) := by
  have hsel := selected_bisim B wf wf' hl wrt
  obtain ⟨s, d, h1, h2, h3, h4⟩ := B.getState wf.heap wf'.heap hl (Nat.lt_succ_self _) (Nat.lt_succ_self _)
  obtain ⟨p, s1, d1, n1, _, hb1, hpc1, hc1, e1, e2⟩ := selected_spec wf (B.lt hl).1 hw
  obtain ⟨p', s2, d2, n2, hp', hb2, hpc2, hc2, e1', e2'⟩ := selected_spec wf' (B.lt hl).2 hw
  obtain ⟨hd1, hs1, _⟩ := hb1 _ (Nat.lt_succ_self _)
  obtain ⟨hd2, hs2, _⟩ := hb2 _ (Nat.lt_succ_self _)
  rw [h3] at hs1; cases hs1
  rw [h4] at hs2; cases hs2
  have hdd : d1 = d2 := by
    simp only [partitionModule, hd1, h3] at h1
    simp only [partitionModule, hd2, h4] at h2
    cases h1; cases h2; rfl
  subst hdd
  have hn : n1 = n2 := by
    refine State.Canonical.ext hc1 hc2 ?_
    intro k
    refine Option.ext fun v => ?_
    rw [e2, e2']
  subst hn
  rw [hsel]
  refine hlaw.depends _ _ _ ?_
  intro y hy
  have a1 := loss_like wf (B.lt hl).1 (B.valid hl) hF wf h3 hd1 hc1 e1 e2 hy (Nat.lt_succ_self _) 0 0
  have a2 := loss_like wf' (B.lt hl).2 (B.right.valid ⟨l, hl, rfl⟩) hF wf h4 hd2 hc1 e1' e2' (hsel ▸ hy) (Nat.lt_succ_self _) 0 0
  exact a2.symm.trans a1

/-- The function has corresponding effects on corresponding graphs. -/
def Routine.Natural (J : Jax α κ L) (p : Routine α κ L β) : Prop :=
  ∀ (S : Loc → Prop) (f : Loc → Loc) (K : List Loc) (w w' : World α), Bisim S f w w' → WFWorld w → WFWorld w' → (∀ k ∈ K, S k) →
    ∃ S' f', (∀ a, S a → S' a ∧ f' a = f a) ∧ Bisim S' f' (p.plain J K w).1 (p.plain J (K.map f) w').1 ∧
      (p.plain J K w).2 = (p.plain J (K.map f) w').2

/-- The function changes only what it can reach. -/
def Routine.Local (J : Jax α κ L) (p : Routine α κ L β) : Prop :=
  ∀ (A : Loc → Prop) (K : List Loc) (w : World α), WFWorld w → Closed w.heap A → (∀ k ∈ K, k < w.heap.length ∧ A k) →
    Confined A w (p.plain J K w).1 ∧ Keeps w (p.plain J K w).1

theorem Routine.parametric_of {p : Routine α κ L β} (h : p.Natural J ∧ p.Local J) : Parametric (fun l w => p.plain J [l] w) := by
  refine ⟨?_, ?_, ?_⟩
  · intro S f l w w' B wf wf' hl
    exact h.1 S f [l] w w' B wf wf' (by simpa using hl)
  · intro A l w wf hA hl hlt
    exact (h.2 A [l] w wf hA (by simpa using ⟨hlt, hl⟩)).1
  · intro l w wf hl
    exact (h.2 (fun _ => True) [l] w wf (fun _ _ _ _ _ => trivial) (by simpa using hl)).2

omit [DecidableEq α] in
theorem Parametric.withOut {F : Loc → World α → World α × Except Err β} (hF : Parametric F) (out : β → β × β) :
    Parametric (fun l w => ((F l w).1, (F l w).2.map out)) := by
  refine ⟨?_, hF.confined, hF.keeps⟩
  intro S f l w w' B wf wf' hl
  obtain ⟨S', f', h1, h2, h3⟩ := hF.bisim S f l w w' B wf wf' hl
  exact ⟨S', f', h1, h2, by simp only [h3]⟩

omit [DecidableEq α] in
theorem bisim_if {S S1 : Loc → Prop} {f f1 : Loc → Loc} {w w' w1 w1' : World α} {b : Bool} (B : Bisim S f w w')
    (B1 : Bisim S1 f1 w1 w1') (hS : ∀ a, S a → S1 a ∧ f1 a = f a) :
    ∃ S2 f2, Bisim S2 f2 (if b then w1 else w) (if b then w1' else w') ∧ ∀ a, S a → S2 a ∧ f2 a = f a := by
  cases b
  · exact ⟨S, f, B, fun a ha => ⟨ha, rfl⟩⟩
  · exact ⟨S1, f1, B1, hS⟩

omit [DecidableEq α] in
theorem wf_if {w w1 : World α} {b : Bool} (wf : WFWorld w) (wf1 : WFWorld w1) : WFWorld (if b then w1 else w) := by
  cases b
  · exact wf
  · exact wf1

/-- **Functions cannot tell corresponding graphs apart**, and change only what they can reach. -/
theorem Routine.natural (hlaw : GradLaw J.gradOf) (p : Routine α κ L β) : p.Good → p.Natural J ∧ p.Local J := by
  induction p with
  | ret b => exact fun _ => ⟨fun S f K w w' B _ _ _ => ⟨S, f, fun a ha => ⟨ha, rfl⟩, B, rfl⟩, fun A K w wf hA _ => ⟨.refl wf hA, .refl w⟩⟩
  | fail e => exact fun _ => ⟨fun S f K w w' B _ _ _ => ⟨S, f, fun a ha => ⟨ha, rfl⟩, B, rfl⟩, fun A K w wf hA _ => ⟨.refl wf hA, .refl w⟩⟩
  | op o k ih =>
    intro hg
    constructor
    · intro S f K w w' B wf wf' hK
      simp only [Routine.plain]
      rcases Op.bisim hg.1 B wf wf' hK with ⟨e, h1, h2⟩ | ⟨x, K1, w1, w1', S1, f1, h1, h2, B1, hS, hK1, wf1, wf1', hx⟩
      · rw [h1, h2]
        exact ⟨S, f, fun a ha => ⟨ha, rfl⟩, B, rfl⟩
      · simp only [h1, h2]
        obtain ⟨S', f', hS', B', e⟩ := (ih x (hg.2 x hx)).1 S1 f1 K1 w1 w1' B1 wf1 wf1' hK1
        exact ⟨S', f', fun a ha => ⟨(hS' a (hS a ha).1).1, (hS' a (hS a ha).1).2.trans (hS a ha).2⟩, B', e⟩
    · intro A K w wf hA hK
      simp only [Routine.plain]
      split
      · exact ⟨.refl wf hA, .refl w⟩
      · next x K1 w1 ho =>
        obtain ⟨c, hK1, hk, hx⟩ := Op.confined hg.1 wf hA hK ho
        obtain ⟨c', hk'⟩ := (ih x (hg.2 x hx)).2 _ K1 w1 c.wf c.closed hK1
        exact ⟨c.trans c', hk.trans hk'⟩
  | call how m body k ihb ih =>
    intro hg
    constructor
    · intro S f K w w' B wf wf' hK
      simp only [Routine.plain, List.getElem?_map]
      cases hl : K[m]? with
      | none => exact ⟨S, f, fun a ha => ⟨ha, rfl⟩, B, rfl⟩
      | some l =>
        have hS := hK l (List.mem_of_getElem? hl)
        have P := Routine.parametric_of (ihb hg.1)
        obtain ⟨S1, f1, hS1, B1, he⟩ := P.bisim S f l w w' B wf wf' hS
        have wf1 := P.wf wf (B.lt hS).1
        have wf1' := P.wf wf' (B.lt hS).2
        simp only [Option.map_some]
        generalize body.plain J [l] w = r at B1 he wf1
        generalize body.plain J [f l] w' = r' at B1 he wf1'
        obtain ⟨w1, o1⟩ := r
        obtain ⟨w1', o1'⟩ := r'
        simp only at he
        subst he
        cases o1 with
        | error e => exact ⟨S1, f1, hS1, B1, rfl⟩
        | ok b =>
          obtain ⟨S2, f2, B2, hS2⟩ := bisim_if (b := how.kept) B B1 hS1
          obtain ⟨S3, f3, hS3, B3, e3⟩ := (ih b (hg.2 b)).1 S2 f2 K _ _ B2 (wf_if wf wf1) (wf_if wf' wf1') (fun k hk => (hS2 k (hK k hk)).1)
          have hmap : K.map f2 = K.map f := List.map_congr_left fun k hk => (hS2 k (hK k hk)).2
          rw [hmap] at B3 e3
          exact ⟨S3, f3, fun a ha => ⟨(hS3 a (hS2 a ha).1).1, (hS3 a (hS2 a ha).1).2.trans (hS2 a ha).2⟩, B3, e3⟩
    · intro A K w wf hA hK
      simp only [Routine.plain]
      split
      · exact ⟨.refl wf hA, .refl w⟩
      next l hl =>
      have hbody := (ihb hg.1).2 A [l] w wf hA (by simpa using hK l (List.mem_of_getElem? hl))
      split
      · next w' e h => rw [h] at hbody; exact hbody
      · next w' b h =>
        rw [h] at hbody
        have c := confined_if (b := how.kept) wf hA hbody.1
        have hk := keeps_if (b := how.kept) hbody.2
        obtain ⟨c', hk'⟩ := (ih b (hg.2 b)).2 _ K _ c.wf c.closed (held_later hK c.len)
        exact ⟨c.trans c', hk.trans hk'⟩
  | grad stateful j t wrt loss m body k ihb ih =>
    intro hg
    constructor
    · intro S f K w w' B wf wf' hK
      simp only [Routine.plain, List.getElem?_map]
      cases hl : K[m]? with
      | none => exact ⟨S, f, fun a ha => ⟨ha, rfl⟩, B, rfl⟩
      | some l =>
        have hS := hK l (List.mem_of_getElem? hl)
        have P := Routine.parametric_of (ihb hg.2.1)
        obtain ⟨S1, f1, hS1, B1, he⟩ := P.bisim S f l w w' B wf wf' hS
        have wf1 := P.wf wf (B.lt hS).1
        have wf1' := P.wf wf' (B.lt hS).2
        have hgrad := grad_bisim hlaw (P.withLoss loss) B wf wf' hS hg.1
        simp only [Option.map_some]
        rw [hgrad]
        generalize body.plain J [l] w = r at B1 he wf1
        generalize body.plain J [f l] w' = r' at B1 he wf1'
        obtain ⟨w1, o1⟩ := r
        obtain ⟨w1', o1'⟩ := r'
        simp only at he
        subst he
        cases o1 with
        | error e => exact ⟨S1, f1, hS1, B1, rfl⟩
        | ok b =>
          obtain ⟨S2, f2, B2, hS2⟩ := bisim_if (b := stateful) B B1 hS1
          obtain ⟨S3, f3, hS3, B3, e3⟩ := (ih _ b (hg.2.2 _ b (hlaw.good _ _))).1 S2 f2 K _ _ B2 (wf_if wf wf1) (wf_if wf' wf1')
            (fun k hk => (hS2 k (hK k hk)).1)
          have hmap : K.map f2 = K.map f := List.map_congr_left fun k hk => (hS2 k (hK k hk)).2
          rw [hmap] at B3 e3
          exact ⟨S3, f3, fun a ha => ⟨(hS3 a (hS2 a ha).1).1, (hS3 a (hS2 a ha).1).2.trans (hS2 a ha).2⟩, B3, e3⟩
    · intro A K w wf hA hK
      simp only [Routine.plain]
      split
      · exact ⟨.refl wf hA, .refl w⟩
      next l hl =>
      have hbody := (ihb hg.2.1).2 A [l] w wf hA (by simpa using hK l (List.mem_of_getElem? hl))
      split
      · next w' e h => rw [h] at hbody; exact hbody
      · next w' b h =>
        rw [h] at hbody
        have c := confined_if (b := stateful) wf hA hbody.1
        have hk := keeps_if (b := stateful) hbody.2
        obtain ⟨c', hk'⟩ := (ih _ b (hg.2.2 _ b (hlaw.good _ _))).2 _ K _ c.wf c.closed (held_later hK c.len)
        exact ⟨c.trans c', hk.trans hk'⟩
  | scan fuel j o out m c xs ctx body k ihb ih =>
    intro hg
    have P : ∀ ctx c x, Parametric (withOut out (fun ctx c x l w => (body ctx c x).plain J [l] w) ctx c x) := fun ctx c x =>
      (Routine.parametric_of (ihb ctx c x (hg.1 ctx c x))).withOut out
    have Ps := scanApply_parametric (R := J.arrays) (split := J.split) (fuel := fuel) (o := o) (j := j) P c xs ctx
    constructor
    · intro S f K w w' B wf wf' hK
      simp only [Routine.plain, List.getElem?_map]
      cases hl : K[m]? with
      | none => exact ⟨S, f, fun a ha => ⟨ha, rfl⟩, B, rfl⟩
      | some l =>
        have hS := hK l (List.mem_of_getElem? hl)
        obtain ⟨S1, f1, hS1, B1, he⟩ := Ps.bisim S f l w w' B wf wf' hS
        have wf1 := Ps.wf wf (B.lt hS).1
        have wf1' := Ps.wf wf' (B.lt hS).2
        simp only [Option.map_some]
        generalize scanApply J.arrays J.split fuel o j l (withOut out fun ctx c x l w => (body ctx c x).plain J [l] w) c xs ctx w = r
          at B1 he wf1
        generalize scanApply J.arrays J.split fuel o j (f l) (withOut out fun ctx c x l w => (body ctx c x).plain J [l] w) c xs ctx w' = r'
          at B1 he wf1'
        obtain ⟨w1, o1⟩ := r
        obtain ⟨w1', o1'⟩ := r'
        simp only at he
        subst he
        cases o1 with
        | error e => exact ⟨S1, f1, hS1, B1, rfl⟩
        | ok b =>
          obtain ⟨c1, ys⟩ := b
          obtain ⟨S3, f3, hS3, B3, e3⟩ := (ih c1 ys (hg.2 c1 ys)).1 S1 f1 K _ _ B1 wf1 wf1' (fun k hk => (hS1 k (hK k hk)).1)
          have hmap : K.map f1 = K.map f := List.map_congr_left fun k hk => (hS1 k (hK k hk)).2
          rw [hmap] at B3 e3
          exact ⟨S3, f3, fun a ha => ⟨(hS3 a (hS1 a ha).1).1, (hS3 a (hS1 a ha).1).2.trans (hS1 a ha).2⟩, B3, e3⟩
    · intro A K w wf hA hK
      simp only [Routine.plain]
      split
      · exact ⟨.refl wf hA, .refl w⟩
      next l hl =>
      have hl' := hK l (List.mem_of_getElem? hl)
      have c1 := Ps.confined A l w wf hA hl'.2 hl'.1
      have k1 := Ps.keeps l w wf hl'.1
      split
      · next w' e h => rw [h] at c1 k1; exact ⟨c1, k1⟩
      · next w' c' ys h =>
        rw [h] at c1 k1
        obtain ⟨c2, k2⟩ := (ih c' ys (hg.2 c' ys)).2 _ K _ c1.wf c1.closed (held_later hK c1.len)
        exact ⟨c1.trans c2, k1.trans k2⟩

theorem Routine.plain_confined (hlaw : GradLaw J.gradOf) (p : Routine α κ L β) (hp : p.Good) : p.Local J := (p.natural hlaw hp).2

theorem Routine.plain_bisim (hlaw : GradLaw J.gradOf) (p : Routine α κ L β) (hp : p.Good) : p.Natural J := (p.natural hlaw hp).1

theorem Routine.Good.parametric (hlaw : GradLaw J.gradOf) {p : Routine α κ L β} (hp : p.Good) :
    Parametric (fun l w => p.plain J [l] w) :=
  Routine.parametric_of (p.natural hlaw hp)

/-! ### Conditions at corresponding Modules -/

omit [DecidableEq α] in
/-- Node writes are node writes at corresponding Modules. -/
theorem NodeWrites.corresponding {S S' : Loc → Prop} {f f' : Loc → Loc} {w w' wd wd' : World α} (B : Bisim S f w w')
    (B' : Bisim S' f' wd wd') (hS : ∀ a, S a → S' a ∧ f' a = f a) {l : Loc} (hl : S l) (hn : NodeWrites w wd l) :
    NodeWrites w' wd' (f l) := by
  have hreach : ∀ {a b : Loc} {p : List Str}, Walk w'.heap a p b → ∀ a0, S a0 → f a0 = a → ∃ b0, Reaches w.heap a0 b0 ∧ S b0 ∧ f b0 = b := by
    intro a b p hw
    induction hw with
    | here _ => intro a0 ha0 e; exact ⟨a0, ⟨[], .here (B.lt ha0).1⟩, ha0, e⟩
    | step e _ ih =>
      intro a0 ha0 h0
      subst h0
      rw [B.attr ha0] at e
      cases hx : attrAt w.heap a0 _ with
      | none => rw [hx] at e; cases e
      | some x =>
        rw [hx] at e
        cases x with
        | val v => cases e
        | ref c =>
          cases e
          obtain ⟨b0, ⟨q, hq⟩, h1, h2⟩ := ih c (B.closed _ _ _ ha0 hx) rfl
          exact ⟨b0, ⟨_, .step hx hq⟩, h1, h2⟩
  rintro a' n ⟨p, hp⟩
  obtain ⟨a, hr, ha, rfl⟩ := hreach hp l hl rfl
  have e1 := B.attr ha n
  have e2 := B'.attr (hS a ha).1 n
  rw [(hS a ha).2] at e2
  rw [e1, e2]
  rcases hn a n hr with h | ⟨v, h1, h2, h3, h4⟩
  · left
    rw [h]
    cases hx : attrAt w.heap a n with
    | none => rfl
    | some x =>
      cases x with
      | val v => rfl
      | ref b => simp only [Option.map_some, Attr.redirect, (hS b (B.closed a n b ha hx)).2]
  · right
    refine ⟨v, by rw [h1]; rfl, h2, ?_, ?_⟩
    · intro b hb
      cases hx : attrAt w.heap a n with
      | none => rw [hx] at hb; cases hb
      | some x =>
        cases x with
        | val v => rw [hx] at hb; cases hb
        | ref c => exact h3 c hx
    · intro c x m hb
      cases hx : attrAt w.heap a n with
      | none => rw [hx] at hb; cases hb
      | some y =>
        cases y with
        | val v => rw [hx] at hb; cases hb; exact h4 _ _ _ hx
        | ref c => rw [hx] at hb; cases hb

/-- A condition on functions of one Module that does not distinguish corresponding Modules holds after an update of a Module if it
holds after the update of a corresponding Module. -/
theorem update_corresponding {C : Loc → World α → Prop}
    (hC : ∀ (S : Loc → Prop) (f : Loc → Loc) (l : Loc) (w w' : World α), Bisim S f w w' → WFWorld w → WFWorld w' → S l → C l w → C (f l) w')
    {S : Loc → Prop} {f : Loc → Loc} {w w' : World α} (B : Bisim S f w w') (wf : WFWorld w) (wf' : WFWorld w')
    {l : Loc} (hl : S l) {wrt : Filter α} (hw : wrt.WellFormed) {x : State (PyVal α)} (hx : LikeState (selected wrt l w) x)
    (h : ∀ wx, updateState (w.heap.length + 1) l [x] w = (wx, none) → C l wx) {wx' : World α}
    (hx' : updateState (w'.heap.length + 1) (f l) [x] w' = (wx', none)) : C (f l) wx' := by
  have hsel := selected_bisim B wf wf' hl wrt
  obtain ⟨s, d, h1, h2, h3, h4⟩ := B.getState wf.heap wf'.heap hl (Nat.lt_succ_self _) (Nat.lt_succ_self _)
  obtain ⟨p, s1, d1, n1, _, hb1, hpc1, hc1, e1, e2⟩ := selected_spec wf (B.lt hl).1 hw
  obtain ⟨p', s2, d2, n2, hp', hb2, hpc2, hc2, e1', e2'⟩ := selected_spec wf' (B.lt hl).2 hw
  obtain ⟨hd1, hs1, _⟩ := hb1 _ (Nat.lt_succ_self _)
  obtain ⟨hd2, hs2, _⟩ := hb2 _ (Nat.lt_succ_self _)
  rw [h3] at hs1; cases hs1
  rw [h4] at hs2; cases hs2
  have hdd : d1 = d2 := by
    simp only [partitionModule, hd1, h3] at h1
    simp only [partitionModule, hd2, h4] at h2
    cases h1; cases h2; rfl
  subst hdd
  have hn : n1 = n2 := by
    refine State.Canonical.ext hc1 hc2 ?_
    intro k
    refine Option.ext fun v => ?_
    rw [e2, e2']
  subst hn
  obtain ⟨wx, sx, _, _, hu, wfx, hlx, hvx, hdx, hsx, hpx, _⟩ :=
    like_pieces wf (B.lt hl).1 (B.valid hl) h3 hd1 hc1 e1 e2 hx (Nat.lt_succ_self _)
  obtain ⟨wy, sy, _, _, hu', wfy, hly, hvy, hdy, hsy, hpy, _⟩ :=
    like_pieces wf' (B.lt hl).2 (B.right.valid ⟨l, hl, rfl⟩) h4 hd2 hc1 e1' e2' (hsel ▸ hx) (Nat.lt_succ_self _)
  rw [hx'] at hu'
  cases hu'
  obtain ⟨u2, g, hm, wf2, _, _, _, _, _, _, B2, hg, _⟩ :=
    copyOf wfx wf (by rw [hlx]; exact (B.lt hl).1) hvx hdx hsx hpx 0 none
  obtain ⟨u2', g', hm', _, _, _, _, _, _, _, B2', hg', _⟩ :=
    copyOf wfy wf (by rw [hly]; exact (B.lt hl).2) hvy hdy hsy hpy 0 none
  rw [hm] at hm'
  cases hm'
  have hrx : Reaches wx.heap l l := ⟨[], .here (by rw [hlx]; exact (B.lt hl).1)⟩
  have hry : Reaches wx'.heap (f l) (f l) := ⟨[], .here (by rw [hly]; exact (B.lt hl).2)⟩
  have c2 := hC _ g l wx u2 B2 wfx wf2 hrx (h wx hu)
  obtain ⟨i, B3, hi⟩ := B2'.symm
  have c3 := hC _ i (g l) u2 wx' B3 wf2 wfy ⟨f l, hry, by rw [hg, hg']⟩ c2
  rw [hg, ← hg', hi (f l) hry] at c3
  exact c3

omit [DecidableEq α] in
theorem guarded_parametric {P : Loc → World α → Prop} {F : Loc → World α → World α × Except Err β} (hF : Parametric F) (e : Err)
    (hP : ∀ (S : Loc → Prop) (f : Loc → Loc) (l : Loc) (w w' : World α), Bisim S f w w' → WFWorld w → WFWorld w' → S l → P l w → P (f l) w') :
    Parametric (guarded P e F) := by
  refine ⟨?_, ?_, ?_⟩
  · intro S f l w w' B wf wf' hl
    by_cases h : P l w
    · simp only [guarded, if_pos h, if_pos (hP S f l w w' B wf wf' hl h)]
      exact hF.bisim S f l w w' B wf wf' hl
    · have h' : ¬ P (f l) w' := by
        intro h'
        obtain ⟨i, B', hi⟩ := B.symm
        have := hP _ i (f l) w' w B' wf' wf ⟨l, hl, rfl⟩ h'
        rw [hi l hl] at this
        exact h this
      simp only [guarded, if_neg h, if_neg h']
      exact ⟨S, f, fun a ha => ⟨ha, rfl⟩, B, trivial⟩
  · intro A l w wf hA hl hlt
    unfold guarded
    split
    · exact hF.confined A l w wf hA hl hlt
    · exact .refl wf hA
  · intro l w wf hl
    unfold guarded
    split
    · exact hF.keeps l w wf hl
    · exact .refl w

/-- The condition on the effects of the calls does not distinguish corresponding Modules. -/
theorem Routine.Carried.corresponding (hlaw : GradLaw J.gradOf) (p : Routine α κ L β) : p.Good → ∀ (S : Loc → Prop) (f : Loc → Loc)
    (K : List Loc) (w w' : World α), Bisim S f w w' → WFWorld w → WFWorld w' → (∀ k ∈ K, S k) →
    p.Carried J K w → p.Carried J (K.map f) w' := by
  induction p with
  | ret b => exact fun _ _ _ _ _ _ _ _ _ _ _ => trivial
  | fail e => exact fun _ _ _ _ _ _ _ _ _ _ _ => trivial
  | op o k ih =>
    intro hg S f K w w' B wf wf' hK hc x K' v' hrun
    rcases Op.bisim hg.1 B wf wf' hK with ⟨e, h1, h2⟩ | ⟨y, K1, w1, w1', S1, f1, h1, h2, B1, hS, hK1, wf1, wf1', hx⟩
    · rw [h2] at hrun; cases hrun
    · rw [h2] at hrun
      cases hrun
      exact ih x (hg.2 x hx) S1 f1 K1 w1 v' B1 wf1 wf1' hK1 (hc x K1 w1 h1)
  | call how m body k ihb ih =>
    intro hg S f K w w' B wf wf' hK hc l' hl'
    rw [List.getElem?_map] at hl'
    cases hl : K[m]? with
    | none => rw [hl] at hl'; cases hl'
    | some l =>
      rw [hl] at hl'
      cases hl'
      have hS := hK l (List.mem_of_getElem? hl)
      obtain ⟨hcb, hck⟩ := hc l hl
      have P := hg.1.parametric hlaw
      refine ⟨ihb hg.1 S f [l] w w' B wf wf' (by simpa using hS) hcb, ?_⟩
      intro v' b hv'
      obtain ⟨S1, f1, hS1, B1, he⟩ := P.bisim S f l w w' B wf wf' hS
      have wf1 := P.wf wf (B.lt hS).1
      have wf1' := P.wf wf' (B.lt hS).2
      simp only [hv'] at B1 he wf1'
      have hv : body.plain J [l] w = ((body.plain J [l] w).1, .ok b) := by rw [← he]
      obtain ⟨hn, hk⟩ := hck _ b hv
      refine ⟨fun h1 h2 => (hn h1 h2).corresponding B B1 hS1 hS, ?_⟩
      obtain ⟨S2, f2, B2, hS2⟩ := bisim_if (b := how.kept) B B1 hS1
      have := ih b (hg.2 b) S2 f2 K _ _ B2 (wf_if wf wf1) (wf_if wf' wf1') (fun k hk => (hS2 k (hK k hk)).1) hk
      rwa [List.map_congr_left fun k hk => (hS2 k (hK k hk)).2] at this
  | grad stateful j t wrt loss m body k ihb ih =>
    intro hg S f K w w' B wf wf' hK hc l' hl'
    rw [List.getElem?_map] at hl'
    cases hl : K[m]? with
    | none => rw [hl] at hl'; cases hl'
    | some l =>
      rw [hl] at hl'
      cases hl'
      have hS := hK l (List.mem_of_getElem? hl)
      obtain ⟨hcb, hcx, hck⟩ := hc l hl
      have P := hg.2.1.parametric hlaw
      refine ⟨ihb hg.2.1 S f [l] w w' B wf wf' (by simpa using hS) hcb, ?_, ?_⟩
      · intro x wx hx hux
        rw [selected_bisim B wf wf' hS wrt] at hx
        exact update_corresponding (C := fun l w => body.Carried J [l] w)
          (fun S f l w w' B wf wf' hl h => ihb hg.2.1 S f [l] w w' B wf wf' (by simpa using hl) h)
          B wf wf' hS hg.1 hx (fun wx h => hcx x wx hx h) hux
      intro v' b hv'
      obtain ⟨S1, f1, hS1, B1, he⟩ := P.bisim S f l w w' B wf wf' hS
      have wf1 := P.wf wf (B.lt hS).1
      have wf1' := P.wf wf' (B.lt hS).2
      simp only [hv'] at B1 he wf1'
      have hv : body.plain J [l] w = ((body.plain J [l] w).1, .ok b) := by rw [← he]
      obtain ⟨hn, hk⟩ := hck _ b hv
      refine ⟨fun h1 => (hn h1).corresponding B B1 hS1 hS, ?_⟩
      obtain ⟨S2, f2, B2, hS2⟩ := bisim_if (b := stateful) B B1 hS1
      have := ih _ b (hg.2.2 _ b (hlaw.good _ _)) S2 f2 K _ _ B2 (wf_if wf wf1) (wf_if wf' wf1') (fun k hk => (hS2 k (hK k hk)).1) hk
      rw [List.map_congr_left fun k hk => (hS2 k (hK k hk)).2] at this
      rwa [grad_bisim hlaw (P.withLoss loss) B wf wf' hS hg.1]
  | scan fuel j o out m c xs ctx body k ihb ih =>
    intro hg S f K w w' B wf wf' hK hc l' hl'
    rw [List.getElem?_map] at hl'
    cases hl : K[m]? with
    | none => rw [hl] at hl'; cases hl'
    | some l =>
      rw [hl] at hl'
      cases hl'
      have hS := hK l (List.mem_of_getElem? hl)
      obtain ⟨hcb, hck⟩ := hc l hl
      have P : ∀ ctx c x, Parametric (withOut out (fun ctx c x l w => (body ctx c x).plain J [l] w) ctx c x) := fun ctx c x =>
        ((hg.1 ctx c x).parametric hlaw).withOut out
      have Ps := scanApply_parametric (R := J.arrays) (split := J.split) (fuel := fuel) (o := o) (j := j) P c xs ctx
      obtain ⟨S1, f1, hS1, B1, he⟩ := Ps.bisim S f l w w' B wf wf' hS
      have wf1 := Ps.wf wf (B.lt hS).1
      have wf1' := Ps.wf wf' (B.lt hS).2
      refine ⟨?_, ?_⟩
      · intro e
        have Pg : ∀ ctx c x, Parametric (withOut out (fun ctx c x =>
            guarded (fun l w => (body ctx c x).Carried J [l] w) e fun l w => (body ctx c x).plain J [l] w) ctx c x) := fun ctx c x =>
          (guarded_parametric ((hg.1 ctx c x).parametric hlaw) e fun S f l w w' B wf wf' hl h =>
            ihb ctx c x (hg.1 ctx c x) S f [l] w w' B wf wf' (by simpa using hl) h).withOut out
        obtain ⟨_, _, _, _, hge⟩ := (scanApply_parametric (R := J.arrays) (split := J.split) (fuel := fuel) (o := o) (j := j) Pg
          c xs ctx).bisim S f l w w' B wf wf' hS
        exact (hge.symm.trans (hcb e)).trans he
      · intro v' c' ys hv'
        simp only [hv'] at B1 he wf1'
        have hv : scanApply J.arrays J.split fuel o j l (withOut out fun ctx c x l w => (body ctx c x).plain J [l] w) c xs ctx w =
          (_, .ok (c', ys)) := Prod.ext rfl he
        have := ih c' ys (hg.2 c' ys) S1 f1 K _ _ B1 wf1 wf1' (fun k hk => (hS1 k (hK k hk)).1) (hck _ c' ys hv)
        rwa [List.map_congr_left fun k hk => (hS1 k (hK k hk)).2] at this

end Nnx
