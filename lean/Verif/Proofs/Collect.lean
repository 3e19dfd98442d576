import Verif.Spec.Collect
import Verif.Props.ModuleCalls
import Verif.Props.ModulePop
import Verif.Proofs.ModelDict
/-
Running events with and without the calls of `sow`.
-/
namespace Nnx
variable {α : Type} [DecidableEq α]

omit [DecidableEq α] in
theorem SameObjects.symm {w w' : World α} (h : SameObjects w w') : SameObjects w' w := by
  refine ⟨h.len.symm, fun l o o' e e' => ?_, h.nextId.symm, h.jax.symm, h.stack.symm⟩
  obtain ⟨h1, h2, h3, h4⟩ := h.obj l o' o e' e
  exact ⟨h1.symm, h2.symm, h3.symm, h4.symm⟩

omit [DecidableEq α] in
theorem sown_nil_iff {cs : List (SowCall α)} {l : Loc} {n : Str} : sown cs l n = [] ↔ ∀ c ∈ cs, ¬ (c.module = l ∧ c.name = n) := by
  simp [sown, List.filter_eq_nil_iff]

omit [DecidableEq α] in
theorem sown_append (cs ds : List (SowCall α)) (l : Loc) (n : Str) : sown (cs ++ ds) l n = sown cs l n ++ sown ds l n := by
  simp [sown]

omit [DecidableEq α] in
theorem sown_one (c : SowCall α) (l : Loc) (n : Str) : sown [c] l n = if c.module = l ∧ c.name = n then [c.value] else [] := by
  by_cases h : c.module = l ∧ c.name = n
  · simp [sown, h]
  · simp [sown, h]

/-- The first world is the second with what the calls have sown. -/
structure SownOver (cs : List (SowCall α)) (w1 w2 : World α) : Prop where
  same : SameObjects w2 w1
  off : ∀ l n, sown cs l n = [] → attrAt w1.heap l n = attrAt w2.heap l n
  on : ∀ l n, sown cs l n ≠ [] → attrAt w2.heap l n = none ∧
    ∃ T m, attrAt w1.heap l n = some (.val (.cont T (.tup (sown cs l n)) m)) ∧ WFContainer (.cont T (.tup (sown cs l n)) m) ∧
      ∀ c ∈ cs, c.module = l → c.name = n → c.type = T

theorem runEvents_sim : ∀ (es : List (CallEvent α)) (S : List (SowCall α)) {w1 w2 w1' : World α}, SownOver S w1 w2 →
    WFWorld w1 → WFWorld w2 → runEvents es w1 = (w1', none) →
    (∀ c ∈ S ++ eventSows es, GoodName c.name ∧ attrAt w2.heap c.module c.name = none) →
    (∀ l n v, .assign l n v ∈ es → GoodName n ∧ WFVal v ∧ sown (S ++ eventSows es) l n = []) →
    ∃ w2', runEvents (withoutSows es) w2 = (w2', none) ∧ SownOver (S ++ eventSows es) w1' w2' ∧ WFWorld w1' ∧ WFWorld w2'
  | [], S, w1, w2, w1', R, wf1, wf2, e, _, _ => by
    obtain ⟨rfl, _⟩ := Prod.mk.inj e
    exact ⟨w2, rfl, by simpa [eventSows] using R, wf1, wf2⟩
  | .sow c :: es, S, w1, w2, w1', R, wf1, wf2, e, hs, ha => by
    simp only [runEvents] at e
    split at e
    · simp at e
    next w1a h1 =>
    obtain ⟨hso, hother, xs, m, hat, hwc, hcase⟩ := sow_ok wf1.heap.conts h1
    obtain ⟨hgn, hfree⟩ := hs c (by simp [eventSows])
    have wf1a : WFWorld w1a := (confined_sow wf1 (A := fun _ => True) (fun _ _ _ _ _ => trivial) trivial hgn h1).1.wf
    have hxs : xs = sown S c.module c.name := by
      by_cases hn : sown S c.module c.name = []
      · have := R.off _ _ hn
        rw [hfree] at this
        rcases hcase with h | h
        · rw [h.2, hn]
        · rw [this] at h; cases h
      · obtain ⟨_, T, m', h', _, _⟩ := R.on _ _ hn
        rcases hcase with h | h
        · rw [h.1] at h'; cases h'
        · rw [h] at h'; cases h'; rfl
    have R' : SownOver (S ++ [c]) w1a w2 := by
      refine ⟨R.same.trans hso, fun l n hn => ?_, fun l n hn => ?_⟩
      · rw [sown_append, sown_one, List.append_eq_nil_iff] at hn
        have hne : ¬ (c.module = l ∧ c.name = n) := by
          intro h; rw [if_pos h] at hn; exact absurd hn.2 (by simp)
        rw [hother l n (by rintro h; cases h; exact hne ⟨rfl, rfl⟩)]
        exact R.off l n hn.1
      · by_cases he : c.module = l ∧ c.name = n
        · obtain ⟨rfl, rfl⟩ := he
          refine ⟨hfree, c.type, m, ?_, ?_, ?_⟩
          · rw [hat, hxs, sown_append, sown_one, if_pos ⟨rfl, rfl⟩]
          · rw [sown_append, sown_one, if_pos ⟨rfl, rfl⟩, ← hxs]; exact hwc
          · intro d hd h1 h2
            rcases List.mem_append.1 hd with hd | hd
            · have hne : sown S c.module c.name ≠ [] := fun h => sown_nil_iff.1 h d hd ⟨h1, h2⟩
              obtain ⟨_, T, m', h', _, hT⟩ := R.on _ _ hne
              rw [hT d hd h1 h2]
              rcases hcase with h | h
              · rw [h.1] at h'; cases h'
              · rw [h] at h'; cases h'; rfl
            · rw [List.mem_singleton] at hd; rw [hd]
        · have hn' : sown S l n ≠ [] := by
            rw [sown_append, sown_one, if_neg he, List.append_nil] at hn; exact hn
          obtain ⟨h1, T, m', h2, h3, h4⟩ := R.on l n hn'
          refine ⟨h1, T, m', ?_, ?_, ?_⟩
          · rw [hother l n (by rintro h; cases h; exact he ⟨rfl, rfl⟩), h2, sown_append, sown_one, if_neg he, List.append_nil]
          · rw [sown_append, sown_one, if_neg he, List.append_nil]; exact h3
          · intro d hd e1 e2
            rcases List.mem_append.1 hd with hd | hd
            · exact h4 d hd e1 e2
            · rw [List.mem_singleton] at hd; subst hd; exact absurd ⟨e1, e2⟩ he
    have hcat : S ++ eventSows (.sow c :: es) = (S ++ [c]) ++ eventSows es := by simp [eventSows]
    rw [hcat] at hs ha ⊢
    exact runEvents_sim es (S ++ [c]) R' wf1a wf2 e hs (fun l n v h => ha l n v (List.mem_cons_of_mem _ h))
  | .assign l n v :: es, S, w1, w2, w1', R, wf1, wf2, e, hs, ha => by
    simp only [runEvents] at e
    split at e
    · simp at e
    next w1a h1 =>
    obtain ⟨hgn, hv, hno⟩ := ha l n v List.mem_cons_self
    have hall : eventSows (.assign l n v :: es) = eventSows es := rfl
    rw [hall] at hs ha hno ⊢
    rw [sown_append, List.append_eq_nil_iff] at hno
    have hcell := R.off l n hno.1
    obtain ⟨o, a, ho, ht, hne, hst, hw1⟩ := setAttr_ok_iff.1 h1
    have hl2 : l < w2.heap.length := by rw [← R.same.len]; exact (List.getElem?_eq_some_iff.1 ho).1
    have ho2 : w2.heap[l]? = some w2.heap[l] := List.getElem?_eq_getElem hl2
    obtain ⟨_, _, _, htr⟩ := R.same.obj l _ o ho2 ho
    have h2 : setAttr w2 l n (.val v) = .ok (w2.setAttrs l w2.heap[l] (dset w2.heap[l].attrs n a)) := by
      refine setAttr_ok_iff.2 ⟨_, a, ho2, ?_, hne, by rw [← hcell]; exact hst, rfl⟩
      rw [← htr]
      simpa [World.traceValid, World.curTrace, R.same.jax, R.same.stack] using ht
    have c1 := attrAt_setAttrs ho n a
    have c2 := attrAt_setAttrs ho2 n a
    rw [← hw1] at c1
    have wf1a := (setAttr_cell wf1 hgn hv h1).1.wf
    have wf2a := (setAttr_cell wf2 hgn hv h2).1.wf
    generalize hw2 : w2.setAttrs l w2.heap[l] (dset w2.heap[l].attrs n a) = w2a at h2 c2 wf2a
    have so1 : SameObjects w1 w1a := hw1 ▸ .setAttrs ho _
    have so2 : SameObjects w2 w2a := hw2 ▸ .setAttrs ho2 _
    have R' : SownOver S w1a w2a := by
      refine ⟨so2.symm.trans (R.same.trans so1), fun l' n' hn => ?_, fun l' n' hn => ?_⟩
      · rw [c1, c2]
        split
        · rfl
        · exact R.off l' n' hn
      · have hd : ¬ (l' = l ∧ n' = n) := by rintro ⟨rfl, rfl⟩; exact hn hno.1
        rw [c1, c2, if_neg hd, if_neg hd]
        exact R.on l' n' hn
    obtain ⟨w2', hr, h⟩ := runEvents_sim es S R' wf1a wf2a e (fun c hc => ⟨(hs c hc).1, by
      rw [c2, if_neg]
      · exact (hs c hc).2
      · rintro ⟨h1, h2⟩
        have : sown (S ++ eventSows es) l n = [] := by rw [sown_append, hno.1, hno.2]; rfl
        exact sown_nil_iff.1 this c hc ⟨h1, h2⟩⟩) (fun l' n' v' h => ha l' n' v' (List.mem_cons_of_mem _ h))
    exact ⟨w2', by simp only [withoutSows, runEvents, h2]; exact hr, h⟩

end Nnx
