import Verif.Spec.Helpers
import Verif.Proofs.Update
/-
Lemmas for nnx/helpers.py.
-/
namespace Nnx
variable {α : Type} [DecidableEq α]

theorem natStr_inj {m n : Nat} (h : natStr m = natStr n) : m = n := by
  have h1 := Nat.ofDigitChars_toDigits (b := 10) (n := m) (by decide) (by decide)
  have h2 := Nat.ofDigitChars_toDigits (b := 10) (n := n) (by decide) (by decide)
  simp only [natStr] at h
  rw [h] at h1
  omega

theorem natStr_digit {n : Nat} {c : Char} (h : c ∈ natStr n) : c.isDigit = true :=
  Nat.isDigit_of_mem_toDigits (by decide) (by decide) h

theorem natStr_ne_nil (n : Nat) : natStr n ≠ [] := Nat.toDigits_ne_nil

/-- No number is written like a name that starts with something else than a digit. -/
theorem natStr_ne_cons {n : Nat} {c : Char} {s : Str} (hc : c.isDigit = false) : natStr n ≠ c :: s := by
  intro h
  have := natStr_digit (n := n) (c := c) (by rw [h]; simp)
  rw [hc] at this; cases this

omit [DecidableEq α] in
theorem unbox_eq_seen (a : Attr α) : a.unbox = seen a := by
  cases a with
  | ref l => rfl
  | val v => cases v <;> rfl

theorem storedAttr_new {a : Attr α} (h : GoodAttr a) : storedAttr none a = .ok a := by
  cases a with
  | ref l => rfl
  | val v =>
    rw [storedAttr_ok (by intro c x m h; cases h) h (by intro c x m d y n h; cases h)]
    rfl

/-- Assigning new attributes appends them. -/
theorem setAttrAll_new {l : Loc} : ∀ {steps : List (Str × Attr α)} {w : World α} {o : ModObj α},
    w.heap[l]? = some o → w.traceValid o.trace = true → DNodup (o.attrs ++ steps) →
    (∀ s ∈ steps, s.1 ≠ py! "_module__state" ∧ GoodAttr s.2) →
    setAttrAll l steps w = (w.setAttrs l o (o.attrs ++ steps), none)
  | [], w, o, hl, _, _, _ => by
    have : w.setAttrs l o (o.attrs ++ []) = w := by
      rw [World.setAttrs, List.append_nil]
      obtain ⟨hlt, rfl⟩ := List.getElem?_eq_some_iff.1 hl
      have : w.heap.set l { w.heap[l] with attrs := w.heap[l].attrs } = w.heap := List.set_getElem_self hlt
      rw [this]
    rw [setAttrAll, this]
  | (name, a) :: rest, w, o, hl, hv, hn, hg => by
    have hnm : name ∉ dkeys o.attrs := by
      intro hm
      rw [DNodup, dkeys, List.map_append, List.nodup_append] at hn
      exact hn.2.2 name hm name (by simp) rfl
    have hset : setAttr w l name a = .ok (w.setAttrs l o (o.attrs ++ [(name, a)])) := by
      unfold setAttr
      rw [hl]
      simp only [hv, Bool.true_eq_false, if_false, (hg (name, a) (by simp)).1, dget_eq_none.2 hnm,
        storedAttr_new (hg (name, a) (by simp)).2, dset_of_not_mem hnm]
    rw [setAttrAll, hset]
    simp only
    have hlt : l < w.heap.length := (List.getElem?_eq_some_iff.1 hl).1
    have hl' : (w.setAttrs l o (o.attrs ++ [(name, a)])).heap[l]? = some { o with attrs := o.attrs ++ [(name, a)] } := by
      simp [World.setAttrs, hlt]
    rw [setAttrAll_new hl' hv (by simpa using hn) (fun s hs => hg s (by simp [hs]))]
    simp only [World.setAttrs, List.set_set, List.append_assoc, List.cons_append, List.nil_append]

omit [DecidableEq α] in
theorem newModule_get (c : Cls) (w : World α) :
    (newModule c w).1.heap[(newModule c w).2]? = some ⟨c, [], w.nextId + 1, false, w.curTrace⟩ := by
  simp [newModule]

omit [DecidableEq α] in
theorem newModule_valid (c : Cls) (w : World α) : (newModule c w).1.traceValid w.curTrace = true := by
  have : (newModule c w).1.curTrace = w.curTrace := rfl
  simp [World.traceValid, this]

/-- A new object whose `__init__` assigns distinct attributes has exactly those. -/
theorem new_setAttrAll (c : Cls) (w : World α) {steps : List (Str × Attr α)} (hn : DNodup steps)
    (hg : ∀ s ∈ steps, s.1 ≠ py! "_module__state" ∧ GoodAttr s.2) :
    setAttrAll (newModule c w).2 steps (newModule c w).1 =
      ({ (newModule c w).1 with heap := w.heap ++ [⟨c, steps, w.nextId + 1, false, w.curTrace⟩] }, none) := by
  rw [setAttrAll_new (newModule_get c w) (newModule_valid c w) (by simpa using hn) hg]
  simp only [World.setAttrs, newModule, List.nil_append]
  rw [List.set_append_right _ _ (by omega)]
  simp

omit [DecidableEq α] in
theorem getAttr_new {w : World α} {o : ModObj α} {l : Loc} (hl : w.heap[l]? = some o) {name : Str} {a : Attr α}
    (hg : dget o.attrs name = some a) (hp : name ∉ moduleProperties) (hs : name ≠ py! "_module__state") :
    getAttr w l name = .ok (seen a) := by
  unfold getAttr
  rw [hl]
  simp only [hp, hs, or_self, if_false, hg, unbox_eq_seen]

omit [DecidableEq α] in
theorem getAttr_missing {w : World α} {o : ModObj α} {l : Loc} (hl : w.heap[l]? = some o) {name : Str}
    (hg : dget o.attrs name = none) (hp : name ∉ moduleProperties) (hs : name ≠ py! "_module__state")
    (hm : name ∉ o.cls.members) (hu : name.head? ≠ some '_') : getAttr w l name = .error .attributeError := by
  unfold getAttr
  rw [hl]
  simp only [hp, hs, or_self, if_false, hg, hm, hu]

theorem natStr_not_property (n : Nat) : natStr n ∉ moduleProperties := by
  intro h
  simp only [moduleProperties, List.mem_cons, List.not_mem_nil, or_false] at h
  rcases h with h | h | h
  · exact natStr_ne_cons (by decide) h
  · exact natStr_ne_cons (by decide) h
  · exact natStr_ne_cons (by decide) h

omit [DecidableEq α] in
theorem sequenceSteps_nodup (I : PyInts α) (xs : List (Attr α)) : DNodup (sequenceSteps I xs) := by
  rw [DNodup, dkeys, sequenceSteps, List.map_append, List.nodup_append]
  refine ⟨?_, by simp, ?_⟩
  · rw [List.nodup_iff_pairwise_ne, List.pairwise_iff_getElem]
    intro i j hi hj hij h
    simp only [List.getElem_map, List.getElem_mapIdx] at h
    have := natStr_inj h
    omega
  · intro a ha b hb
    simp only [List.map_cons, List.map_nil, List.mem_singleton] at hb
    subst hb
    obtain ⟨p, hp, rfl⟩ := List.mem_map.1 ha
    obtain ⟨i, hi, rfl⟩ := List.mem_mapIdx.1 hp
    exact natStr_ne_cons (by decide)

omit [DecidableEq α] in
theorem sequenceSteps_good (I : PyInts α) {xs : List (Attr α)} (h : ∀ x ∈ xs, GoodAttr x) :
    ∀ s ∈ sequenceSteps I xs, s.1 ≠ py! "_module__state" ∧ GoodAttr s.2 := by
  intro s hs
  rw [sequenceSteps, List.mem_append] at hs
  rcases hs with hs | hs
  · obtain ⟨i, hi, rfl⟩ := List.mem_mapIdx.1 hs
    exact ⟨natStr_ne_cons (by decide), h _ (List.getElem_mem hi)⟩
  · simp only [List.mem_singleton] at hs
    subst hs
    exact ⟨by show kLength ≠ _; decide, .inl trivial⟩

omit [DecidableEq α] in
theorem dget_sequenceSteps (I : PyInts α) {xs : List (Attr α)} {i : Nat} {x : Attr α} (h : xs[i]? = some x) :
    dget (sequenceSteps I xs) (natStr i) = some x := by
  apply mem_dget (sequenceSteps_nodup I xs)
  rw [sequenceSteps, List.mem_append]
  left
  obtain ⟨hi, rfl⟩ := List.getElem?_eq_some_iff.1 h
  exact List.mem_mapIdx.2 ⟨i, hi, rfl⟩

omit [DecidableEq α] in
theorem dget_sequenceSteps_length (I : PyInts α) (xs : List (Attr α)) :
    dget (sequenceSteps I xs) kLength = some (.val (.data cInt (I.ofNat ((xs.length - 1) + 1)))) := by
  apply mem_dget (sequenceSteps_nodup I xs)
  rw [sequenceSteps, List.mem_append]
  right; simp

omit [DecidableEq α] in
theorem dget_sequenceSteps_none (I : PyInts α) {xs : List (Attr α)} {s : Str} (h1 : s ≠ kLength)
    (h2 : ∀ i, i < xs.length → s ≠ natStr i) : dget (sequenceSteps I xs) s = none := by
  rw [dget_eq_none]
  intro h
  obtain ⟨p, hp, rfl⟩ := List.mem_map.1 h
  rw [sequenceSteps, List.mem_append] at hp
  rcases hp with hp | hp
  · obtain ⟨i, hi, rfl⟩ := List.mem_mapIdx.1 hp
    exact h2 i hi rfl
  · simp only [List.mem_singleton] at hp
    subst hp
    exact h1 rfl

omit [DecidableEq α] in
theorem mapE_ok {A B : Type} {f : A → Except Err B} {g : A → B} : ∀ {l : List A}, (∀ a ∈ l, f a = .ok (g a)) →
    sequenceIter.mapE f l = .ok (l.map g)
  | [], _ => rfl
  | a :: l, h => by
    rw [sequenceIter.mapE, h a (by simp), mapE_ok (fun b hb => h b (by simp [hb]))]
    rfl

theorem hasKeywordArg_iff {σ V : Type} (f : Layer σ V) : hasKeywordArg f.params (py! "ctx") = true ↔ AcceptsCtx f := by
  rw [hasKeywordArg, List.any_eq_true]
  constructor
  · rintro ⟨⟨n, k⟩, hm, h⟩
    simp only [Bool.and_eq_true, Bool.or_eq_true, decide_eq_true_eq] at h
    obtain ⟨rfl, h⟩ := h
    exact ⟨k, hm, h⟩
  · rintro ⟨k, hm, h⟩
    refine ⟨_, hm, ?_⟩
    simp only [Bool.and_eq_true, Bool.or_eq_true, decide_eq_true_eq]
    exact ⟨trivial, h⟩

theorem withCtx_iff {σ V : Type} (ctx : Option V) (f : Layer σ V) (kw : Dict Str V) : WithCtx ctx f kw (addCtx ctx f kw) := by
  constructor
  · rintro c rfl ha
    rw [addCtx, if_pos ((hasKeywordArg_iff f).2 ha)]
    exact ⟨dget_dset_self _ _ _, fun k hk => dget_dset_ne _ _ (fun e => hk e.symm)⟩
  · rintro (rfl | h)
    · rfl
    · cases ctx with
      | none => rfl
      | some c => rw [addCtx, if_neg (by rw [hasKeywordArg_iff]; exact h)]

theorem passedAs {V : Type} (o : Out V) : PassedAs o (nextArgs o).1 (nextArgs o).2 := by
  cases o <;> constructor

/-- The loop runs the pipeline of the layers it fetches. -/
theorem sequenceLoop_pipeline {σ V : Type} {fetch : Nat → σ → Except Err (Layer σ V)} {ctx : Option V} (inv : σ → Prop) :
    ∀ (fs : List (Layer σ V)) (f : Layer σ V) (i : Nat) (args : List V) (kw : Dict Str V) (out : Out V) (s : σ),
      inv s → (∀ j g, (f :: fs)[j]? = some g → ∀ s, inv s → fetch (i + j) s = .ok g) →
      (∀ g ∈ f :: fs, ∀ a k s, inv s → inv (g.run a k s).1) →
      ∃ s' r, sequenceLoop fetch ctx (fs.length + 1) i args kw out s = (s', r) ∧
        Pipeline ctx (f :: fs) (if i > 0 then (nextArgs out).1 else args) (if i > 0 then (nextArgs out).2 else kw) s s' r
  | fs, f, i, args, kw, out, s, hs, hf, hinv => by
    have h0 : fetch i s = .ok f := hf 0 f rfl s hs
    rw [sequenceLoop, h0]
    simp only
    by_cases hc : f.callable = false
    · rw [if_pos hc]
      exact ⟨_, _, rfl, .notCallable hc⟩
    · rw [if_neg hc]
      have hc' : f.callable = true := by simpa using hc
      have hargs : (if i > 0 then nextArgs out else (args, kw)) =
          ((if i > 0 then (nextArgs out).1 else args), (if i > 0 then (nextArgs out).2 else kw)) := by
        split <;> rfl
      rw [hargs]
      simp only
      generalize (if i > 0 then (nextArgs out).1 else args) = a
      generalize (if i > 0 then (nextArgs out).2 else kw) = k
      cases hr : f.run a (addCtx ctx f k) s with
      | mk s1 r1 =>
        have hs1 : inv s1 := by
          have := hinv f (by simp) a (addCtx ctx f k) s hs
          rw [hr] at this; exact this
        cases r1 with
        | error e =>
          refine ⟨_, _, rfl, ?_⟩
          cases fs with
          | nil => exact .last hc' (withCtx_iff ctx f k) hr
          | cons g fs => exact .raise hc' (withCtx_iff ctx f k) hr
        | ok o =>
          simp only
          cases fs with
          | nil => exact ⟨_, _, rfl, .last hc' (withCtx_iff ctx f k) hr⟩
          | cons g fs =>
            obtain ⟨s', r, h1, h2⟩ := sequenceLoop_pipeline (fetch := fetch) (ctx := ctx) inv fs g (i + 1) a k o s1 hs1
              (fun j g' hg s hs => by
                have := hf (j + 1) g' (by simpa using hg) s hs
                rw [← this]; congr 1; omega)
              (fun g' hg => hinv g' (by simp at hg ⊢; tauto))
            rw [if_pos (by omega), if_pos (by omega)] at h2
            exact ⟨s', r, h1, .next hc' (withCtx_iff ctx f k) hr (passedAs o) h2⟩

end Nnx
