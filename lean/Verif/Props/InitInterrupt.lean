import Verif.Model.InitInterrupt
import Verif.Spec.InitInterrupt
import Verif.Props.ModuleCalls
import Verif.Props.Cost
import Verif.Props.Jit
/-
C137: an interrupted init.
-/
namespace Nnx
variable {α : Type} [DecidableEq α]

omit [DecidableEq α] in
theorem runCalls_flagged (b : Bool) (ls : List Loc) (w : World α) (h : ∀ l ∈ ls, l < w.heap.length) :
    ∃ w', runCalls (setIsInit b) ls w = (w', none) ∧ Flagged w w' ls b := by
  obtain ⟨w', h1, h2, h3, h4⟩ := runCalls_setIsInit b ls w h
  exact ⟨w', h1, h2, h3, h4⟩

omit [DecidableEq α] in
theorem runCalls_upTo (kbd : Err) (b : Bool) : ∀ (ls : List Loc) (n : Nat) (w : World α), (∀ l ∈ ls, l < w.heap.length) →
    ∃ x, runCalls (setIsInitUpTo kbd b) ls (n, w) = ((n - ls.length, x), if ls.length ≤ n then none else some kbd) ∧ Flagged w x (ls.take n) b
  | [], n, w, _ => ⟨w, by simp [runCalls], rfl, by simp, rfl, rfl, rfl⟩
  | a :: ls, 0, w, _ => ⟨w, by simp [runCalls, setIsInitUpTo], rfl, by simp, rfl, rfl, rfl⟩
  | a :: ls, n + 1, w, h => by
    have ha := h a List.mem_cons_self
    have e := List.getElem?_eq_getElem ha
    obtain ⟨x, h1, h2⟩ := runCalls_upTo kbd b ls n { w with heap := w.heap.set a { w.heap[a] with isInit := b } }
      (by intro l hm; simpa using h l (List.mem_cons_of_mem _ hm))
    refine ⟨x, ?_, by simpa using h2.len, ?_, h2.rest⟩
    · simp only [runCalls, setIsInitUpTo, setIsInit, e, List.length_cons, Nat.add_le_add_iff_right, Nat.add_sub_add_right]
      exact h1
    · intro l o ho
      rw [List.take_succ_cons]
      by_cases hla : l = a
      · subst hla
        rw [e] at ho; cases ho
        rw [h2.obj l _ (List.getElem?_set_self ha)]
        by_cases hm : l ∈ ls.take n <;> simp [hm]
      · rw [h2.obj l o (by rw [List.getElem?_set, if_neg (fun e => hla e.symm)]; exact ho)]
        simp [hla]

omit [DecidableEq α] in
theorem setIsInitUpTo_sameRefs (kbd : Err) (b : Bool) (l : Loc) (s : Nat × World α) : SameRefs s.2.heap (setIsInitUpTo kbd b l s).1.2.heap := by
  obtain ⟨n, w⟩ := s
  cases n with
  | zero => exact .refl _
  | succ n => exact setIsInit_sameRefs b l w

omit [DecidableEq α] in
/-- A loop over the Modules that can be reached from `root`. -/
theorem forEach_upTo {w : World α} (wf : WFHeap w.heap) (hmod : ∀ (l : Loc) (o : ModObj α), w.heap[l]? = some o → o.cls.isSub cModule = true) {root : Loc} (hroot : root < w.heap.length)
    {fuel : Nat} (hf : w.heap.length < fuel) {mods : List Loc} (hm : Lists w.heap root mods) (kbd : Err) (b : Bool) (n : Nat) :
    ∃ x ls, forEach (fun s : Nat × World α => s.2.heap) fuel root cModule (setIsInitUpTo kbd b) (n, w) = ((n - mods.length, x), if mods.length ≤ n then none else some kbd) ∧
      ls.Nodup ∧ ls.length = min n mods.length ∧ (∀ l ∈ ls, l ∈ mods) ∧ Flagged w x ls b := by
  obtain ⟨ls, hn, hls, he⟩ := C18_for_each (heapOf := fun s : Nat × World α => s.2.heap) (fn := setIsInitUpTo kbd b) (s := (n, w)) wf hroot hf cModule
    (setIsInitUpTo_sameRefs kbd b)
  have hmem : ∀ l, l ∈ ls ↔ l ∈ mods := by
    intro l
    rw [hls l, hm.2 l]
    refine ⟨fun h => h.1, fun h => ⟨h, ?_⟩⟩
    obtain ⟨p, hp⟩ := h
    exact ⟨_, List.getElem?_eq_getElem hp.lt, hmod l _ (List.getElem?_eq_getElem hp.lt)⟩
  have hlen : ls.length = mods.length := ((List.perm_ext_iff_of_nodup hn hm.1).2 hmem).length_eq
  obtain ⟨x, h1, h2⟩ := runCalls_upTo kbd b ls n w (by
    intro l hl
    obtain ⟨⟨p, hp⟩, _⟩ := (hls l).1 hl
    exact hp.lt)
  refine ⟨x, ls.take n, ?_, hn.sublist (List.take_sublist n ls), ?_, fun l hl => (hmem l).1 (List.mem_of_mem_take hl), h2⟩
  · rw [he, h1, hlen]
  · rw [List.length_take, hlen]

omit [DecidableEq α] in
theorem Flagged.all {w x : World α} {ls mods : List Loc} {b : Bool} (f : Flagged w x ls b) {root : Loc} (hm : Lists w.heap root mods) (hn : ls.Nodup) (hl : ls.length = mods.length)
    (hs : ∀ l ∈ ls, l ∈ mods) (hmod : ∀ (l : Loc) (o : ModObj α), w.heap[l]? = some o → o.cls.isSub cModule = true) : Marked w x root b := by
  have hmem : ∀ l, l ∈ ls ↔ l ∈ mods := by
    have := (hn.subperm hs).perm_of_length_le (Nat.le_of_eq hl.symm)
    exact fun l => this.mem_iff
  refine ⟨?_, ?_, f.rest⟩
  · intro l o hr ho _
    rw [f.obj l o ho, if_pos ((hmem l).2 ((hm.2 l).2 hr))]
  · intro l h
    cases ho : w.heap[l]? with
    | none =>
      rw [List.getElem?_eq_none_iff] at ho ⊢
      rw [f.len]; exact ho
    | some o =>
      rw [f.obj l o ho, if_neg]
      intro hl'
      rcases h with h | h
      · exact h ((hm.2 l).1 ((hmem l).1 hl'))
      · have := h o ho
        rw [hmod l o ho] at this
        cases this

omit [DecidableEq α] in
/-- **C137, stopped before the method.** When init is interrupted after `n` of the `mods.length` reachable Modules have been marked, the method has not been called, the exception comes
out, and `n` of the Modules stay marked as initializing; nothing else has changed. -/
theorem C137_marking {β : Type} {w : World α} (wf : WFHeap w.heap) (hmod : ∀ (l : Loc) (o : ModObj α), w.heap[l]? = some o → o.cls.isSub cModule = true) {root : Loc}
    (hroot : root < w.heap.length) {fuel : Nat} (hf : w.heap.length < fuel) {mods : List Loc} (hm : Lists w.heap root mods) (kbd : Err) {n : Nat} (hn : n < mods.length) :
    ∃ x ls, ls.Nodup ∧ ls.length = n ∧ (∀ l ∈ ls, l ∈ mods) ∧ Flagged w x ls true ∧
      ∀ body : World α → World α × Except Err β, initInterrupted kbd n fuel root body w = (x, .error kbd) := by
  obtain ⟨x, ls, h1, h2, h3, h4, h5⟩ := forEach_upTo wf hmod hroot hf hm kbd true n
  refine ⟨x, ls, h2, by omega, h4, h5, fun body => ?_⟩
  rw [if_neg (by omega)] at h1
  simp only [initInterrupted, h1]

omit [DecidableEq α] in
/-- **C137, stopped after the method.** When init is interrupted while it takes the marks away, the exception replaces the result of the method, what the method has done stays, and all
but `n - mods.length` of the Modules that can be reached now keep their marks. With more time, it is the complete call (C19). -/
theorem C137_unmarking {β : Type} {w : World α} (wf : WFHeap w.heap) (hmod : ∀ (l : Loc) (o : ModObj α), w.heap[l]? = some o → o.cls.isSub cModule = true) {root : Loc}
    (hroot : root < w.heap.length) {fuel : Nat} (hf : w.heap.length < fuel) {mods : List Loc} (hm : Lists w.heap root mods) (kbd : Err) {n : Nat} (hn : mods.length ≤ n)
    (body : World α → World α × Except Err β) :
    ∃ w1, Marked w w1 root true ∧ ∀ w2 r, body w1 = (w2, r) → WFHeap w2.heap → (∀ (l : Loc) (o : ModObj α), w2.heap[l]? = some o → o.cls.isSub cModule = true) →
      root < w2.heap.length → w2.heap.length < fuel → ∀ mods2, Lists w2.heap root mods2 →
      (n < mods.length + mods2.length → ∃ x ls, initInterrupted kbd n fuel root body w = (x, .error kbd) ∧
        ls.Nodup ∧ ls.length = n - mods.length ∧ (∀ l ∈ ls, l ∈ mods2) ∧ Flagged w2 x ls false) ∧
      (mods.length + mods2.length ≤ n → ∃ w3, initInterrupted kbd n fuel root body w = (w3, r) ∧ Marked w2 w3 root false) := by
  obtain ⟨w1, ls, h1, h2, h3, h4, h5⟩ := forEach_upTo wf hmod hroot hf hm kbd true n
  rw [if_pos hn] at h1
  refine ⟨w1, h5.all hm h2 (by omega) h4 hmod, ?_⟩
  intro w2 r hb wf2 hmod2 hr2 hf2 mods2 hm2
  obtain ⟨x, ls2, g1, g2, g3, g4, g5⟩ := forEach_upTo wf2 hmod2 hr2 hf2 hm2 kbd false (n - mods.length)
  constructor
  · intro hlt
    rw [if_neg (by omega)] at g1
    exact ⟨x, ls2, by simp only [initInterrupted, h1, hb, g1], g2, by omega, g4, g5⟩
  · intro hle
    rw [if_pos (by omega)] at g1
    exact ⟨x, by simp only [initInterrupted, h1, hb, g1], g5.all hm2 g2 (by omega) g4 hmod2⟩

omit [DecidableEq α] in
theorem Flagged.attr {w x : World α} {ls : List Loc} {b : Bool} (f : Flagged w x ls b) (l : Loc) (m : Str) : attrAt x.heap l m = attrAt w.heap l m := by
  unfold attrAt
  cases ho : w.heap[l]? with
  | none =>
    have : x.heap[l]? = none := by
      rw [List.getElem?_eq_none_iff] at ho ⊢
      rw [f.len]; exact ho
    rw [this]
  | some o =>
    rw [f.obj l o ho]
    by_cases h : l ∈ ls <;> simp [h]

omit [DecidableEq α] in
theorem Flagged.back {w x : World α} {ls : List Loc} {b : Bool} (f : Flagged w x ls b) {l : Loc} {o : ModObj α} (h : x.heap[l]? = some o) :
    ∃ o', w.heap[l]? = some o' ∧ o = if l ∈ ls then { o' with isInit := b } else o' := by
  have hl := (List.getElem?_eq_some_iff.1 h).1
  rw [f.len] at hl
  have e := List.getElem?_eq_getElem hl
  refine ⟨_, e, ?_⟩
  have := f.obj l _ e
  rw [h] at this
  exact Option.some.inj this

omit [DecidableEq α] in
theorem Flagged.wf {w x : World α} {ls : List Loc} {b : Bool} (f : Flagged w x ls b) (wf : WFHeap w.heap) : WFHeap x.heap := by
  have hsame : ∀ {l : Loc} {o : ModObj α}, x.heap[l]? = some o → ∃ o', w.heap[l]? = some o' ∧ o.attrs = o'.attrs ∧ o.uid = o'.uid := by
    intro l o h
    obtain ⟨o', h1, h2⟩ := f.back h
    refine ⟨o', h1, ?_⟩
    rw [h2]
    by_cases h : l ∈ ls <;> simp [h]
  refine ⟨?_, ?_, ?_, ?_, ?_, ?_⟩
  · intro l o h
    obtain ⟨o', h1, h2, _⟩ := hsame h
    rw [h2]; exact wf.nodup l o' h1
  · intro l m l' h
    rw [f.attr] at h
    rw [f.len]; exact wf.refs l m l' h
  · intro l l' o o' h h' e
    obtain ⟨p, p1, _, p3⟩ := hsame h
    obtain ⟨q, q1, _, q3⟩ := hsame h'
    exact wf.uids l l' p q p1 q1 (by rw [← p3, ← q3, e])
  · intro l m c v md h
    rw [f.attr] at h
    exact wf.conts l m c v md h
  · intro l m a h
    rw [f.attr] at h
    exact wf.slash l m a h
  · intro l m a h
    rw [f.attr] at h
    exact wf.reserved l m a h

omit [DecidableEq α] in
theorem Flagged.reaches {w x : World α} {ls : List Loc} {b : Bool} (f : Flagged w x ls b) {a c : Loc} : Reaches x.heap a c ↔ Reaches w.heap a c := by
  constructor
  · rintro ⟨p, hp⟩
    induction hp with
    | here h => exact ⟨[], .here (by rw [← f.len]; exact h)⟩
    | step e _ ih =>
      obtain ⟨q, hq⟩ := ih
      exact ⟨_, .step (by rw [← f.attr]; exact e) hq⟩
  · rintro ⟨p, hp⟩
    induction hp with
    | here h => exact ⟨[], .here (by rw [f.len]; exact h)⟩
    | step e _ ih =>
      obtain ⟨q, hq⟩ := ih
      exact ⟨_, .step (by rw [f.attr]; exact e) hq⟩

omit [DecidableEq α] in
/-- **C137, repeated.** Marks that an interrupted init has left on Modules that can be reached, or has taken away, make no difference to the next init of the same Module: every method
gives the same result, and leaves the same world. -/
theorem C137_repeat {β : Type} {w x : World α} (wf : WFHeap w.heap) (hmod : ∀ (l : Loc) (o : ModObj α), w.heap[l]? = some o → o.cls.isSub cModule = true) {root : Loc}
    (hroot : root < w.heap.length) {fuel : Nat} (hf : w.heap.length < fuel) {ls : List Loc} {b : Bool} (hx : Flagged w x ls b) (hls : ∀ l ∈ ls, Reaches w.heap root l)
    (body : World α → World α × Except Err β) : initCall fuel root body x = initCall fuel root body w := by
  obtain ⟨w1, h1, m1⟩ := forEach_marked wf hroot hf true
  obtain ⟨x1, g1, k1⟩ := forEach_marked (hx.wf wf) (root := root) (by rw [hx.len]; exact hroot) (by rw [hx.len]; exact hf) true
  have hheap : x1.heap = w1.heap := by
    apply List.ext_getElem?
    intro l
    by_cases hr : Reaches w.heap root l
    · obtain ⟨p, hp⟩ := id hr
      have e := List.getElem?_eq_getElem hp.lt
      have hs := hmod l _ e
      rw [m1.inside l _ hr e hs]
      have ex := hx.obj l _ e
      rw [k1.inside l _ (hx.reaches.2 hr) ex (by by_cases h : l ∈ ls <;> simpa [h] using hs)]
      by_cases h : l ∈ ls <;> simp [h]
    · rw [m1.outside l (.inl hr), k1.outside l (.inl fun h => hr (hx.reaches.1 h))]
      cases ho : w.heap[l]? with
      | none =>
        rw [List.getElem?_eq_none_iff] at ho ⊢
        rw [hx.len]; exact ho
      | some o =>
        rw [hx.obj l o ho, if_neg (fun h => hr (hls l h))]
  have hw : x1 = w1 := by
    obtain ⟨a1, a2, a3⟩ := m1.rest
    obtain ⟨b1, b2, b3⟩ := k1.rest
    obtain ⟨c1, c2, c3⟩ := hx.rest
    cases x1; cases w1
    simp only at hheap a1 a2 a3 b1 b2 b3
    subst hheap
    simp only [World.mk.injEq, true_and]
    exact ⟨by rw [a1, b1, c1], by rw [a2, b2, c2], by rw [a3, b3, c3]⟩
  simp only [initCall, h1, g1, hw]

omit [DecidableEq α] in
theorem Flagged.heap {w x : World α} {ls : List Loc} {b : Bool} (f : Flagged w x ls b) (l : Loc) :
    x.heap[l]? = (w.heap[l]?).map fun o => if l ∈ ls then { o with isInit := b } else o := by
  cases ho : w.heap[l]? with
  | none =>
    rw [List.getElem?_eq_none_iff] at ho
    rw [Option.map_none, List.getElem?_eq_none_iff, f.len]; exact ho
  | some o => exact f.obj l o ho

omit [DecidableEq α] in
theorem Flagged.iter {w x : World α} {ls : List Loc} {b : Bool} (f : Flagged w x ls b) (fuel : Nat) : iterStateRec x.heap fuel = iterStateRec w.heap fuel := by
  induction fuel with
  | zero => rfl
  | succ fuel ih =>
    funext l seen parts
    simp only [iterStateRec, ih, f.heap l]
    cases w.heap[l]? with
    | none => rfl
    | some o => by_cases h : l ∈ ls <;> simp [h]

omit [DecidableEq α] in
/-- A definition, or the index of one, without flags. -/
def defNoFlags (r : (Nat ⊕ ModuleDef α) × List Nat) : (Nat ⊕ ModuleDef α) × List Nat := (r.1.map id ModuleDef.noFlags, r.2)

omit [DecidableEq α] in
theorem Subs.noFlags_cons {n : Str} {d d' : Nat ⊕ ModuleDef α} {s s' : Subs α} (hd : d.map id ModuleDef.noFlags = d'.map id ModuleDef.noFlags) (hs : s.noFlags = s'.noFlags) :
    (Subs.cons n d s).noFlags = (Subs.cons n d' s').noFlags := by
  cases d <;> cases d' <;> simp_all [Subs.cons, Subs.noFlags, ModuleDef.noFlags]

omit [DecidableEq α] in
theorem makeDefAttrs_noFlags {rec rec' : Loc → List Nat → Option ((Nat ⊕ ModuleDef α) × List Nat)} (h : ∀ l idx, (rec l idx).map defNoFlags = (rec' l idx).map defNoFlags) :
    ∀ (as : List (Str × Attr α)) (idx : List Nat), (makeDefAttrs rec as idx).map (fun r => (r.1.noFlags, r.2)) = (makeDefAttrs rec' as idx).map (fun r => (r.1.noFlags, r.2))
  | [], _ => rfl
  | (name, .ref l) :: rest, idx => by
    have hl := h l idx
    simp only [makeDefAttrs]
    cases e : rec l idx with
    | none =>
      rw [e] at hl
      cases e' : rec' l idx with
      | none => rfl
      | some r => rw [e'] at hl; cases hl
    | some r =>
      rw [e] at hl
      cases e' : rec' l idx with
      | none => rw [e'] at hl; cases hl
      | some r' =>
        rw [e'] at hl
        obtain ⟨d, i⟩ := r
        obtain ⟨d', i'⟩ := r'
        simp only [Option.map_some, Option.some.injEq, defNoFlags, Prod.mk.injEq] at hl
        obtain ⟨hd, rfl⟩ := hl
        have ih := makeDefAttrs_noFlags h rest i
        simp only
        cases g : makeDefAttrs rec rest i with
        | none =>
          rw [g] at ih
          cases g' : makeDefAttrs rec' rest i with
          | none => rfl
          | some q => rw [g'] at ih; cases ih
        | some q =>
          rw [g] at ih
          cases g' : makeDefAttrs rec' rest i with
          | none => rw [g'] at ih; cases ih
          | some q' =>
            rw [g'] at ih
            obtain ⟨s, t⟩ := q
            obtain ⟨s', t'⟩ := q'
            simp only [Option.map_some, Option.some.injEq, Prod.mk.injEq] at ih
            obtain ⟨hs, rfl⟩ := ih
            simp only [Option.map_some, Subs.noFlags_cons hd hs]
  | (name, .val v) :: rest, idx => by
    have ih := makeDefAttrs_noFlags h rest idx
    simp only [makeDefAttrs]
    cases g : makeDefAttrs rec rest idx with
    | none =>
      rw [g] at ih
      cases g' : makeDefAttrs rec' rest idx with
      | none => rfl
      | some q => rw [g'] at ih; cases ih
    | some q =>
      rw [g] at ih
      cases g' : makeDefAttrs rec' rest idx with
      | none => rw [g'] at ih; cases ih
      | some q' =>
        rw [g'] at ih
        obtain ⟨s, t⟩ := q
        obtain ⟨s', t'⟩ := q'
        simp only [Option.map_some, Option.some.injEq, Prod.mk.injEq] at ih
        obtain ⟨hs, rfl⟩ := ih
        simp only
        split <;> simp only [Option.map_some, hs]

omit [DecidableEq α] in
theorem Flagged.makeDef {w x : World α} {ls : List Loc} {b : Bool} (f : Flagged w x ls b) : ∀ (fuel : Nat) (l : Loc) (idx : List Nat),
    (makeDefRec x.heap fuel l idx).map defNoFlags = (makeDefRec w.heap fuel l idx).map defNoFlags
  | 0, _, _ => rfl
  | fuel + 1, l, idx => by
    simp only [makeDefRec, f.heap l]
    cases w.heap[l]? with
    | none => rfl
    | some o =>
      have hu : (if l ∈ ls then { o with isInit := b } else o).uid = o.uid := by split <;> rfl
      have ha : (if l ∈ ls then { o with isInit := b } else o).attrs = o.attrs := by split <;> rfl
      have hc : (if l ∈ ls then { o with isInit := b } else o).cls = o.cls := by split <;> rfl
      simp only [Option.map_some, hu, ha, hc]
      split
      · rfl
      · have ih := makeDefAttrs_noFlags (f.makeDef fuel) (sortItems o.attrs) (idx ++ [o.uid])
        cases g : makeDefAttrs (makeDefRec x.heap fuel) (sortItems o.attrs) (idx ++ [o.uid]) with
        | none =>
          rw [g] at ih
          cases g' : makeDefAttrs (makeDefRec w.heap fuel) (sortItems o.attrs) (idx ++ [o.uid]) with
          | none => rfl
          | some q => rw [g'] at ih; cases ih
        | some q =>
          rw [g] at ih
          cases g' : makeDefAttrs (makeDefRec w.heap fuel) (sortItems o.attrs) (idx ++ [o.uid]) with
          | none => rw [g'] at ih; cases ih
          | some q' =>
            rw [g'] at ih
            obtain ⟨s, t⟩ := q
            obtain ⟨s', t'⟩ := q'
            simp only [Option.map_some, Option.some.injEq, Prod.mk.injEq] at ih
            obtain ⟨hs, rfl⟩ := ih
            simp [defNoFlags, ModuleDef.noFlags, hs]

theorem Subs.eqv_of_noFlags : ∀ {s t : Subs α}, s.noFlags = t.noFlags → s.eqv t = true := by
  intro s
  induction s with
  | nil => intro t h; cases t <;> simp_all [Subs.noFlags, Subs.eqv]
  | ref n i r ih => intro t h; cases t <;> simp_all [Subs.noFlags, Subs.eqv]
  | sub n c i s st b r ihs ihr => intro t h; cases t <;> simp_all [Subs.noFlags, Subs.eqv]

/-- **C137, states and definitions.** Marks that have been left are not part of the state of any Module, and the ModuleDefs with and without them compare equal. -/
theorem C137_state {w x : World α} {ls : List Loc} {b : Bool} (hx : Flagged w x ls b) (fuel : Nat) (l : Loc) :
    getState fuel x.heap l = getState fuel w.heap l ∧
    ((getModuleDef fuel x.heap l = none ∧ getModuleDef fuel w.heap l = none) ∨
      ∃ d e, getModuleDef fuel x.heap l = some d ∧ getModuleDef fuel w.heap l = some e ∧ d.eqv e = true) := by
  refine ⟨by simp only [getState, hx.iter], ?_⟩
  have h := hx.makeDef fuel l []
  simp only [getModuleDef]
  cases g : makeDefRec x.heap fuel l [] with
  | none =>
    rw [g] at h
    cases g' : makeDefRec w.heap fuel l [] with
    | none => exact .inl ⟨rfl, rfl⟩
    | some q => rw [g'] at h; cases h
  | some q =>
    rw [g] at h
    cases g' : makeDefRec w.heap fuel l [] with
    | none => rw [g'] at h; cases h
    | some q' =>
      rw [g'] at h
      obtain ⟨d, t⟩ := q
      obtain ⟨d', t'⟩ := q'
      simp only [Option.map_some, Option.some.injEq, defNoFlags, Prod.mk.injEq] at h
      obtain ⟨hd, rfl⟩ := h
      cases d with
      | inl i =>
        cases d' with
        | inl i' => exact .inl ⟨rfl, rfl⟩
        | inr d' => cases hd
      | inr d =>
        cases d' with
        | inl i' => cases hd
        | inr d' =>
          refine .inr ⟨d, d', rfl, rfl, ?_⟩
          simp only [Sum.map_inr, Sum.inr.injEq, ModuleDef.noFlags, ModuleDef.mk.injEq] at hd
          obtain ⟨h1, h2, h3, h4, _⟩ := hd
          simp [ModuleDef.eqv, h1, h4, Subs.eqv_of_noFlags h3]

/-- **C137, traced again.** A function that `nnx.jit` has traced for a Module is traced again for the same Module with a mark that an interrupted init has left on it: the flag is part of
the key of the compilation cache. -/
theorem C137_traced_again : ∃ (w x : World Nat) (y z : World Nat × Except Err Nat) (c c' : List (ModuleDef Nat)), Flagged w x [0] true ∧
    initInterrupted (.user 0) 1 9 0 (fun w => (w, (.ok 5 : Except Err Nat))) w = (x, .error (.user 0)) ∧
    jitCachedCall 9 true 5 6 [] 0 (fun _ w => (w, .ok 3)) w = (y, c) ∧ c.length = 1 ∧
    jitCachedCall 9 true 5 6 c 0 (fun _ w => (w, .ok 3)) w = (y, c) ∧
    jitCachedCall 9 true 5 6 c 0 (fun _ w => (w, .ok 3)) x = (z, c') ∧ c'.length = 2 := by
  refine ⟨exWorld, _, _, _, _, _, ?_, rfl, rfl, by decide +kernel, rfl, rfl, by decide +kernel⟩
  refine ⟨by decide +kernel, ?_, by decide +kernel⟩
  intro l o h
  match l, h with
  | 0, h => cases h; decide +kernel
  | 1, h => cases h; decide +kernel

/-- The marks stay: after an interruption in the first loop, and after one in the last, a Module of the example graph says that it is initializing although no init is running. -/
theorem C137_left_marked : (initInterrupted (.user 0) 1 3 0 (fun w => (w, (.ok 5 : Except Err Nat))) ⟨[⟨exCls (py! "Net"), [(py! "a", .ref 1)], 7, false, ⟨0, 0⟩⟩,
      ⟨exCls (py! "Block"), [(py! "w", .val (exParam 5))], 3, false, ⟨0, 0⟩⟩], 9, 0, []⟩).1.heap.map (·.isInit) = [true, false] ∧
    (initInterrupted (.user 0) 3 3 0 (fun w => (w, (.ok 5 : Except Err Nat))) ⟨[⟨exCls (py! "Net"), [(py! "a", .ref 1)], 7, false, ⟨0, 0⟩⟩,
      ⟨exCls (py! "Block"), [(py! "w", .val (exParam 5))], 3, false, ⟨0, 0⟩⟩], 9, 0, []⟩).1.heap.map (·.isInit) = [false, true] := by
  decide

/-- The hypotheses hold of the example graph with sharing and cycles, interrupted after the first mark. -/
example : WFHeap exWorld.heap ∧ (∀ (l : Loc) (o : ModObj Nat), exWorld.heap[l]? = some o → o.cls.isSub cModule = true) ∧ Lists exWorld.heap 0 [0, 1] ∧
    Flagged exWorld (initInterrupted (.user 0) 1 3 0 (fun w => (w, (.ok 5 : Except Err Nat))) exWorld).1 [0] true := by
  refine ⟨exWorld_wf.heap, ?_, ?_, by decide +kernel, ?_, by decide +kernel⟩
  · intro l o h
    have := List.mem_of_getElem? h
    simp only [exWorld, exHeap, List.mem_cons, List.not_mem_nil, or_false] at this
    rcases this with rfl | rfl <;> decide
  · refine ⟨by decide, fun a => ⟨fun ha => ?_, ?_⟩⟩
    · simp only [List.mem_cons, List.not_mem_nil, or_false] at ha
      rcases ha with rfl | rfl
      · exact ⟨[], .here (by decide)⟩
      · exact ⟨[py! "a"], .step (b := 1) (by decide +kernel) (.here (by decide))⟩
    · rintro ⟨p, hp⟩
      have : a < 2 := hp.lt
      match a, this with
      | 0, _ => simp
      | 1, _ => simp
  · intro l o h
    match l, h with
    | 0, h => cases h; decide +kernel
    | 1, h => cases h; decide +kernel

end Nnx
