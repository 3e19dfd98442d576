import Verif.Spec.ReprThreads
import Verif.Proofs.ReprThreads
import Verif.Props.ReprText
/-
C111: printing Modules in several threads.
-/
namespace Nnx
variable {α : Type}

/-- What `repr` of a Module gives in a process with one thread: a text, or the exception of an attribute (the model of C70). -/
def PrintsAlone (showVal : PyVal α → Except Err Str) (h : Heap α) (l : Loc) (r : Except Err Str) : Prop :=
  ∀ fuel, fuel > h.length → ∃ ctx', reprModule showVal h fuel l .clean = some (ctx', r)

/-- The Module a thread prints or has printed. -/
def ReprStatus.root : ReprStatus α → Option Loc
  | .idle => none
  | .printing l _ _ => some l
  | .finished l _ => some l

theorem reprStep_root (showVal : PyVal α → Except Err Str) (h : Heap α) (root : Loc) (seen : Option (List Nat)) (p : ReprPhase) (fs : List (ReprFrame α)) :
    (reprStep showVal h root seen p fs).2.root = some root := by
  cases p <;> simp only [reprStep, loopStep, retStep] <;> repeat' (first | rfl | split)

@[simp] theorem ReprWorld.set_self (g : ReprWorld α) (t : Nat) (s : Option (List Nat)) (st : ReprStatus α) : (g.set t s st).threads t = st := by
  simp [ReprWorld.set]

theorem ReprWorld.set_ne (g : ReprWorld α) {t u : Nat} (hne : u ≠ t) (s : Option (List Nat)) (st : ReprStatus α) :
    (g.set t s st).threads u = g.threads u := by
  simp [ReprWorld.set, hne]

/-- One thread prints and will finish as if it were alone. -/
structure PrintingAlone (showVal : PyVal α → Except Err Str) (h : Heap α) (g : ReprWorld α) (t : Nat) (l : Loc) (r : Except Err Str) : Prop where
  alone : PrintsAlone showVal h l r
  root : (g.threads t).root = some l
  runs : ReprRuns showVal h g.seen (g.threads t) none (.finished l r)
  others : ∀ u, u ≠ t → (g.threads u).busy = false

/-- The invariant while `repr` calls do not overlap. -/
structure ReprInv (showVal : PyVal α → Except Err Str) (h : Heap α) (g : ReprWorld α) : Prop where
  done : ∀ t l r, g.threads t = .finished l r → PrintsAlone showVal h l r
  now : (g.seen = none ∧ ∀ u, (g.threads u).busy = false) ∨ ∃ t l r, PrintingAlone showVal h g t l r

theorem reprInv_call {showVal : PyVal α → Except Err Str} {h : Heap α} (wf : WFHeap h) {g : ReprWorld α} (I : ReprInv showVal h g) {t : Nat} {l : Loc}
    (hl : l < h.length) (hq : ∀ u, (g.threads u).busy = false) : ReprInv showVal h (reprEvent showVal h g (.call t l)) := by
  have hseen : g.seen = none := by
    rcases I.now with ⟨h, -⟩ | ⟨u, l', r, P⟩
    · exact h
    · have hb := hq u
      have hr := P.runs
      generalize hst : g.threads u = st at hr hb
      generalize hs : g.seen = s at hr
      cases hr with
      | here => rfl
      | step _ => cases hb
  have he : reprEvent showVal h g (.call t l) = g.set t g.seen (.printing l (.enter l) []) := by
    rw [reprEvent]
    split
    · next e => exact absurd (hq t) (by rw [e]; simp [ReprStatus.busy])
    · rfl
  rw [he]
  obtain ⟨ctx', r, h1, h2⟩ := repr_alone (showVal := showVal) wf hl
  refine ⟨?_, .inr ⟨t, l, r, fun fuel hf => ⟨ctx', h1 fuel hf⟩, by rw [ReprWorld.set_self]; rfl, ?_, ?_⟩⟩
  · intro u l' r' hu
    by_cases hut : u = t
    · rw [hut, ReprWorld.set_self] at hu; cases hu
    · rw [ReprWorld.set_ne _ hut] at hu
      exact I.done u l' r' hu
  · rw [ReprWorld.set_self]
    show ReprRuns showVal h g.seen _ _ _
    rw [hseen]
    exact h2
  · intro u hut
    rw [ReprWorld.set_ne _ hut]
    exact hq u

theorem reprInv_step {showVal : PyVal α → Except Err Str} {h : Heap α} {g : ReprWorld α} (I : ReprInv showVal h g) (t : Nat) :
    ReprInv showVal h (reprEvent showVal h g (.step t)) := by
  rw [reprEvent]
  split
  · next root p fs hst =>
    rcases I.now with ⟨-, hq⟩ | ⟨u, l, r, P⟩
    · exact absurd (hq t) (by rw [hst]; simp [ReprStatus.busy])
    · have hut : u = t := by
        refine Classical.byContradiction fun hne => ?_
        have := P.others t (fun e => hne e.symm)
        rw [hst] at this
        cases this
      subst hut
      have hroot : root = l := by
        have := P.root
        rw [hst] at this
        exact Option.some.inj this
      subst hroot
      have hr := P.runs
      rw [hst] at hr
      have hrun : ReprRuns showVal h (reprStep showVal h root g.seen p fs).1 (reprStep showVal h root g.seen p fs).2 none (.finished root r) := by
        generalize g.seen = s at hr ⊢
        cases hr with
        | step h => exact h
      have hrt := reprStep_root showVal h root g.seen p fs
      generalize (reprStep showVal h root g.seen p fs).1 = s1 at hrun
      generalize (reprStep showVal h root g.seen p fs).2 = st1 at hrun hrt
      refine ⟨?_, .inr ⟨u, root, r, P.alone, ?_, ?_, ?_⟩⟩
      · intro v l' r' hv
        by_cases hvu : v = u
        · rw [hvu, ReprWorld.set_self] at hv
          rw [hv] at hrun
          cases hrun
          exact P.alone
        · rw [ReprWorld.set_ne _ hvu] at hv
          exact I.done v l' r' hv
      · rw [ReprWorld.set_self]; exact hrt
      · rw [ReprWorld.set_self]; exact hrun
      · intro v hvu
        rw [ReprWorld.set_ne _ hvu]
        exact P.others v hvu
  · exact I

theorem reprInv_events {showVal : PyVal α → Except Err Str} {h : Heap α} (wf : WFHeap h) : ∀ (evs : List ReprEvent) {g : ReprWorld α},
    ReprInv showVal h g → OneAtATime showVal h g evs → ReprInv showVal h (reprEvents showVal h g evs)
  | [], _, I, _ => I
  | .call t l :: evs, g, I, ⟨hq, hl, ho⟩ => by
    rw [reprEvents, List.foldl_cons]
    exact reprInv_events wf evs (reprInv_call wf I hl hq) ho
  | .step t :: evs, g, I, ho => by
    rw [reprEvents, List.foldl_cons]
    exact reprInv_events wf evs (reprInv_step I t) ho

theorem reprInv_start (showVal : PyVal α → Except Err Str) (h : Heap α) : ReprInv showVal h .start :=
  ⟨fun t l r e => (by cases e), .inl ⟨rfl, fun _ => rfl⟩⟩

/-- **C111** (calls that do not overlap; the full statement, for every schedule, is false: `C111_race_omits`, `C111_race_raises`, `C111_race_sticks`). In every schedule in
which `repr` is called only while no thread is inside `repr`, by any threads on any Modules, every finished call gave what it gives in a process with one thread. -/
theorem C111_exclusive_partial (showVal : PyVal α → Except Err Str) {h : Heap α} (wf : WFHeap h) {evs : List ReprEvent} (ho : OneAtATime showVal h .start evs)
    {t : Nat} {l : Loc} {r : Except Err Str} (hf : (reprEvents showVal h .start evs).threads t = .finished l r) : PrintsAlone showVal h l r :=
  (reprInv_events wf evs (reprInv_start showVal h) ho).done t l r hf

/-- The same as a text: what is printed is the text of the specification, in which every Module is written out at its first occurrence. -/
theorem C111_text_partial (showVal : PyVal α → Except Err Str) {h : Heap α} (wf : WFHeap h) {evs : List ReprEvent} (ho : OneAtATime showVal h .start evs)
    {t : Nat} {l : Loc} (hl : l < h.length) {s : Str} (hf : (reprEvents showVal h .start evs).threads t = .finished l (.ok s)) :
    ∃ seen', ModuleText (fun v t => showVal v = .ok t) h 0 [] l s seen' := by
  obtain ⟨ctx', e⟩ := C111_exclusive_partial showVal wf ho hf (h.length + 1) (Nat.lt_succ_self _)
  exact C70_text showVal wf hl e

theorem reprRuns_steps {showVal : PyVal α → Except Err Str} {h : Heap α} {t : Nat} {l : Loc} {r : Except Err Str} {s s' st st'}
    (hr : ReprRuns showVal h s st s' st') (hfin : st' = .finished l r) : ∀ {g : ReprWorld α}, g.seen = s → g.threads t = st →
    ∃ n, (reprEvents showVal h g (List.replicate n (.step t))).threads t = .finished l r ∧
      (reprEvents showVal h g (List.replicate n (.step t))).seen = s' := by
  induction hr with
  | here => exact fun hs ht => ⟨0, by rw [← hfin]; exact ht, hs⟩
  | @step s root p fs s' st' _ ih =>
    intro g hs ht
    obtain ⟨n, h1, h2⟩ := ih hfin (g := reprEvent showVal h g (.step t)) (by rw [reprEvent]; simp only [ht]; rw [← hs]; rfl)
      (by rw [reprEvent]; simp only [ht]; rw [← hs]; exact ReprWorld.set_self ..)
    exact ⟨n + 1, h1, h2⟩

/-- **C111** (it ends): in such a schedule, a thread inside `repr` comes to an end after finitely many of its own steps, and leaves nothing behind. -/
theorem C111_finishes (showVal : PyVal α → Except Err Str) {h : Heap α} (wf : WFHeap h) {evs : List ReprEvent} (ho : OneAtATime showVal h .start evs)
    {t : Nat} {l : Loc} {p : ReprPhase} {fs : List (ReprFrame α)} (hp : (reprEvents showVal h .start evs).threads t = .printing l p fs) :
    ∃ n r, PrintsAlone showVal h l r ∧
      (reprEvents showVal h .start (evs ++ List.replicate n (.step t))).threads t = .finished l r ∧
      (reprEvents showVal h .start (evs ++ List.replicate n (.step t))).seen = none := by
  rcases (reprInv_events wf evs (reprInv_start showVal h) ho).now with ⟨-, hq⟩ | ⟨u, l', r, P⟩
  · exact absurd (hq t) (by rw [hp]; simp [ReprStatus.busy])
  · have hut : u = t := by
      refine Classical.byContradiction fun hne => ?_
      have := P.others t (fun e => hne e.symm)
      rw [hp] at this
      cases this
    subst hut
    have hroot : l = l' := by
      have := P.root
      rw [hp] at this
      exact Option.some.inj this
    subst hroot
    obtain ⟨n, h1, h2⟩ := reprRuns_steps (t := u) P.runs rfl rfl rfl
    refine ⟨n, r, P.alone, ?_, ?_⟩
    · rw [reprEvents, List.foldl_append]; exact h1
    · rw [reprEvents, List.foldl_append]; exact h2

/-! ### Calls that overlap -/

/-- **C111 fails** when calls overlap: while one thread is printing a Module, another one is told only its class. -/
theorem C111_race_omits :
    (reprEvents exShow exReprHeap .start ([.call 0 0] ++ List.replicate 4 (.step 0) ++ [.call 1 0] ++ List.replicate 3 (.step 1))).threads 1 =
        .finished 0 (.ok (py! "A(...)")) ∧
      ¬ PrintsAlone exShow exReprHeap 0 (.ok (py! "A(...)")) := by
  refine ⟨by decide +kernel, fun h => ?_⟩
  obtain ⟨ctx', e⟩ := h 4 (by decide)
  have : (reprModule exShow exReprHeap 4 0 .clean).map (fun x => x.2.toOption) = some (some (py! "A(...)")) := by rw [e]; rfl
  exact absurd this (by decide +kernel)

/-- **C111 fails** when calls overlap: a thread that finishes removes the set under the hands of another, whose `repr` raises TypeError or
AttributeError. -/
theorem C111_race_raises :
    (reprEvents exShow exReprHeap .start
        ([.call 0 2] ++ List.replicate 4 (.step 0) ++ [.call 1 1, .step 1] ++ List.replicate 3 (.step 0) ++ List.replicate 2 (.step 1))).threads 1 =
        .finished 1 (.error .typeError) ∧
      (reprEvents exShow exReprHeap .start
        ([.call 0 2] ++ List.replicate 4 (.step 0) ++ [.call 1 1, .step 1, .step 1] ++ List.replicate 3 (.step 0) ++ List.replicate 2 (.step 1))).threads 1 =
        .finished 1 (.error .attributeError) ∧
      ∀ e, ¬ PrintsAlone exShow exReprHeap 1 (.error e) := by
  refine ⟨by decide +kernel, by decide +kernel, fun e h => ?_⟩
  obtain ⟨ctx', e⟩ := h 4 (by decide)
  have : (reprModule exShow exReprHeap 4 1 .clean).map (fun x => x.2.toOption) = some none := by rw [e]; rfl
  exact absurd this (by decide +kernel)

/-! ### A set that is left behind -/

/-- A thread that began to print after the set was left behind will not remove it. -/
def KeepsSeen : ReprStatus α → Prop
  | .printing _ (.create _) _ => False
  | .printing _ (.test _ c) fs => c = false ∧ ∀ f ∈ fs, f.clear = false
  | .printing _ (.add _ c) fs => c = false ∧ ∀ f ∈ fs, f.clear = false
  | .printing _ _ fs => ∀ f ∈ fs, f.clear = false
  | _ => True

/-- A thread asked to print a Module of the set. -/
def Abbreviates (h : Heap α) (S : List Nat) (st : ReprStatus α) : Prop :=
  ∀ l o, st.root = some l → h[l]? = some o → o.uid ∈ S →
    st = .printing l (.enter l) [] ∨ st = .printing l (.test l false) [] ∨ st = .printing l (.ret (o.cls.name ++ py! "(...)")) [] ∨
      st = .finished l (.ok (o.cls.name ++ py! "(...)"))

theorem finishRepr_dots (name : Str) : finishRepr (ctxAt 0) name (py! "...") [] = name ++ py! "(...)" := by
  simp [finishRepr, joinElems]

theorem reprStep_keeps {showVal : PyVal α → Except Err Str} {h : Heap α} {root : Loc} {S : List Nat} {p : ReprPhase} {fs : List (ReprFrame α)}
    (hk : KeepsSeen (.printing root p fs)) :
    (∃ S', (reprStep showVal h root (some S) p fs).1 = some S' ∧ S ⊆ S') ∧ KeepsSeen (reprStep showVal h root (some S) p fs).2 := by
  have any_false : ∀ {fs : List (ReprFrame α)}, (∀ f ∈ fs, f.clear = false) → fs.any (·.clear) = false := by
    intro fs hfs
    rw [List.any_eq_false]
    intro f hf
    rw [hfs f hf]; simp
  cases p with
  | enter l => exact ⟨⟨S, rfl, fun _ h => h⟩, rfl, hk⟩
  | create l => cases hk
  | test l c =>
    simp only [reprStep]
    split
    · next e => cases e
    · exact ⟨⟨S, rfl, fun _ h => h⟩, hk.2⟩
    · next e _ =>
      cases e
      split
      · exact ⟨⟨S, rfl, fun _ h => h⟩, hk.2⟩
      · exact ⟨⟨S, rfl, fun _ h => h⟩, hk⟩
  | add l c =>
    simp only [reprStep]
    split
    · next e => cases e
    · exact ⟨⟨S, rfl, fun _ h => h⟩, hk.2⟩
    · next e _ =>
      cases e
      refine ⟨⟨_, rfl, fun _ h => List.mem_append_left _ h⟩, ?_⟩
      intro f hf
      rcases List.mem_cons.1 hf with rfl | hf
      · exact hk.1
      · exact hk.2 f hf
  | loop =>
    have hk : ∀ f ∈ fs, f.clear = false := hk
    simp only [reprStep]
    cases fs with
    | nil => exact ⟨⟨S, rfl, fun _ h => h⟩, trivial⟩
    | cons f fs =>
      have hf := hk f (by simp)
      have hfs : ∀ f ∈ fs, f.clear = false := fun g hg => hk g (List.mem_cons_of_mem _ hg)
      have hcons : ∀ {f' : ReprFrame α}, f'.clear = f.clear → ∀ g ∈ f' :: fs, g.clear = false := by
        intro f' he g hg
        rcases List.mem_cons.1 hg with rfl | hg
        · rw [he, hf]
        · exact hfs g hg
      simp only [loopStep]
      split
      · split
        · exact ⟨⟨S, rfl, fun _ h => h⟩, trivial⟩
        · rw [hf]; exact ⟨⟨S, rfl, fun _ h => h⟩, hfs⟩
      · split
        · exact ⟨⟨S, rfl, fun _ h => h⟩, hcons rfl⟩
        · split
          · exact ⟨⟨S, rfl, fun _ h => h⟩, hk⟩
          · split
            · exact ⟨⟨S, rfl, fun _ h => h⟩, hk⟩
            · exact ⟨⟨S, rfl, fun _ h => h⟩, hcons rfl⟩
  | ret s =>
    have hk : ∀ f ∈ fs, f.clear = false := hk
    simp only [reprStep]
    cases fs with
    | nil => exact ⟨⟨S, rfl, fun _ h => h⟩, trivial⟩
    | cons f fs =>
      simp only [retStep]
      split
      · exact ⟨⟨S, rfl, fun _ h => h⟩, trivial⟩
      · refine ⟨⟨S, rfl, fun _ h => h⟩, ?_⟩
        intro g hg
        rcases List.mem_cons.1 hg with rfl | hg
        · exact hk f (by simp)
        · exact hk g (List.mem_cons_of_mem _ hg)
  | raised e =>
    have hk : ∀ f ∈ fs, f.clear = false := hk
    simp only [reprStep, any_false hk]
    exact ⟨⟨S, rfl, fun _ h => h⟩, trivial⟩

theorem reprStep_abbreviates {showVal : PyVal α → Except Err Str} {h : Heap α} {root : Loc} {S S0 : List Nat} (hS : S0 ⊆ S) {p : ReprPhase}
    {fs : List (ReprFrame α)} (ha : Abbreviates h S0 (.printing root p fs)) : Abbreviates h S0 (reprStep showVal h root (some S) p fs).2 := by
  intro l o hr ho hu
  rw [reprStep_root] at hr
  cases hr
  rcases ha root o rfl ho hu with e | e | e | e <;> cases e
  · exact .inr (.inl rfl)
  · refine .inr (.inr (.inl ?_))
    simp only [reprStep, ho, if_pos (hS hu)]
    rw [show finishRepr (ctxAt ([] : List (ReprFrame α)).length) o.cls.name (py! "...") [] = _ from finishRepr_dots _]
  · exact .inr (.inr (.inr rfl))

/-- The set is never removed, and the Modules in it are never written out. -/
theorem stuck_events {showVal : PyVal α → Except Err Str} {h : Heap α} {S0 : List Nat} (old : Nat → Prop) : ∀ (evs : List ReprEvent) {g : ReprWorld α} {S : List Nat},
    g.seen = some S → S0 ⊆ S → (∀ t, KeepsSeen (g.threads t)) → (∀ t, old t ∨ Abbreviates h S0 (g.threads t)) →
    (∃ S', (reprEvents showVal h g evs).seen = some S' ∧ S0 ⊆ S') ∧ ∀ t, old t ∨ Abbreviates h S0 ((reprEvents showVal h g evs).threads t)
  | [], g, S, hs, hS, _, ha => ⟨⟨S, hs, hS⟩, ha⟩
  | ev :: evs, g, S, hs, hS, hk, ha => by
    rw [reprEvents, List.foldl_cons]
    have key : ∀ t s1 st1, (∃ S', s1 = some S' ∧ S ⊆ S') → KeepsSeen st1 → (old t ∨ Abbreviates h S0 st1) →
        (∃ S', (reprEvents showVal h (g.set t s1 st1) evs).seen = some S' ∧ S0 ⊆ S') ∧
          ∀ u, old u ∨ Abbreviates h S0 ((reprEvents showVal h (g.set t s1 st1) evs).threads u) := by
      rintro t s1 st1 ⟨S', rfl, hS'⟩ h2 h3
      refine stuck_events old evs (S := S') rfl (fun x hx => hS' (hS hx)) (fun u => ?_) (fun u => ?_)
      · by_cases hut : u = t
        · rw [hut, ReprWorld.set_self]; exact h2
        · rw [ReprWorld.set_ne _ hut]; exact hk u
      · by_cases hut : u = t
        · rw [hut, ReprWorld.set_self]; exact h3
        · rw [ReprWorld.set_ne _ hut]; exact ha u
    cases ev with
    | call t l =>
      rw [reprEvent]
      split
      · exact stuck_events old evs hs hS hk ha
      · refine key t _ _ ⟨S, hs, fun _ h => h⟩ (fun f hf => by cases hf) (.inr ?_)
        intro l' o hr ho hu
        cases hr
        exact .inl rfl
    | step t =>
      rw [reprEvent]
      split
      · next root p fs hst =>
        rw [hs]
        obtain ⟨h1, h2⟩ := reprStep_keeps (showVal := showVal) (h := h) (S := S) (hst ▸ hk t)
        refine key t _ _ h1 h2 ((ha t).imp_right fun h => reprStep_abbreviates hS (hst ▸ h))
      · exact stuck_events old evs hs hS hk ha

/-- **C111 fails for good** once the set is left behind while nobody is inside `repr`: whatever is called afterwards, by whichever threads, the set is never removed, and
a Module in it is never written out again. -/
theorem C111_stuck (showVal : PyVal α → Except Err Str) (h : Heap α) {g : ReprWorld α} {S : List Nat} (hs : g.seen = some S)
    (hq : ∀ t, (g.threads t).busy = false) (evs : List ReprEvent) :
    (∃ S', (reprEvents showVal h g evs).seen = some S' ∧ S ⊆ S') ∧
    ∀ t l o r, g.threads t = .idle → (reprEvents showVal h g evs).threads t = .finished l r → h[l]? = some o → o.uid ∈ S →
      r = .ok (o.cls.name ++ py! "(...)") := by
  have hk : ∀ t, KeepsSeen (g.threads t) := by
    intro t
    have := hq t
    cases e : g.threads t with
    | printing l p fs => rw [e] at this; cases this
    | idle => trivial
    | finished l r => trivial
  have ha : ∀ t, g.threads t ≠ .idle ∨ Abbreviates h S (g.threads t) := by
    intro t
    by_cases e : g.threads t = .idle
    · right; rw [e]; intro l o hr; cases hr
    · exact .inl e
  obtain ⟨h1, h2⟩ := stuck_events (showVal := showVal) (fun t => g.threads t ≠ .idle) evs hs (fun _ h => h) hk ha
  refine ⟨h1, fun t l o r hi hf ho hu => ?_⟩
  rcases (h2 t).resolve_left (not_not_intro hi) l o (by rw [hf]; rfl) ho hu with e | e | e | e <;> rw [hf] at e
  · cases e
  · cases e
  · cases e
  · cases e; rfl

/-- Three threads that print the same Module. -/
def exSticky : List ReprEvent :=
  [.call 0 2, .step 0, .call 1 2, .step 1, .step 1, .call 2 2, .step 2, .step 2] ++ List.replicate 5 (.step 1) ++ [.step 0, .step 2] ++
    List.replicate 2 (.step 0) ++ List.replicate 3 (.step 2)

/-- **C111 fails for good**: this happens. Three threads print the same Module at the same time, all three finish, and from then on nobody can print it. -/
theorem C111_race_sticks :
    let g := reprEvents exShow exReprHeap .start exSticky
    g.seen = some [12] ∧ (∀ t, (g.threads t).busy = false) ∧
      (reprEvents exShow exReprHeap g ([.call 3 2] ++ List.replicate 3 (.step 3))).threads 3 = .finished 2 (.ok (py! "C(...)")) ∧
      PrintsAlone exShow exReprHeap 2 (.ok (py! "C()")) := by
  refine ⟨by decide +kernel, fun t => ?_, by decide +kernel, fun fuel hf => ?_⟩
  · match t with
    | 0 => decide +kernel
    | 1 => decide +kernel
    | 2 => decide +kernel
    | t + 3 => rfl
  · match fuel, hf with
    | fuel + 4, _ => exact ⟨_, rfl⟩

/-! ### Concrete cases -/

/-- Thread 0 prints two Modules that refer to each other, then thread 1 prints another one. -/
def exOrderly : List ReprEvent := [.call 0 0] ++ List.replicate 30 (.step 0) ++ [.call 1 2] ++ List.replicate 10 (.step 1)

theorem exOrderly_one : OneAtATime exShow exReprHeap .start exOrderly := by
  refine ⟨fun _ => rfl, by decide, ?_⟩
  have hsteps : ∀ n g evs, OneAtATime exShow exReprHeap (reprEvents exShow exReprHeap g (List.replicate n (.step 0))) evs →
      OneAtATime exShow exReprHeap g (List.replicate n (.step 0) ++ evs) := by
    intro n
    induction n with
    | zero => exact fun _ _ h => h
    | succ n ih => exact fun g evs h => ih _ evs h
  refine hsteps 30 _ _ ⟨fun u => ?_, by decide, trivial⟩
  match u with
  | 0 => decide +kernel
  | u + 1 => rfl

example : (reprEvents exShow exReprHeap .start exOrderly).threads 0 =
      .finished 0 (.ok (py! "A(\n  b=B(\n    parent=A(...),\n    c=C()\n  ),\n  n=3,\n  c=C(...)\n)")) ∧
    (reprEvents exShow exReprHeap .start exOrderly).threads 1 = .finished 2 (.ok (py! "C()")) := by decide +kernel

end Nnx
