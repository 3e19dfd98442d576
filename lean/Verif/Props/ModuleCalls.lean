import Verif.Spec.Calls
import Verif.Props.ModulePop
/-
Properties C18 (for_each), C19 (init), C20 (sow), C22 (mutable_state_dict).
-/
namespace Nnx
variable {α : Type} [DecidableEq α]

/-! ### C18 -/

omit [DecidableEq α] in
theorem SameRefs.refl (h : Heap α) : SameRefs h h := fun _ => rfl
omit [DecidableEq α] in
theorem SameRefs.trans {h h1 h2 : Heap α} (a : SameRefs h h1) (b : SameRefs h1 h2) : SameRefs h h2 :=
  fun l => (b l).trans (a l)

omit [DecidableEq α] in
theorem SameRefs.get {h h' : Heap α} (a : SameRefs h h') {l : Loc} {o : ModObj α} (ho : h[l]? = some o) :
    ∃ o', h'[l]? = some o' ∧ o'.cls = o.cls ∧ o'.uid = o.uid ∧ moduleRefs o'.attrs = moduleRefs o.attrs := by
  have := a l
  rw [ho] at this
  cases h1 : h'[l]? with
  | none => rw [h1] at this; cases this
  | some o' =>
    rw [h1] at this
    simp only [Option.map_some, Option.some.injEq, Prod.mk.injEq] at this
    exact ⟨o', rfl, this.1, this.2.1, this.2.2⟩

omit [DecidableEq α] in
theorem runCalls_append {σ : Type} (fn : Loc → σ → σ × Option Err) (as bs : List Loc) (s : σ) :
    runCalls fn (as ++ bs) s = match runCalls fn as s with
      | (s, some e) => (s, some e)
      | (s, none) => runCalls fn bs s := by
  induction as generalizing s with
  | nil => rfl
  | cons a as ih =>
    simp only [List.cons_append, runCalls]
    split <;> rename_i h
    · rfl
    · exact ih _

omit [DecidableEq α] in
theorem runCalls_sameRefs {σ : Type} {heapOf : σ → Heap α} {fn : Loc → σ → σ × Option Err}
    (hfn : ∀ l s, SameRefs (heapOf s) (heapOf (fn l s).1)) (ls : List Loc) (s : σ) :
    SameRefs (heapOf s) (heapOf (runCalls fn ls s).1) := by
  induction ls generalizing s with
  | nil => exact .refl _
  | cons a as ih =>
    simp only [runCalls]
    have h1 := hfn a s
    split <;> rename_i h <;> rw [h] at h1
    · exact h1
    · exact h1.trans (ih _)

omit [DecidableEq α] in
/-- How the result of a traversal is reported. -/
def reported {σ : Type} (S : List Nat) : σ × Option Err → σ × Except Err (List Nat)
  | (s, some e) => (s, .error e)
  | (s, none) => (s, .ok S)

omit [DecidableEq α] in
/-- The visited modules that are instances of a type. -/
def instancesOf (h : Heap α) (ty : Cls) (vs : List (Loc × List Str)) : List Loc :=
  (vs.map (·.1)).filter (fun l => match h[l]? with | some o => o.cls.isSub ty | none => false)

omit [DecidableEq α] in
theorem onAll_eq {σ : Type} {heapOf : σ → Heap α} {ty : Cls} {fn : Loc → σ → σ × Option Err}
    (hfn : ∀ l s, SameRefs (heapOf s) (heapOf (fn l s).1)) {h : Heap α} {f t S vs S'} (d : Dfs h id f t S vs S') :
    match t with
    | .visit l _ => ∀ s, SameRefs h (heapOf s) →
        onAll heapOf ty fn f l s S = reported S' (runCalls fn (instancesOf h ty vs) s)
    | .attrs as _ => ∀ (as' : List (Str × Attr α)) (s : σ), moduleRefs as' = moduleRefs as → SameRefs h (heapOf s) →
        onAllAttrs (onAll heapOf ty fn f) as' s S = reported S' (runCalls fn (instancesOf h ty vs) s) := by
  have hnil : ∀ f (as : List (Str × Attr α)) s S, moduleRefs as = [] →
      onAllAttrs (onAll heapOf ty fn f) as s S = (s, .ok S) := by
    intro f as
    induction as with
    | nil => intro s S _; rfl
    | cons x as ih =>
      intro s S hr
      obtain ⟨n, a⟩ := x
      cases a with
      | val v => exact ih s S (by simpa [moduleRefs] using hr)
      | ref b => simp [moduleRefs] at hr
  induction d with
  | @seen f l p S o ho hu =>
    intro s hs
    obtain ⟨o', ho', _, hu', _⟩ := hs.get ho
    simp [onAll, ho', hu', hu, instancesOf, runCalls, reported]
  | @visit f l p S S' o vs ho hu d ih =>
    intro s hs
    obtain ⟨o', ho', hc', hu', hr'⟩ := hs.get ho
    simp only [onAll, ho', hu', if_neg hu, hc']
    have hinst : instancesOf h ty ((l, p) :: vs) =
        if o.cls.isSub ty then l :: instancesOf h ty vs else instancesOf h ty vs := by
      simp only [instancesOf, List.map_cons, List.filter_cons, ho]
    rw [hinst]
    by_cases hsub : o.cls.isSub ty = true
    · rw [if_pos hsub, if_pos hsub]
      simp only [runCalls]
      have h1 := hfn l s
      cases hf : fn l s with
      | mk s1 e =>
        rw [hf] at h1
        cases e with
        | some e => rfl
        | none =>
          obtain ⟨o1, ho1, _, _, hr1⟩ := h1.get ho'
          simp only at ho1 ⊢
          rw [ho1]
          exact ih o1.attrs s1 (hr1.trans hr') (hs.trans h1)
    · rw [if_neg hsub, if_neg hsub]
      simp only [ho']
      exact ih o'.attrs s hr' hs
  | nil =>
    intro as' s hr _
    rw [hnil _ _ _ _ hr]
    rfl
  | @val f n v rest p S vs S' d ih =>
    intro as' s hr hs
    exact ih as' s (by rw [hr]; simp [moduleRefs]) hs
  | @ref f n l rest p S vs S1 ws S2 d1 d2 ih1 ih2 =>
    intro as'
    induction as' with
    | nil => intro s hr; simp [moduleRefs] at hr
    | cons x as' iha =>
      intro s hr hs
      obtain ⟨m, a⟩ := x
      cases a with
      | val v => exact iha s (by simpa [moduleRefs] using hr) hs
      | ref b =>
        simp only [moduleRefs, List.filterMap_cons, List.cons.injEq, Prod.mk.injEq] at hr
        obtain ⟨⟨rfl, rfl⟩, hr⟩ := hr
        have hin : instancesOf h ty (vs ++ ws) = instancesOf h ty vs ++ instancesOf h ty ws := by
          simp [instancesOf]
        rw [hin, runCalls_append]
        simp only [onAllAttrs]
        rw [ih1 s hs]
        have h1 := runCalls_sameRefs hfn (instancesOf h ty vs) s
        cases hf : runCalls fn (instancesOf h ty vs) s with
        | mk s1 e =>
          rw [hf] at h1
          cases e with
          | some e => rfl
          | none =>
            simp only [reported]
            exact ih2 as' s1 hr (hs.trans h1)

omit [DecidableEq α] in
/-- **C18.** On every graph, whatever its sharing and cycles, `m.for_each(T, fn)` calls `fn` exactly once on
each reachable module that is an instance of `T`, and on nothing else: it has the same effect, and the same
exception if a call raises, as calling `fn` along a list of those modules without repetitions. `fn` may change
values and flags and the rest of the program's state `σ` as it likes, but not the references between modules. -/
theorem C18_for_each {σ : Type} {heapOf : σ → Heap α} {fn : Loc → σ → σ × Option Err} {s : σ}
    (wf : WFHeap (heapOf s)) {root : Loc} (hroot : root < (heapOf s).length) {fuel : Nat}
    (hf : (heapOf s).length < fuel) (ty : Cls) (hfn : ∀ l s, SameRefs (heapOf s) (heapOf (fn l s).1)) :
    ∃ ls : List Loc, ls.Nodup ∧
      (∀ l, l ∈ ls ↔ Reaches (heapOf s) root l ∧ ∃ o, (heapOf s)[l]? = some o ∧ o.cls.isSub ty = true) ∧
      forEach heapOf fuel root ty fn s = runCalls fn ls s := by
  obtain ⟨vs, S', d⟩ := Dfs.exists wf isOrder_id fuel root [] [] hroot
    (Nat.lt_of_le_of_lt (List.length_filter_le _ _) hf)
  obtain ⟨hn, hr, _, _⟩ := d.complete wf isOrder_id hroot
  refine ⟨instancesOf (heapOf s) ty vs, hn.filter _, ?_, ?_⟩
  · intro l
    simp only [instancesOf, List.mem_filter, hr]
    apply and_congr_right
    rintro ⟨p, hp⟩
    rw [List.getElem?_eq_getElem hp.lt]
    simp
  · have := onAll_eq (ty := ty) hfn d s (.refl _)
    rw [forEach, this]
    cases hc : runCalls fn (instancesOf (heapOf s) ty vs) s with
    | mk s1 e => cases e <;> rfl

/-- Non-vacuity: on the cyclic example graph with a shared block, a function that records its calls is called on
both modules for `Module` and on one for `Block`. -/
example : forEach (σ := List Loc) (fun _ => exHeap) 3 0 cModule (fun l s => (s ++ [l], none)) [] = ([0, 1], none) ∧
    forEach (σ := List Loc) (fun _ => exHeap) 3 0 (exCls (py! "Block")) (fun l s => (s ++ [l], none)) [] = ([1], none) := by
  decide

/-! ### C19 -/

omit [DecidableEq α] in
theorem setIsInit_sameRefs (b : Bool) (l : Loc) (w : World α) : SameRefs w.heap (setIsInit b l w).1.heap := by
  unfold setIsInit
  split
  · exact .refl _
  · next o ho =>
    intro a
    have hlt := (List.getElem?_eq_some_iff.1 ho).1
    simp only
    by_cases h : a = l
    · subst h; rw [List.getElem?_set_self hlt, ho]; rfl
    · rw [List.getElem?_set, if_neg (fun e => h e.symm)]

omit [DecidableEq α] in
theorem runCalls_setIsInit (b : Bool) : ∀ (ls : List Loc) (w : World α), (∀ l ∈ ls, l < w.heap.length) →
    ∃ w', runCalls (setIsInit b) ls w = (w', none) ∧ w'.heap.length = w.heap.length ∧
      (∀ (l : Loc) (o : ModObj α), w.heap[l]? = some o → w'.heap[l]? = some (if l ∈ ls then { o with isInit := b } else o)) ∧
      (w'.nextId = w.nextId ∧ w'.jaxTrace = w.jaxTrace ∧ w'.nnxStack = w.nnxStack) := by
  intro ls
  induction ls with
  | nil => intro w _; exact ⟨w, rfl, rfl, by simp, rfl, rfl, rfl⟩
  | cons a ls ih =>
    intro w hl
    have ha := hl a List.mem_cons_self
    have e := List.getElem?_eq_getElem ha
    obtain ⟨w', h1, h2, h3, h4⟩ := ih { w with heap := w.heap.set a { w.heap[a] with isInit := b } }
      (by intro l hm; simpa using hl l (List.mem_cons_of_mem _ hm))
    refine ⟨w', ?_, by simpa using h2, ?_, h4⟩
    · simp only [runCalls, setIsInit, e]
      exact h1
    · intro l o ho
      by_cases hla : l = a
      · subst hla
        rw [e] at ho; cases ho
        rw [h3 l _ (List.getElem?_set_self ha)]
        by_cases hm : l ∈ ls <;> simp [hm]
      · rw [h3 l o (by rw [List.getElem?_set, if_neg (fun e => hla e.symm)]; exact ho)]
        simp [hla]

omit [DecidableEq α] in
theorem forEach_marked {w : World α} (wf : WFHeap w.heap) {root : Loc} (hroot : root < w.heap.length) {fuel : Nat}
    (hf : w.heap.length < fuel) (b : Bool) :
    ∃ w', forEach World.heap fuel root cModule (setIsInit b) w = (w', none) ∧ Marked w w' root b := by
  obtain ⟨ls, _, hls, he⟩ := C18_for_each (heapOf := World.heap) (fn := setIsInit b) wf hroot hf cModule
    (setIsInit_sameRefs b)
  obtain ⟨w', h1, h2, h3, h4⟩ := runCalls_setIsInit b ls w (by
    intro l hl
    obtain ⟨⟨p, hp⟩, _⟩ := (hls l).1 hl
    exact hp.lt)
  refine ⟨w', he.trans h1, ?_, ?_, h4⟩
  · intro l o hl ho hs
    rw [h3 l o ho, if_pos ((hls l).2 ⟨hl, o, ho, hs⟩)]
  · intro l hno
    cases ho : w.heap[l]? with
    | none =>
      rw [List.getElem?_eq_none_iff] at ho ⊢
      rw [h2]; exact ho
    | some o =>
      rw [h3 l o ho, if_neg]
      intro hl
      obtain ⟨h5, o', h6, h7⟩ := (hls l).1 hl
      rcases hno with hno | hno
      · exact hno h5
      · rw [hno o' h6] at h7; cases h7

omit [DecidableEq α] in
/-- **C19.** `m.init.method(...)` starts the method in a world where every module reachable from `m` reports
`is_initializing` and nothing else has changed. Whatever the method does, and whether it returns or raises (`r`),
the call ends the same way, and in the final world every module reachable from `m` at that point reports not
`is_initializing` and nothing else differs from what the method left. -/
theorem C19_init {β : Type} {w : World α} (wf : WFHeap w.heap) {root : Loc} (hroot : root < w.heap.length) {fuel : Nat}
    (hf : w.heap.length < fuel) (body : World α → World α × Except Err β) :
    ∃ w1, Marked w w1 root true ∧ ∀ w2 r, body w1 = (w2, r) → WFHeap w2.heap → root < w2.heap.length →
      w2.heap.length < fuel → ∃ w3, initCall fuel root body w = (w3, r) ∧ Marked w2 w3 root false := by
  obtain ⟨w1, h1, m1⟩ := forEach_marked wf hroot hf true
  refine ⟨w1, m1, ?_⟩
  intro w2 r hb wf2 hr2 hf2
  obtain ⟨w3, h3, m3⟩ := forEach_marked wf2 hr2 hf2 false
  refine ⟨w3, ?_, m3⟩
  simp only [initCall, h1, hb, h3]

/-- Non-vacuity: a method that raises after assigning to the module. -/
example : ∃ w3, initCall 3 0 (fun w => match setAttr w 0 (py! "w") (.val (exParam 9)) with
      | .ok w => (w, (.error (.user 1) : Except Err Nat))
      | .error e => (w, .error e)) exWorld = (w3, .error (.user 1)) ∧
    (∀ o ∈ w3.heap, o.isInit = false) ∧ (∃ o ∈ exWorld.heap, o.isInit = true) ∧
    attrAt w3.heap 0 (py! "w") = some (.val (exParam 9)) := ⟨_, rfl, by decide, by decide, by decide⟩

omit [DecidableEq α] in
/-- Flags of existing modules are the same. -/
def KeepFlags (h h' : Heap α) : Prop :=
  ∀ (l : Loc) (o : ModObj α), h[l]? = some o → ∃ o', h'[l]? = some o' ∧ o'.isInit = o.isInit

omit [DecidableEq α] in
theorem KeepFlags.refl (h : Heap α) : KeepFlags h h := fun _ o ho => ⟨o, ho, rfl⟩
omit [DecidableEq α] in
theorem KeepFlags.trans {h h1 h2 : Heap α} (a : KeepFlags h h1) (b : KeepFlags h1 h2) : KeepFlags h h2 := by
  intro l o ho
  obtain ⟨o1, h1, e1⟩ := a l o ho
  obtain ⟨o2, h2, e2⟩ := b l o1 h1
  exact ⟨o2, h2, e2.trans e1⟩

omit [DecidableEq α] in
theorem KeepFlags.set {h : Heap α} {l : Loc} {o o' : ModObj α} (ho : h[l]? = some o) (e : o'.isInit = o.isInit) :
    KeepFlags h (h.set l o') := by
  intro a oa ha
  have hlt := (List.getElem?_eq_some_iff.1 ho).1
  by_cases hal : a = l
  · subst hal
    rw [ho] at ha; cases ha
    exact ⟨o', List.getElem?_set_self hlt, e⟩
  · exact ⟨oa, by rw [List.getElem?_set, if_neg (fun e => hal e.symm)]; exact ha, rfl⟩

theorem keepFlags_setAttr {w w' : World α} {l : Loc} {n : Str} {x : Attr α} (e : setAttr w l n x = .ok w') :
    KeepFlags w.heap w'.heap := by
  obtain ⟨o, a, ho, _, _, _, rfl⟩ := setAttr_ok_iff.1 e
  exact .set ho rfl

theorem keepFlags_setValueAtPath : ∀ {parts : List Str} {a : Attr α} {v : PyVal α} {w w' : World α},
    setValueAtPath w a parts v = .ok w' → KeepFlags w.heap w'.heap
  | [], .ref _, _, _, _, e => by simp [setValueAtPath] at e
  | [p], .ref l, v, w, w', e => by simp only [setValueAtPath] at e; exact keepFlags_setAttr e
  | p :: q :: ps, .ref l, v, w, w', e => by
    simp only [setValueAtPath] at e
    split at e
    · cases e
    · exact keepFlags_setValueAtPath e
  | [], .val _, _, _, _, e => by simp [setValueAtPath] at e
  | _ :: _, .val _, _, _, _, e => by simp [setValueAtPath] at e

theorem keepFlags_assignAll {root : Loc} : ∀ {E : List (Str × PyVal α)} {w w' : World α} {r : Option Err},
    assignAll root E w = (w', r) → KeepFlags w.heap w'.heap
  | [], w, w', r, e => by
    simp only [assignAll, Prod.mk.injEq] at e
    rw [← e.1]; exact .refl _
  | (p, v) :: E, w, w', r, e => by
    simp only [assignAll] at e
    split at e
    · simp only [Prod.mk.injEq] at e
      rw [← e.1]; exact .refl _
    · next w1 h1 => exact (keepFlags_setValueAtPath h1).trans (keepFlags_assignAll e)

omit [DecidableEq α] in
theorem keepFlags_delAttr {h h' : Heap α} {l : Loc} {n : Str} (e : delAttr h l n = .ok h') : KeepFlags h h' := by
  unfold delAttr at e
  split at e
  · cases e
  · next o ho =>
    split at e
    · simp only [Except.ok.injEq] at e
      subst e
      exact .set ho rfl
    · cases e

omit [DecidableEq α] in
theorem keepFlags_popRec (preds : List (Pred α)) (fuel : Nat) : ∀ {l h idx p states h' r},
    popRec preds fuel l h idx p states = (h', r) → KeepFlags h h' := by
  induction fuel with
  | zero =>
    intro l h idx p states h' r e
    simp only [popRec, Prod.mk.injEq] at e
    rw [← e.1]; exact .refl _
  | succ fuel ih =>
    intro l h idx p states h' r e
    have loop : ∀ (as : List (Str × Attr α)) h idx states h' r,
        popAttrs (popRec preds fuel) preds l as h idx p states = (h', r) → KeepFlags h h' := by
      intro as
      induction as with
      | nil =>
        intro h idx states h' r e
        simp only [popAttrs, Prod.mk.injEq] at e
        rw [← e.1]; exact .refl _
      | cons x as iha =>
        intro h idx states h' r e
        obtain ⟨n, a⟩ := x
        cases a with
        | ref b =>
          rw [popAttrs] at e
          split at e
          · next h1 _ e1 =>
            simp only [Prod.mk.injEq] at e
            rw [← e.1]; exact ih e1
          · next h1 idx1 states1 e1 => exact (ih e1).trans (iha _ _ _ _ _ e)
        | val v =>
          rw [popAttrs] at e
          split at e
          · split at e
            · exact iha _ _ _ _ _ e
            · split at e
              · simp only [Prod.mk.injEq] at e
                rw [← e.1]; exact .refl _
              · next h1 hd => exact (keepFlags_delAttr hd).trans (iha _ _ _ _ _ e)
          · exact iha _ _ _ _ _ e
    rw [popRec] at e
    split at e
    · simp only [Prod.mk.injEq] at e
      rw [← e.1]; exact .refl _
    · split at e
      · simp only [Prod.mk.injEq] at e
        rw [← e.1]; exact .refl _
      · split at e
        · next h1 _ e1 =>
          simp only [Prod.mk.injEq] at e
          rw [← e.1]; exact loop _ _ _ _ _ _ e1
        · next h1 _ _ e1 =>
          simp only [Prod.mk.injEq] at e
          rw [← e.1]; exact loop _ _ _ _ _ _ e1

/-- **C19, the flags stay set while the method runs.** No API call other than another `init` changes the
`is_initializing` flag of an existing module: a step that changes one is a `for_each` that sets flags. -/
theorem C19_only_init_changes_flags {K K' : List Loc} {w w' : World α} (wf : WFWorld w)
    (hK : ∀ l ∈ K, l < w.heap.length) (s : Step K w K' w') {l : Loc} {o o' : ModObj α} (ho : w.heap[l]? = some o)
    (ho' : w'.heap[l]? = some o') (hne : o'.isInit ≠ o.isInit) :
    ∃ fuel m ty b r, m ∈ K ∧ forEach World.heap fuel m ty (setIsInit b) w = (w', r) := by
  have done : KeepFlags w.heap w'.heap → False := by
    intro hk
    obtain ⟨o2, h2, e2⟩ := hk l o ho
    rw [ho'] at h2; cases h2
    exact hne e2
  cases s with
  | read _ _ => exact (done (.refl _)).elim
  | assign _ _ _ e => exact (done (keepFlags_setAttr e)).elim
  | link _ _ _ e => exact (done (keepFlags_setAttr e)).elim
  | delete _ e => exact (done (keepFlags_delAttr e)).elim
  | create c =>
    refine (done ?_).elim
    intro a oa ha
    refine ⟨oa, ?_, rfl⟩
    simp only [newModule]
    rw [List.getElem?_append_left (List.getElem?_eq_some_iff.1 ha).1]; exact ha
  | clone hm e =>
    refine (done ?_).elim
    have c := (confined_clone (A := fun _ => False) wf (by intro l n l' h; exact h.elim) (hK _ hm) e).1
    intro a oa ha
    exact ⟨oa, by rw [c.same a (List.getElem?_eq_some_iff.1 ha).1 id]; exact ha, rfl⟩
  | update _ _ e =>
    refine (done ?_).elim
    unfold updateState at e
    split at e
    · simp only [Prod.mk.injEq] at e
      rw [← e.1]; exact .refl _
    · exact keepFlags_assignAll e
  | pop _ e =>
    refine (done ?_).elim
    unfold popState at e
    split at e
    · simp only [Prod.mk.injEq] at e
      rw [← e.1]; exact .refl _
    · split at e
      · simp only [Prod.mk.injEq] at e
        rw [← e.1]; exact .refl _
      · split at e
        · next e1 =>
          simp only [Prod.mk.injEq] at e
          rw [← e.1]; exact keepFlags_popRec _ _ e1
        · next e1 =>
          simp only [Prod.mk.injEq] at e
          rw [← e.1]; exact keepFlags_popRec _ _ e1
  | sow _ _ _ e =>
    refine (done ?_).elim
    unfold sow at e
    split at e
    · cases e
    · split at e
      · cases e
      · split at e
        · split at e
          · cases e
          · split at e
            · cases e
            · split at e
              · exact keepFlags_setAttr e
              · cases e
        · cases e
        · split at e
          · cases e
          · split at e
            · cases e
            · exact keepFlags_setAttr e
  | flags hm e => exact ⟨_, _, _, _, _, hm, e⟩
  | trace j s => exact (done (.refl _)).elim

/-- A limitation: a nested `init` on a submodule clears the flags while the outer method is still running. (The
outer method reports, as its result, whether module 1 is initializing just before it ends.) -/
theorem C19_nested_clears_early : (initCall 4 0 (fun w =>
      match initCall 4 1 (fun w => (w, .ok ())) w with
      | (w, .ok _) => (w, .ok (w.heap.map (·.isInit)))
      | (w, .error e) => (w, .error e)) ⟨exShared, 9, 0, []⟩).2 = .ok [true, false] := by decide

/-! ### C20 -/

/-- What a successful `sow` does. -/
theorem sow_ok {w w' : World α} {l : Loc} {vt : Cls} {n : Str} {v : PyVal α}
    (hw : ∀ l n c x m, attrAt w.heap l n = some (.val (.cont c x m)) → WFContainer (.cont c x m))
    (e : sow l vt n v w = .ok w') :
    SameObjects w w' ∧ (∀ l' n', (l', n') ≠ (l, n) → attrAt w'.heap l' n' = attrAt w.heap l' n') ∧
    ∃ xs m, attrAt w'.heap l n = some (.val (.cont vt (.tup (xs ++ [v])) m)) ∧ WFContainer (.cont vt (.tup (xs ++ [v])) m) ∧
      ((attrAt w.heap l n = none ∧ xs = []) ∨ attrAt w.heap l n = some (.val (.cont vt (.tup xs) m))) := by
  have fin : ∀ (x : PyVal α) (y : PyVal α), WFVal x → newValue (attrAt w.heap l n) x = y → Compatible (attrAt w.heap l n) x →
      setAttr w l n (.val x) = .ok w' → SameObjects w w' ∧
      (∀ l' n', (l', n') ≠ (l, n) → attrAt w'.heap l' n' = attrAt w.heap l' n') ∧ attrAt w'.heap l n = some (.val y) := by
    intro x y hx hy hc e
    obtain ⟨o, a, ho, _, _, hs, rfl⟩ := setAttr_ok_iff.1 e
    rw [storedAttr_ok (fun c x m h => hw l n c x m h) hx hc, hy] at hs
    simp only [Except.ok.injEq] at hs
    subst hs
    refine ⟨.setAttrs ho _, ?_, ?_⟩
    · intro l' n' hne
      rw [attrAt_setAttrs ho, if_neg]
      rintro ⟨rfl, rfl⟩; exact hne rfl
    · rw [attrAt_setAttrs ho, if_pos ⟨rfl, rfl⟩]
  unfold sow at e
  split at e
  · cases e
  · next o ho =>
    have hat : attrAt w.heap l n = dget o.attrs n := by simp [attrAt, ho]
    split at e
    · cases e
    · split at e
      · next c cur m hd =>
        split at e
        · cases e
        · split at e
          · cases e
          · next hsub hne =>
            have hc : c = vt := by simpa using hne
            subst hc
            split at e
            · next xs =>
              rw [hd] at hat
              obtain ⟨h1, h2, h3⟩ := fin _ (.cont c (.tup (xs ++ [v])) m) (.inl (by simp [PyVal.Plain]))
                (by rw [hat]; rfl) (by intro _ _ _ _ _ _ _ h; cases h) e
              exact ⟨h1, h2, xs, m, h3, (hw _ _ _ _ _ hat).with_value (by simp [PyVal.Plain]), .inr hat⟩
            · cases e
      · cases e
      · next hd =>
        split at e
        · cases e
        · split at e
          · cases e
          · next x hx =>
            rw [construct_plain (by simp [PyVal.Plain])] at hx
            rcases classInit_plain_cases (c := vt) (v := .tup [v]) (by simp [PyVal.Plain]) (md := [])
              (by simp [DNodup]) with ⟨h, _⟩ | ⟨m, h, _, _, hwf, _⟩
            · rw [h] at hx; cases hx
            · rw [h] at hx; cases hx
              rw [hd] at hat
              obtain ⟨h1, h2, h3⟩ := fin _ (.cont vt (.tup [v]) m) (.inr hwf) (by rw [hat]; rfl)
                (by intro _ _ _ _ _ _ h; rw [hat] at h; cases h) e
              exact ⟨h1, h2, [], m, h3, hwf, .inl ⟨hat, rfl⟩⟩

theorem sow_keeps_wf {w w' : World α} {l : Loc} {vt : Cls} {n : Str} {v : PyVal α}
    (hw : ∀ l n c x m, attrAt w.heap l n = some (.val (.cont c x m)) → WFContainer (.cont c x m))
    (e : sow l vt n v w = .ok w') :
    ∀ l n c x m, attrAt w'.heap l n = some (.val (.cont c x m)) → WFContainer (.cont c x m) := by
  obtain ⟨_, h2, xs, m, h3, hwf, _⟩ := sow_ok hw e
  intro l' n' c x m' h
  by_cases hc : (l', n') = (l, n)
  · simp only [Prod.mk.injEq] at hc
    obtain ⟨rfl, rfl⟩ := hc
    rw [h3] at h; cases h; exact hwf
  · exact hw l' n' c x m' (by rw [← h2 l' n' hc]; exact h)

theorem runSows_present {cs : List (SowCall α)} : ∀ {w w' : World α},
    (∀ l n c x m, attrAt w.heap l n = some (.val (.cont c x m)) → WFContainer (.cont c x m)) →
    runSows cs w = (w', none) → ∀ {l n T xs m}, attrAt w.heap l n = some (.val (.cont T (.tup xs) m)) →
    attrAt w'.heap l n = some (.val (.cont T (.tup (xs ++ sown cs l n)) m)) ∧
      ∀ c ∈ cs, c.module = l → c.name = n → c.type = T := by
  induction cs with
  | nil =>
    intro w w' hw e l n T xs m ha
    simp only [runSows, Prod.mk.injEq] at e
    rw [← e.1]
    simp [sown, ha]
  | cons c cs ih =>
    intro w w' hw e l n T xs m ha
    simp only [runSows] at e
    split at e
    · simp at e
    · next w1 h1 =>
      obtain ⟨_, hother, ys, m', hnew, _, hcase⟩ := sow_ok hw h1
      have hw1 := sow_keeps_wf hw h1
      by_cases hc : c.module = l ∧ c.name = n
      · obtain ⟨rfl, rfl⟩ := hc
        rcases hcase with ⟨h, _⟩ | h
        · rw [ha] at h; cases h
        · rw [ha] at h
          simp only [Option.some.injEq, Attr.val.injEq, PyVal.cont.injEq, PyVal.tup.injEq] at h
          obtain ⟨rfl, rfl, rfl⟩ := h
          obtain ⟨h2, h3⟩ := ih hw1 e hnew
          refine ⟨by rw [h2]; simp [sown], ?_⟩
          intro d hd
          rcases List.mem_cons.1 hd with rfl | hd
          · intros; rfl
          · exact h3 d hd
      · have hne : (l, n) ≠ (c.module, c.name) := by
          intro h
          simp only [Prod.mk.injEq] at h
          exact hc ⟨h.1.symm, h.2.symm⟩
        obtain ⟨h2, h3⟩ := ih hw1 e (by rw [hother l n hne]; exact ha)
        refine ⟨by rw [h2]; simp [sown, hc], ?_⟩
        intro d hd
        rcases List.mem_cons.1 hd with rfl | hd
        · intro h4 h5; exact absurd ⟨h4, h5⟩ hc
        · exact h3 d hd

/-- **C20, accumulation.** After any successful sequence of `sow` calls, on any modules, names and types in any
order, an attribute that did not exist before and was sown to is a container of the type given in all those calls
whose value is the tuple of the values sown to it, in order; its metadata is that of a fresh container. -/
theorem C20_sow_accumulates {cs : List (SowCall α)} {w w' : World α} (wf : WFWorld w)
    (e : runSows cs w = (w', none)) {l : Loc} {n : Str} (hnew : attrAt w.heap l n = none) (hs : sown cs l n ≠ []) :
    ∃ T m, attrAt w'.heap l n = some (.val (.cont T (.tup (sown cs l n)) m)) ∧
      ∀ c ∈ cs, c.module = l → c.name = n → c.type = T := by
  have hw := wf.heap.conts
  clear wf
  induction cs generalizing w with
  | nil => simp [sown] at hs
  | cons c cs ih =>
    simp only [runSows] at e
    split at e
    · simp at e
    · next w1 h1 =>
      obtain ⟨_, hother, ys, m', hat, _, hcase⟩ := sow_ok hw h1
      have hw1 := sow_keeps_wf hw h1
      by_cases hc : c.module = l ∧ c.name = n
      · obtain ⟨rfl, rfl⟩ := hc
        rcases hcase with ⟨_, rfl⟩ | h
        · obtain ⟨h2, h3⟩ := runSows_present hw1 e hat
          refine ⟨c.type, m', by rw [h2]; simp [sown], ?_⟩
          intro d hd
          rcases List.mem_cons.1 hd with rfl | hd
          · intros; rfl
          · exact h3 d hd
        · rw [hnew] at h; cases h
      · have hne : (l, n) ≠ (c.module, c.name) := by
          intro h
          simp only [Prod.mk.injEq] at h
          exact hc ⟨h.1.symm, h.2.symm⟩
        obtain ⟨T, m, h2, h3⟩ := ih e (by rw [hother l n hne]; exact hnew) (by simpa [sown, hc] using hs) hw1
        refine ⟨T, m, by rw [h2]; simp [sown, hc], ?_⟩
        intro d hd
        rcases List.mem_cons.1 hd with rfl | hd
        · intro h4 h5; exact absurd ⟨h4, h5⟩ hc
        · exact h3 d hd

/-- **C20, frame.** Attributes that are not sown to, and all classes, ids, flags and traces, are unchanged; an
attribute that already held a tuple is extended. -/
theorem C20_sow_frame {cs : List (SowCall α)} {w w' : World α} (wf : WFWorld w) (e : runSows cs w = (w', none)) :
    SameObjects w w' ∧ (∀ l n, sown cs l n = [] → attrAt w'.heap l n = attrAt w.heap l n) ∧
    (∀ l n T xs m, attrAt w.heap l n = some (.val (.cont T (.tup xs) m)) →
      attrAt w'.heap l n = some (.val (.cont T (.tup (xs ++ sown cs l n)) m))) := by
  have hw := wf.heap.conts
  refine ⟨?_, ?_, fun l n T xs m h => (runSows_present hw e h).1⟩
  · clear wf
    induction cs generalizing w with
    | nil =>
      simp only [runSows, Prod.mk.injEq] at e
      rw [← e.1]; exact .refl _
    | cons c cs ih =>
      simp only [runSows] at e
      split at e
      · simp at e
      · next w1 h1 => exact (sow_ok hw h1).1.trans (ih e (sow_keeps_wf hw h1))
  · clear wf
    intro l n hs
    induction cs generalizing w with
    | nil =>
      simp only [runSows, Prod.mk.injEq] at e
      rw [← e.1]
    | cons c cs ih =>
      simp only [runSows] at e
      split at e
      · simp at e
      · next w1 h1 =>
        have hc : ¬ (c.module = l ∧ c.name = n) := by
          intro hc; simp [sown, hc] at hs
        rw [ih e (sow_keeps_wf hw h1) (by simpa [sown, hc] using hs)]
        apply (sow_ok hw h1).2.1
        intro h
        simp only [Prod.mk.injEq] at h
        exact hc ⟨h.1.symm, h.2.symm⟩

/-- What `sow` needs: the module exists and was created in the current trace, the name is not a class member or
reserved, the type is a Variable, and the attribute is absent or a tuple of the same type. -/
theorem sow_succeeds {w : World α} (hw : ∀ l n c x m, attrAt w.heap l n = some (.val (.cont c x m)) → WFContainer (.cont c x m))
    {l : Loc} {o : ModObj α} (ho : w.heap[l]? = some o) (ht : o.trace = w.curTrace) {n : Str} (hn : isReserved n = false)
    (hm : n ∉ o.cls.members) {vt : Cls} (hv : vt.isSub cVariable = true) (v : PyVal α)
    (hat : attrAt w.heap l n = none ∨ ∃ xs m, attrAt w.heap l n = some (.val (.cont vt (.tup xs) m))) :
    ∃ w', sow l vt n v w = .ok w' := by
  have hne : n ≠ py! "_module__state" := by rintro rfl; revert hn; decide
  have hval : w.traceValid o.trace = true := by rw [ht]; simp [World.traceValid]
  have hd : attrAt w.heap l n = dget o.attrs n := by simp [attrAt, ho]
  unfold sow
  simp only [ho, if_neg hne]
  rcases hat with hat | ⟨xs, m, hat⟩
  · rw [← hd, hat]
    simp only [if_neg hm]
    rw [construct_plain (by simp [PyVal.Plain])]
    rcases classInit_plain_cases (c := vt) (v := .tup [v]) (by simp [PyVal.Plain]) (md := [])
      (by simp [DNodup]) with ⟨_, h⟩ | ⟨m, h, _, _, hwf, _⟩
    · rcases h with h | h
      · simp [dkeys] at h
      · exact absurd rfl h.2
    · rw [h]
      exact ⟨_, setAttr_ok_iff.2 ⟨o, _, ho, hval, hne, storedAttr_ok (fun c x m h => hw l n c x m h) (.inr hwf)
        (by intro _ _ _ _ _ _ h; rw [hat] at h; cases h), rfl⟩⟩
  · rw [← hd, hat]
    simp only [hv, ne_eq, not_true_eq_false, if_false, Bool.true_eq_false]
    exact ⟨_, setAttr_ok_iff.2 ⟨o, _, ho, hval, hne, storedAttr_ok (fun c x m h => hw l n c x m h)
      (.inl (by simp [PyVal.Plain])) (by intro _ _ _ _ _ _ _ h; cases h), rfl⟩⟩

/-- **C20, success.** A sequence of `sow` calls on modules of the current trace, with names that are neither class
members nor reserved, Variable types, fresh attributes and one type per attribute, succeeds. -/
theorem C20_sow_succeeds {cs : List (SowCall α)} {w : World α} (wf : WFWorld w)
    (hc : ∀ c ∈ cs, (∃ o, w.heap[c.module]? = some o ∧ o.trace = w.curTrace ∧ c.name ∉ o.cls.members) ∧
      isReserved c.name = false ∧ c.type.isSub cVariable = true ∧ attrAt w.heap c.module c.name = none)
    (htype : ∀ c ∈ cs, ∀ d ∈ cs, c.module = d.module → c.name = d.name → c.type = d.type) :
    ∃ w', runSows cs w = (w', none) := by
  have key : ∀ (cs : List (SowCall α)) (w : World α),
      (∀ l n c x m, attrAt w.heap l n = some (.val (.cont c x m)) → WFContainer (.cont c x m)) →
      (∀ c ∈ cs, (∃ o, w.heap[c.module]? = some o ∧ o.trace = w.curTrace ∧ c.name ∉ o.cls.members) ∧
        isReserved c.name = false ∧ c.type.isSub cVariable = true ∧
        (attrAt w.heap c.module c.name = none ∨
          ∃ xs m, attrAt w.heap c.module c.name = some (.val (.cont c.type (.tup xs) m)))) →
      (∀ c ∈ cs, ∀ d ∈ cs, c.module = d.module → c.name = d.name → c.type = d.type) →
      ∃ w', runSows cs w = (w', none) := by
    intro cs
    induction cs with
    | nil => intro w _ _ _; exact ⟨w, rfl⟩
    | cons c cs ih =>
      intro w hw hc htype
      obtain ⟨⟨o, ho, ht, hm⟩, hn, hv, hat⟩ := hc c List.mem_cons_self
      obtain ⟨w1, h1⟩ := sow_succeeds hw ho ht hn hm hv c.value hat
      obtain ⟨hso, hother, xs, m, hnew, _, _⟩ := sow_ok hw h1
      obtain ⟨w', h2⟩ := ih w1 (sow_keeps_wf hw h1) (by
        intro d hd
        obtain ⟨⟨o, ho, ht, hm⟩, hn, hv, hat⟩ := hc d (List.mem_cons_of_mem _ hd)
        refine ⟨?_, hn, hv, ?_⟩
        · have hlt : d.module < w1.heap.length := by rw [hso.len]; exact (List.getElem?_eq_some_iff.1 ho).1
          have e := List.getElem?_eq_getElem hlt
          obtain ⟨a1, _, _, a4⟩ := hso.obj _ _ _ ho e
          refine ⟨_, e, ?_, by rw [a1]; exact hm⟩
          rw [a4, ht]
          simp only [World.curTrace, hso.jax, hso.stack]
        · by_cases hcd : (d.module, d.name) = (c.module, c.name)
          · right
            simp only [Prod.mk.injEq] at hcd
            rw [hcd.1, hcd.2, hnew, htype d (List.mem_cons_of_mem _ hd) c List.mem_cons_self hcd.1 hcd.2]
            exact ⟨_, _, rfl⟩
          · rw [hother _ _ hcd]; exact hat)
        (fun a ha b hb => htype a (List.mem_cons_of_mem _ ha) b (List.mem_cons_of_mem _ hb))
      exact ⟨w', by simp only [runSows, h1]; exact h2⟩
  exact key cs w wf.heap.conts (fun c hm => by
    obtain ⟨h1, h2, h3, h4⟩ := hc c hm
    exact ⟨h1, h2, h3, .inl h4⟩) htype

/-- **C20, rejection.** `sow` on an attribute that exists but is not a Variable of exactly the given type holding a
tuple raises ValueError (and, as it raises before any assignment, changes nothing). -/
theorem C20_sow_rejects {w : World α} {l : Loc} {n : Str} {a : Attr α} (hn : isReserved n = false)
    (hat : attrAt w.heap l n = some a) {vt : Cls}
    (hbad : ¬ ∃ xs m, a = .val (.cont vt (.tup xs) m) ∧ vt.isSub cVariable = true) (v : PyVal α) :
    sow l vt n v w = .error .valueError := by
  have hne : n ≠ py! "_module__state" := by rintro rfl; revert hn; decide
  cases ho : w.heap[l]? with
  | none => simp [attrAt, ho] at hat
  | some o =>
    have hd : dget o.attrs n = some a := by simpa [attrAt, ho] using hat
    unfold sow
    simp only [ho, if_neg hne, hd]
    cases a with
    | ref b => rfl
    | val x =>
      cases x with
      | cont c cur m =>
        simp only
        split
        · rfl
        · split
          · rfl
          · next h1 h2 =>
            have hc : c = vt := by simpa using h2
            subst hc
            split
            · next xs =>
              exact absurd ⟨xs, m, rfl, by simpa using h1⟩ hbad
            · rfl
      | _ => rfl

/-- Interleaved sows on two attributes of two modules. -/
example : ∃ w', runSows [⟨0, cIntermediate, py! "h", .data cArray 1⟩, ⟨1, cIntermediate, py! "h", .data cArray 2⟩,
      ⟨0, cIntermediate, py! "h", .data cArray 3⟩] exWorld = (w', none) ∧
    (∃ m, attrAt w'.heap 0 (py! "h") = some (.val (.cont cIntermediate (.tup [.data cArray 1, .data cArray 3]) m))) ∧
    sow 0 cIntermediate (py! "w") (.data cArray 3) exWorld = .error .valueError :=
  ⟨_, rfl, ⟨[(py! "sharding", .none)], by decide⟩, by decide⟩

/-! ### C22 -/

omit [DecidableEq α] in
theorem getValuePath_walk {h : Heap α} {a b : Loc} {p : List Str} (w : Walk h a p b) :
    getValuePath h (.ref a) p = .ok (.ref b) := by
  induction w with
  | here _ => rfl
  | step e _ ih => simp only [getValuePath, varsGet_eq e]; exact ih

omit [DecidableEq α] in
theorem mutableLeaf_eq {h : Heap α} {root : Loc} {path : Str} {l : Loc} {n : Str} (ha : Addresses h root path l n) :
    mutableLeaf h root path = .ok (l, n) := by
  obtain ⟨p, hp, hw⟩ := ha
  simp only [mutableLeaf, hp, List.dropLast_concat, getValuePath_walk hw, getLastD_append_single]

omit [DecidableEq α] in
theorem mutableLeaves_eq {h : Heap α} {root : Loc} : ∀ (items : List (Str × PyVal α)),
    (∀ kv ∈ items, ∃ l n, Addresses h root kv.1 l n ∧ attrAt h l n = some (.val kv.2)) →
    ∃ ls, mutableLeaves h root items = .ok ls ∧ dkeys ls = dkeys items ∧
      ∀ k leaf, (k, leaf) ∈ ls → ∃ v, (k, v) ∈ items ∧ Addresses h root k leaf.1 leaf.2 ∧
        attrAt h leaf.1 leaf.2 = some (.val v) := by
  intro items
  induction items with
  | nil => intro _; exact ⟨[], rfl, rfl, by simp⟩
  | cons kv items ih =>
    intro ha
    obtain ⟨l, n, h1, h2⟩ := ha kv List.mem_cons_self
    obtain ⟨ls, h3, h4, h5⟩ := ih (fun x hx => ha x (List.mem_cons_of_mem _ hx))
    obtain ⟨k, v⟩ := kv
    refine ⟨(k, (l, n)) :: ls, by simp only [mutableLeaves, mutableLeaf_eq h1, h3], ?_, ?_⟩
    · simp only [dkeys, List.map_cons] at h4 ⊢; rw [h4]
    · intro k' leaf hm
      rcases List.mem_cons.1 hm with hm | hm
      · cases hm; exact ⟨v, List.mem_cons_self, h1, h2⟩
      · obtain ⟨v', a, b⟩ := h5 k' leaf hm
        exact ⟨v', List.mem_cons_of_mem _ a, b⟩

omit [DecidableEq α] in
/-- **C22, paths and reading.** `m.mutable_state_dict()` returns on every graph, has exactly the paths of
`m.get_state()`, and the leaf at a path is a view on the attribute that the path leads to: reading it gives the
(unboxed) value that `get_state` has at the path. -/
theorem C22_paths_and_reads {h : Heap α} (wf : WFHeap h) {root : Loc} (hroot : root < h.length) {fuel : Nat}
    (hf : h.length < fuel) : ∃ d s, mutableStateDict fuel h root = .ok d ∧ getState fuel h root = some s ∧
      (∀ k, (dget d k).isSome ↔ (s.get k).isSome) ∧
      ∀ k leaf, dget d k = some leaf → LeadsTo h root k leaf.1 leaf.2 ∧ Addresses h root k leaf.1 leaf.2 ∧
        ∃ v, s.get k = some v ∧ attrAt h leaf.1 leaf.2 = some (.val v) ∧ leafGet h leaf = .ok v.valueOf := by
  obtain ⟨s, hs⟩ := getState_exists wf hroot hf
  obtain ⟨vs, S', d, hcan, hg⟩ := getState_spec wf hroot hs
  obtain ⟨hn, hr, hw, hF⟩ := d.complete wf isOrder_sort hroot
  have hs0 := hs
  unfold getState at hs
  split at hs
  · cases hs
  · next items S1 hit =>
    simp only [Option.some.injEq] at hs
    obtain ⟨vs', d', hperm⟩ := iterStateRec_dfs _ _ _ _ _ _ _ hit
    obtain ⟨rfl, rfl⟩ := d.functional d'
    have hnd : DNodup items := dnodup_perm hperm.symm (own_nodup wf hn hw)
    have hsget : ∀ k, s.get k = dget items k := by
      intro k; rw [← hs, State.new_get_nodup hnd]
    obtain ⟨ls, h1, h2, h3⟩ := mutableLeaves_eq (h := h) (root := root) items (by
      rintro ⟨k, v⟩ hkv
      have hk : s.get k = some v := by rw [hsget]; exact mem_dget hnd hkv
      obtain ⟨x, hx, n, ha, _, rfl⟩ := (hg k v).1 hk
      refine ⟨x.1, n, ⟨x.2, ?_, hw x hx⟩, ha⟩
      exact split_join (by simp) (by
        intro s hs
        rcases List.mem_append.1 hs with h | h
        · exact (hw x hx).noSlash wf s h
        · simp only [List.mem_singleton] at h; subst h; exact wf.slash _ _ _ ha))
    have hndl : DNodup ls := by unfold DNodup; rw [h2]; exact hnd
    refine ⟨ls, s, ?_, hs0, ?_, ?_⟩
    · simp only [mutableStateDict, hit, h1]
      rw [dofList_of_nodup hndl]
    · intro k
      rw [hsget, dget_isSome, dget_isSome, h2]
    · intro k leaf hk
      obtain ⟨v, hv, ha, hat⟩ := h3 k leaf (dget_mem hk)
      refine ⟨?_, ha, v, by rw [hsget]; exact mem_dget hnd hv, hat, ?_⟩
      · obtain ⟨p, hp, hw'⟩ := ha
        refine ⟨p, hw', ?_⟩
        rw [← hp, join_split]
      · simp only [leafGet, varsGet_eq hat]
        cases v <;> rfl

omit [DecidableEq α] in
/-- **C22, deleted attributes.** Reading a leaf whose attribute was deleted, for instance by `m.pop`, raises AttributeError. -/
theorem C22_deleted {h : Heap α} {l : Loc} {n : Str} (hl : l < h.length) (ha : attrAt h l n = none) :
    leafGet h (l, n) = .error .attributeError := by
  have ho : h[l]? = some (h[l]'hl) := List.getElem?_eq_getElem hl
  simp only [attrAt, ho] at ha
  simp only [leafGet, varsGet, ho, ha]

/-- **C22, writing.** If `leaf.value = v` succeeds, for the leaf of attribute `n` of module `l` that holds a
non-Module, then afterwards every access path, from any module, that leads to that attribute shows the new value
(a container keeps its kind), and every other attribute is unchanged. It succeeds exactly when the module
belongs to the current trace and the value fits the attribute. -/
theorem C22_write {w : World α} (wf : WFWorld w) {l : Loc} {n : Str} {old : PyVal α} {o : ModObj α}
    (ho : w.heap[l]? = some o) (hat : attrAt w.heap l n = some (.val old)) {v : PyVal α} (hv : WFVal v) :
    ((∃ w', leafSet w (l, n) v = .ok w') ↔ o.trace = w.curTrace ∧ Compatible (some (.val old)) v) ∧
    ∀ w', leafSet w (l, n) v = .ok w' → SameObjects w w' ∧
      (∀ root p, Walk w.heap root p l → access w'.heap (.ref root) (p ++ [n]) = some (.val (newValue (some (.val old)) v))) ∧
      (∀ l' n', (l', n') ≠ (l, n) → attrAt w'.heap l' n' = attrAt w.heap l' n') := by
  have hold := wfOld wf l n
  have hn : n ≠ py! "_module__state" := by
    have := wf.heap.reserved _ _ _ hat
    rintro rfl; revert this; decide
  have htv : w.traceValid o.trace = true ↔ o.trace = w.curTrace := by
    cases hot : o.trace with
    | mk j x =>
      simp only [World.traceValid, Bool.and_eq_true, decide_eq_true_eq]
      cases hcur : w.curTrace with
      | mk j' x' => simp
  have hiff : ∀ w', leafSet w (l, n) v = .ok w' ↔ o.trace = w.curTrace ∧ Compatible (some (.val old)) v ∧
      w' = w.setAttrs l o (dset o.attrs n (.val (newValue (some (.val old)) v))) := by
    intro w'
    simp only [leafSet]
    rw [setAttr_ok_iff]
    constructor
    · rintro ⟨o', a, ho', ht, _, hs, rfl⟩
      rw [ho] at ho'; cases ho'
      by_cases hc : Compatible (some (.val old)) v
      · rw [storedAttr_ok hold hv (by rw [hat]; exact hc), hat] at hs
        cases hs
        exact ⟨htv.1 ht, hc, rfl⟩
      · rw [storedAttr_error hold hv (by rw [hat]; exact hc)] at hs
        cases hs
    · rintro ⟨ht, hc, rfl⟩
      exact ⟨o, _, ho, htv.2 ht, hn, by rw [storedAttr_ok hold hv (by rw [hat]; exact hc), hat], rfl⟩
  constructor
  · constructor
    · rintro ⟨w', h⟩; exact ⟨((hiff w').1 h).1, ((hiff w').1 h).2.1⟩
    · rintro ⟨h1, h2⟩; exact ⟨_, (hiff _).2 ⟨h1, h2, rfl⟩⟩
  · intro w' hw'
    obtain ⟨_, _, rfl⟩ := (hiff w').1 hw'
    refine ⟨.setAttrs ho _, ?_, ?_⟩
    · intro root p hp
      have hp' : Walk (w.setAttrs l o (dset o.attrs n (.val (newValue (some (.val old)) v)))).heap root p l := by
        apply hp.congr (by simp [World.setAttrs])
        intro a m b hab
        rw [attrAt_setAttrs ho, if_neg]
        · exact hab
        · rintro ⟨rfl, rfl⟩; rw [hat] at hab; cases hab
      rw [access_snoc hp', attrAt_setAttrs ho, if_pos ⟨rfl, rfl⟩]
    · intro l' n' hne
      rw [attrAt_setAttrs ho, if_neg]
      rintro ⟨rfl, rfl⟩; exact hne rfl

/-- On the example graph: the leaf listed as "a/w" is the `w` of the shared block; writing it is seen as `b.w`. -/
example : ∃ d w', mutableStateDict 3 exHeap 0 = .ok d ∧ dget d (py! "a/w") = some (1, py! "w") ∧
    leafSet exWorld (1, py! "w") (.data cArray 8) = .ok w' ∧
    access w'.heap (.ref 0) [py! "b", py! "w"] = some (.val (exParam 8)) :=
  ⟨_, _, rfl, by decide, rfl, by decide⟩

end Nnx
