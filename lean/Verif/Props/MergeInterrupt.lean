import Verif.Spec.MergeInterrupt
import Verif.Props.ModuleGraph
import Verif.Proofs.Context
/-
C127: interrupted merges and clones.
-/
namespace Nnx
variable {α : Type} [DecidableEq α]

omit [DecidableEq α] in
/-- The Modules from `N` on are new, and lead to new Modules only; the others are as in `w0`. -/
structure NewApart (N : Nat) (w0 w : World α) : Prop where
  len : N ≤ w.heap.length
  old : ∀ l : Loc, l < N → w.heap[l]? = w0.heap[l]?
  refs : ∀ (l : Loc) (n : Str) (b : Loc), N ≤ l → attrAt w.heap l n = some (.ref b) → N ≤ b
  jax : w.jaxTrace = w0.jaxTrace
  stack : w.nnxStack = w0.nnxStack
  ids : w0.nextId ≤ w.nextId

omit [DecidableEq α] in
theorem NewApart.start (w : World α) : NewApart w.heap.length w w := by
  refine ⟨Nat.le_refl _, fun _ _ => rfl, fun l n b hl e => ?_, rfl, rfl, Nat.le_refl _⟩
  exact absurd (attrAt_some_lt e) (Nat.not_lt.2 hl)

omit [DecidableEq α] in
theorem NewApart.alloc {N : Nat} {w0 w : World α} (h : NewApart N w0 w) (c : Cls) : NewApart N w0 (w.allocDummy c) := by
  refine ⟨?_, fun l hl => ?_, fun l n b hl e => ?_, h.jax, h.stack, h.ids⟩
  · simp only [World.allocDummy, List.length_append]; exact Nat.le_add_right_of_le h.len
  · simp only [World.allocDummy]
    rw [List.getElem?_append_left (Nat.lt_of_lt_of_le hl h.len)]
    exact h.old l hl
  · simp only [World.allocDummy, attrAt] at e
    by_cases hlt : l < w.heap.length
    · rw [List.getElem?_append_left hlt] at e
      exact h.refs l n b hl e
    · rw [List.getElem?_append_right (Nat.not_lt.1 hlt)] at e
      cases hk : l - w.heap.length with
      | zero => rw [hk] at e; simp [dget] at e
      | succ k => rw [hk] at e; simp at e

omit [DecidableEq α] in
theorem NewApart.finish {N : Nat} {w0 w : World α} (h : NewApart N w0 w) {l : Loc} (hl : N ≤ l) (c : Cls) (st : List (Str × PyVal α))
    {ch : List (Str × Loc)} (hch : ∀ x ∈ ch, N ≤ x.2) (b : Bool) : NewApart N w0 (w.finish l c st ch b) := by
  refine ⟨?_, fun k hk => ?_, fun k n r hk e => ?_, h.jax, h.stack, Nat.le_succ_of_le h.ids⟩
  · simp only [World.finish, List.length_set]; exact h.len
  · simp only [World.finish]
    rw [List.getElem?_set, if_neg (Nat.ne_of_gt (Nat.lt_of_lt_of_le hk hl))]
    exact h.old k hk
  · simp only [World.finish, attrAt, List.getElem?_set] at e
    by_cases hkl : l = k
    · rw [if_pos hkl] at e
      split at e
      · next o ho =>
        split at ho
        · cases ho
          have := dget_mem e
          rcases mem_dupdate_cases this with h1 | h1
          · rcases mem_dupdate_cases h1 with h2 | h2
            · cases h2
            · obtain ⟨x, _, hx⟩ := List.mem_map.1 h2
              cases hx
          · obtain ⟨x, hx, hxe⟩ := List.mem_map.1 (mem_dofList h1)
            cases hxe
            exact hch x hx
        · cases ho
      · cases e
    · rw [if_neg hkl] at e
      exact h.refs k n r hk e

omit [DecidableEq α] in
theorem NewApart.buildSubs (N : Nat) (w0 : World α) (s : Subs α) : ∀ (budget : Nat) (w : World α) (im : Dict Nat Loc), NewApart N w0 w →
    (∀ i l, dget im i = some l → N ≤ l) → NewApart N w0 (buildSubsUpTo s budget w im).1 ∧
      ∀ b ls im', (buildSubsUpTo s budget w im).2 = some (b, ls, im') → (∀ x ∈ ls, N ≤ x.2) ∧ ∀ i l, dget im' i = some l → N ≤ l := by
  induction s with
  | nil =>
    intro budget w im h him
    refine ⟨h, fun b ls im' e => ?_⟩
    cases e
    exact ⟨by simp, him⟩
  | ref name i rest ih =>
    intro budget w im h him
    simp only [buildSubsUpTo]
    cases hg : dget im i with
    | none => exact ⟨h, fun b ls im' e => by cases e⟩
    | some l =>
      obtain ⟨h1, h2⟩ := ih budget w im h him
      have hl : N ≤ l := him _ _ hg
      cases hr : buildSubsUpTo rest budget w im with
      | mk w1 r =>
        rw [hr] at h1 h2
        cases r with
        | none => exact ⟨h1, fun b ls im' e => by cases e⟩
        | some r =>
          obtain ⟨b, ls, im1⟩ := r
          obtain ⟨h3, h4⟩ := h2 b ls im1 rfl
          refine ⟨h1, fun b ls im' e => ?_⟩
          cases e
          exact ⟨fun x hx => by rcases List.mem_cons.1 hx with rfl | hx; exacts [hl, h3 x hx], h4⟩
  | sub name c i subs statics isInit rest ih1 ih2 =>
    intro budget w im h him
    simp only [buildSubsUpTo]
    split
    · exact ⟨h, fun b ls im' e => by cases e⟩
    · cases budget with
      | zero => exact ⟨h, fun b ls im' e => by cases e⟩
      | succ budget =>
        have him' : ∀ j l, dget (dset im i w.heap.length) j = some l → N ≤ l := by
          intro j l hj
          rw [dget_dset] at hj
          split at hj
          · cases hj; exact h.len
          · exact him j l hj
        obtain ⟨h1, h2⟩ := ih1 budget _ _ (h.alloc c) him'
        simp only
        cases hr : buildSubsUpTo subs budget (w.allocDummy c) (dset im i w.heap.length) with
        | mk w1 r =>
          rw [hr] at h1 h2
          cases r with
          | none => exact ⟨h1, fun b ls im' e => by cases e⟩
          | some r =>
            obtain ⟨b, ch, im1⟩ := r
            obtain ⟨h3, h4⟩ := h2 b ch im1 rfl
            cases b with
            | zero => exact ⟨h1, fun b ls im' e => by cases e⟩
            | succ b =>
              obtain ⟨h5, h6⟩ := ih2 b _ im1 (h1.finish h.len c statics h3 isInit) h4
              simp only
              cases hr2 : buildSubsUpTo rest b (w1.finish w.heap.length c statics ch isInit) im1 with
              | mk w2 r2 =>
                rw [hr2] at h5 h6
                cases r2 with
                | none => exact ⟨h5, fun b ls im' e => by cases e⟩
                | some r2 =>
                  obtain ⟨b2, ls, im2⟩ := r2
                  obtain ⟨h7, h8⟩ := h6 b2 ls im2 rfl
                  refine ⟨h5, fun b ls im' e => ?_⟩
                  cases e
                  exact ⟨fun x hx => by rcases List.mem_cons.1 hx with rfl | hx; exacts [h.len, h7 x hx], h8⟩

omit [DecidableEq α] in
theorem NewApart.build {w : World α} (d : ModuleDef α) (budget : Nat) : NewApart w.heap.length w (buildModuleUpTo d budget w).1 ∧
    ∀ b l, (buildModuleUpTo d budget w).2 = some (b, l) → w.heap.length ≤ l := by
  unfold buildModuleUpTo
  cases budget with
  | zero => exact ⟨.start w, fun b l e => by cases e⟩
  | succ budget =>
    obtain ⟨h1, h2⟩ := NewApart.buildSubs w.heap.length w d.subs budget (w.allocDummy d.cls) (dset [] d.index w.heap.length)
      ((NewApart.start w).alloc d.cls) (by
        intro j l hj
        rw [dget_dset] at hj
        split at hj
        · cases hj; exact Nat.le_refl _
        · cases hj)
    simp only
    cases hr : buildSubsUpTo d.subs budget (w.allocDummy d.cls) (dset [] d.index w.heap.length) with
    | mk w1 r =>
      rw [hr] at h1 h2
      cases r with
      | none => exact ⟨h1, fun b l e => by cases e⟩
      | some r =>
        obtain ⟨b, ch, im1⟩ := r
        cases b with
        | zero => exact ⟨h1, fun b l e => by cases e⟩
        | succ b =>
          refine ⟨h1.finish (Nat.le_refl _) _ _ (h2 _ _ _ rfl).1 _, fun b l e => ?_⟩
          cases e
          exact Nat.le_refl _

theorem NewApart.setAttr {N : Nat} {w0 w w' : World α} (h : NewApart N w0 w) {l : Loc} (hl : N ≤ l) {n : Str} {v : PyVal α}
    (e : setAttr w l n (.val v) = .ok w') : NewApart N w0 w' := by
  unfold Nnx.setAttr at e
  cases ho : w.heap[l]? with
  | none => rw [ho] at e; cases e
  | some o =>
    rw [ho] at e
    dsimp only at e
    split at e
    · cases e
    · split at e
      · cases e
      · cases hs : storedAttr (dget o.attrs n) (.val v) with
        | error er => rw [hs] at e; cases e
        | ok a =>
          rw [hs] at e
          cases e
          obtain ⟨u, rfl⟩ := storedAttr_val hs
          refine ⟨?_, fun k hk => ?_, fun k m b hk e => ?_, h.jax, h.stack, h.ids⟩
          · simp only [World.setAttrs, List.length_set]; exact h.len
          · simp only [World.setAttrs]
            rw [List.getElem?_set, if_neg (Nat.ne_of_gt (Nat.lt_of_lt_of_le hk hl))]
            exact h.old k hk
          · rw [attrAt_setAttrs ho] at e
            split at e
            · cases e
            · exact h.refs k m b hk e

theorem NewApart.setPath {N : Nat} {w0 w : World α} (h : NewApart N w0 w) {v : PyVal α} : ∀ (p : List Str) (l : Loc) (w' : World α), N ≤ l →
    setValueAtPath w (.ref l) p v = .ok w' → NewApart N w0 w' := by
  intro p
  induction p with
  | nil => intro l w' _ e; cases e
  | cons n p ih =>
    intro l w' hl e
    cases p with
    | nil => exact h.setAttr hl e
    | cons m p =>
      simp only [setValueAtPath] at e
      cases hv : varsGet w.heap l n with
      | error er => rw [hv] at e; cases e
      | ok a =>
        rw [hv] at e
        cases a with
        | val u => simp [setValueAtPath] at e
        | ref b =>
          refine ih b w' (h.refs l n b hl ?_) e
          unfold varsGet at hv
          unfold attrAt
          cases ho : w.heap[l]? with
          | none => rw [ho] at hv; cases hv
          | some o =>
            rw [ho] at hv
            dsimp only at hv ⊢
            cases hd : dget o.attrs n with
            | none => rw [hd] at hv; cases hv
            | some a => rw [hd] at hv; cases hv; rfl

theorem NewApart.assignAll {N : Nat} {w0 : World α} {l : Loc} (hl : N ≤ l) : ∀ (E : List (Str × PyVal α)) (w : World α), NewApart N w0 w →
    NewApart N w0 (assignAll l E w).1 := by
  intro E
  induction E with
  | nil => intro w h; exact h
  | cons kv E ih =>
    intro w h
    obtain ⟨k, v⟩ := kv
    simp only [Nnx.assignAll]
    cases hs : setValueAtPath w (.ref l) (splitSlash k) v with
    | error e => exact h
    | ok w1 => exact ih w1 (h.setPath _ l w1 hl hs)

theorem NewApart.merge (n : Nat) (d : ModuleDef α) (states : List (State (PyVal α))) (w : World α) :
    NewApart w.heap.length w (mergeInterrupted n d states w) := by
  obtain ⟨h1, h2⟩ := NewApart.build (w := w) d n
  unfold mergeInterrupted
  cases hr : buildModuleUpTo d n w with
  | mk w1 r =>
    rw [hr] at h1 h2
    cases r with
    | none => exact h1
    | some r =>
      obtain ⟨b, l⟩ := r
      exact h1.assignAll (h2 b l rfl) _ _

omit [DecidableEq α] in
theorem NewApart.untouched {w x : World α} (h : NewApart w.heap.length w x) : Untouched w x := ⟨h.old, h.jax, h.stack, h.ids⟩

/-- **C127, merge.** Whatever the definition and the States are, and wherever it is stopped, by an exception of its own or from outside:
`merge` has changed nothing about the Modules there were. -/
theorem C127_merge (n : Nat) (d : ModuleDef α) (states : List (State (PyVal α))) (w : World α) :
    Untouched w (mergeInterrupted n d states w) := (NewApart.merge n d states w).untouched

/-- **C127, clone.** The same holds of `clone`, so the Module that is cloned is as it was. -/
theorem C127_clone (n fuel : Nat) (l : Loc) (w : World α) : Untouched w (cloneInterrupted n fuel l w) := by
  unfold cloneInterrupted
  split
  · exact (NewApart.start w).untouched
  · exact C127_merge _ _ _ _

omit [DecidableEq α] in
theorem collected_eq {w x : World α} (h : Untouched w x) : x.collected w.heap.length = { w with nextId := x.nextId } := by
  have : x.heap.take w.heap.length = w.heap := by
    apply List.ext_getElem?
    intro l
    rw [List.getElem?_take]
    split
    · next hl => exact h.modules l hl
    · next hl => rw [List.getElem?_eq_none (Nat.not_lt.1 hl)]
  unfold World.collected
  rw [this, h.jax, h.stack]

/-- After any number of interrupted attempts the world is what it was, but for the ids that were used. -/
theorem attempts_eq {w x : World α} (h : MergeAttempts w x) : ∃ k, w.nextId ≤ k ∧ x = { w with nextId := k } := by
  induction h with
  | start => exact ⟨w.nextId, Nat.le_refl _, rfl⟩
  | @merge x n d states _ ih =>
    obtain ⟨k, hk, rfl⟩ := ih
    have hu := C127_merge n d states { w with nextId := k }
    exact ⟨_, Nat.le_trans hk hu.ids, collected_eq hu⟩
  | @clone x n fuel l _ ih =>
    obtain ⟨k, hk, rfl⟩ := ih
    have hu := C127_clone n fuel l { w with nextId := k }
    exact ⟨_, Nat.le_trans hk hu.ids, collected_eq hu⟩

omit [DecidableEq α] in
theorem wfWorld_later {w : World α} (wf : WFWorld w) {k : Nat} (hk : w.nextId ≤ k) : WFWorld { w with nextId := k } :=
  ⟨wf.heap, fun l o ho => Nat.le_trans (wf.ids l o ho) hk⟩

/-- **C127, repetition.** After any number of interrupted merges and clones, of whatever definitions, States and Modules, merging the parts of a
Module succeeds and gives an observationally equal Module, made of new Modules with ids that no Module had. -/
theorem C127_repeat {h : Heap α} (wf : WFHeap h) {root : Loc} (hroot : root < h.length) {fuel : Nat}
    {ss : List (State (PyVal α))} {d : ModuleDef α} (hp : partitionModule fuel h root [] = .ok (ss, d))
    {w x : World α} (wfw : WFWorld w) (ha : MergeAttempts w x) :
    ∃ w' r', mergeDef d ss x = (w', .ok r') ∧ SameGraph h root w'.heap r' ∧ WFWorld w' ∧
      (∀ l : Loc, l < w.heap.length → w'.heap[l]? = w.heap[l]?) ∧
      (∀ l : Loc, Reaches w'.heap r' l → w.heap.length ≤ l) := by
  obtain ⟨k, hk, rfl⟩ := attempts_eq ha
  obtain ⟨w', r', h1, h2, h3, h4, h5⟩ := C11_partition_merge wf hroot hp (wfWorld_later wfw hk)
  refine ⟨w', r', h1, h2, h3, h4, fun l hl => ?_⟩
  have hlt : l < w'.heap.length := by obtain ⟨p, hp⟩ := hl; exact hp.lt
  exact (h5 l _ hl (List.getElem?_eq_getElem hlt)).1

/-- **C127, repetition of clone.** After any number of interrupted attempts, `clone` succeeds, and the clone is observationally equal to
what the Module was before them. -/
theorem C127_repeat_clone {w x : World α} (wf : WFWorld w) {m : Loc} (hm : m < w.heap.length) {fuel : Nat}
    (hf : w.heap.length < fuel) (ha : MergeAttempts w x) :
    ∃ w' c, cloneModule fuel m x = (w', .ok c) ∧ WFWorld w' ∧ SameGraph w.heap m w'.heap c ∧
      (∀ l : Loc, l < w.heap.length → w'.heap[l]? = w.heap[l]?) := by
  obtain ⟨k, hk, rfl⟩ := attempts_eq ha
  obtain ⟨w', c, h1, h2, h3, h4, _⟩ := C12_clone_fresh (wfWorld_later wf hk) hm hf
  exact ⟨w', c, h1, h2, h3, h4⟩

/-! ### The interrupted merge is the merge, stopped -/

omit [DecidableEq α] in
theorem buildSubsUpTo_enough (s : Subs α) : ∀ (w : World α) (im : Dict Nat Loc) {ls w' im'}, buildSubs s w im = .ok (ls, w', im') →
    ∃ N, ∀ b, buildSubsUpTo s (N + b) w im = (w', some (b, ls, im')) := by
  induction s with
  | nil =>
    intro w im ls w' im' h
    cases h
    exact ⟨0, fun b => by simp [buildSubsUpTo]⟩
  | ref name i rest ih =>
    intro w im ls w' im' h
    simp only [buildSubs] at h
    cases hg : dget im i with
    | none => rw [hg] at h; cases h
    | some l =>
      rw [hg] at h
      simp only at h
      cases hr : buildSubs rest w im with
      | error e => rw [hr] at h; cases h
      | ok r =>
        obtain ⟨ls1, w1, im1⟩ := r
        rw [hr] at h
        cases h
        obtain ⟨N, hN⟩ := ih w im hr
        exact ⟨N, fun b => by simp only [buildSubsUpTo, hg, hN b]⟩
  | sub name c i subs statics isInit rest ih1 ih2 =>
    intro w im ls w' im' h
    simp only [buildSubs] at h
    split at h
    · cases h
    · next hi =>
      cases hr : buildSubs subs (w.allocDummy c) (dset im i w.heap.length) with
      | error e => rw [hr] at h; cases h
      | ok r =>
        obtain ⟨ch, w1, im1⟩ := r
        rw [hr] at h
        simp only at h
        cases hr2 : buildSubs rest (w1.finish w.heap.length c statics ch isInit) im1 with
        | error e => rw [hr2] at h; cases h
        | ok r =>
          obtain ⟨ls2, w2, im2⟩ := r
          rw [hr2] at h
          cases h
          obtain ⟨N1, h1⟩ := ih1 _ _ hr
          obtain ⟨N2, h2⟩ := ih2 _ _ hr2
          refine ⟨N1 + (N2 + 1) + 1, fun b => ?_⟩
          have e : N1 + (N2 + 1) + 1 + b = (N1 + (N2 + b + 1)) + 1 := by omega
          rw [e]
          simp only [buildSubsUpTo, hi, h1, h2]
          simp

/-- **C127, completion.** A merge that succeeds, or raises when it assigns the values, is the interrupted merge that is given enough steps: there
is a number of steps after which nothing more happens. -/
theorem C127_complete {d : ModuleDef α} {w w1 : World α} {l : Loc} (hb : buildModule d w = .ok (l, w1)) (states : List (State (PyVal α))) :
    ∃ N, ∀ n, N ≤ n → mergeInterrupted n d states w = (mergeDef d states w).1 := by
  unfold mergeDef
  rw [hb]
  simp only [updateModule]
  unfold buildModule at hb
  simp only at hb
  cases hs : buildSubs d.subs (w.allocDummy d.cls) (dset [] d.index w.heap.length) with
  | error e => rw [hs] at hb; cases hb
  | ok q =>
    obtain ⟨ch, w2, im⟩ := q
    rw [hs] at hb
    cases hb
    obtain ⟨N, hN⟩ := buildSubsUpTo_enough _ _ _ hs
    generalize hE : (State.new [] :: states).foldl (fun d s => dupdate d s.items) [] = E
    refine ⟨N + 2 + E.length, fun n hn => ?_⟩
    obtain ⟨b, rfl⟩ : ∃ b, n = (N + (E.length + b + 1)) + 1 := ⟨n - (N + 2 + E.length), by omega⟩
    simp only [mergeInterrupted, buildModuleUpTo, hN, hE]
    rw [List.take_of_length_le (by omega)]
    generalize assignAll w.heap.length E (w2.finish w.heap.length d.cls d.statics ch d.isInit) = q
    obtain ⟨w3, r3⟩ := q
    cases r3 <;> rfl

/-- **C127, clone to the end.** A clone that is given enough steps is the clone. -/
theorem C127_complete_clone {w w' : World α} {m c : Loc} {fuel : Nat} (hc : cloneModule fuel m w = (w', .ok c)) :
    ∃ N, ∀ n, N ≤ n → cloneInterrupted n fuel m w = w' := by
  unfold cloneModule at hc
  unfold cloneInterrupted
  cases hp : partitionModule fuel w.heap m [] with
  | error e => rw [hp] at hc; cases hc
  | ok q =>
    obtain ⟨ss, d⟩ := q
    rw [hp] at hc
    simp only at hc ⊢
    cases hb : buildModule d w with
    | error e => rw [mergeDef, hb] at hc; cases hc
    | ok q =>
      obtain ⟨l, w1⟩ := q
      obtain ⟨N, hN⟩ := C127_complete hb ss
      exact ⟨N, fun n hn => by rw [hN n hn, hc]⟩

/-- **C127, exceptions.** A merge of whatever definition and States that raises, or returns, has changed nothing about the Modules there were. -/
theorem C127_raises (d : ModuleDef α) (states : List (State (PyVal α))) (w : World α) : Untouched w (mergeDef d states w).1 := by
  cases hb : buildModule d w with
  | error e =>
    unfold mergeDef
    rw [hb]
    exact (NewApart.start w).untouched
  | ok q =>
    obtain ⟨l, w1⟩ := q
    obtain ⟨N, hN⟩ := C127_complete hb states
    rw [← hN N (Nat.le_refl _)]
    exact C127_merge N d states w

/-- Merging the parts of the example graph: two steps make its two Modules, two fill them in, and the values are assigned one by one. -/
example : ∃ ss d, partitionModule 3 exWorld.heap 0 [] = .ok (ss, d) ∧
    (List.range 9).map (fun n => (mergeInterrupted n d ss exWorld).heap.length) = [2, 3, 4, 4, 4, 4, 4, 4, 4] ∧
    attrAt (mergeInterrupted 5 d ss exWorld).heap 3 (py! "s") = some (.val (exStat 6)) ∧
    attrAt (mergeInterrupted 5 d ss exWorld).heap 3 (py! "w") = none ∧
    attrAt (mergeInterrupted 6 d ss exWorld).heap 3 (py! "w") = some (.val (exParam 5)) :=
  ⟨_, _, rfl, by decide, by decide, by decide, by decide⟩

/-- The clone of the example graph is made by 7 steps, and not by 6. -/
example : (cloneInterrupted 7 3 0 exWorld).heap = (cloneModule 3 0 exWorld).1.heap ∧
    (cloneInterrupted 6 3 0 exWorld).heap ≠ (cloneModule 3 0 exWorld).1.heap := by decide +kernel

end Nnx
