import Verif.Spec.RegisterThreads
import Verif.Props.NodeTypes
import Verif.Proofs.RegisterLater
/-
C131: node types registered by several threads.
-/
namespace Nnx
variable {α : Type}

theorem foldl_registerNodeType : ∀ (new types : List Cls), new.foldl registerNodeType types = types ++ new
  | [], types => (List.append_nil types).symm
  | c :: new, types => by rw [List.foldl_cons, foldl_registerNodeType new]; simp [registerNodeType]

/-- What holds at any time: the registry is what it was in the beginning and some of the registered types, in order,
among them the one whose registration returned last; a thread that is registering has seen such a registry. -/
structure RegInv (before : List Cls) (g : RegWorld) : Prop where
  now : ∃ kept, g.types = libraryTypes ++ before ++ kept ∧ kept.Sublist g.done ∧ kept.getLast? = g.done.getLast?
  seen : ∀ t types c, g.threads t = .loaded types c → ∃ kept, types = libraryTypes ++ before ++ kept ∧ kept.Sublist g.done

theorem regInv_start (before : List Cls) : RegInv before (.start before) :=
  ⟨⟨[], by simp [RegWorld.start, foldl_registerNodeType], by simp [RegWorld.start], rfl⟩, fun t types c h => by cases h⟩

theorem regInv_step {before : List Cls} {g : RegWorld} (h : RegInv before g) (e : RegEvent) : RegInv before (g.step e) := by
  cases e with
  | load t c =>
    simp only [RegWorld.step]
    split
    · refine ⟨h.now, fun u types d hu => ?_⟩
      dsimp only at hu
      split at hu
      · cases hu
        obtain ⟨kept, h1, h2, -⟩ := h.now
        exact ⟨kept, h1, h2⟩
      · exact h.seen u types d hu
    · exact h
  | store t =>
    simp only [RegWorld.step]
    split
    · exact h
    · next types c ht =>
      obtain ⟨kept, h1, h2⟩ := h.seen t types c ht
      refine ⟨⟨kept ++ [c], ?_, h2.append (List.Sublist.refl _), by simp⟩, fun u types' d hu => ?_⟩
      · simp only [registerNodeType, h1, List.append_assoc]
      · dsimp only at hu
        split at hu
        · cases hu
        · obtain ⟨k, h3, h4⟩ := h.seen u types' d hu
          exact ⟨k, h3, h4.trans (List.sublist_append_left _ _)⟩

theorem regInv_run {before : List Cls} : ∀ (evs : List RegEvent) {g : RegWorld}, RegInv before g → RegInv before (g.run evs)
  | [], _, h => h
  | e :: evs, _, h => regInv_run evs (regInv_step h e)

/-- **C131, every schedule.** Whatever the threads do, the types of the library, and those registered before the threads
started, stay registered; all other types in the registry were registered by some thread; and the type whose registration
returned last is in it. -/
theorem C131_any_schedule (before : List Cls) (evs : List RegEvent) :
    ∃ kept, ((RegWorld.start before).run evs).types = libraryTypes ++ before ++ kept ∧
      kept.Sublist ((RegWorld.start before).run evs).done ∧
      kept.getLast? = ((RegWorld.start before).run evs).done.getLast? :=
  (regInv_run evs (regInv_start before)).now

/-- **C131, nodes.** So a node of the library is one for all threads at all times. -/
theorem C131_library_nodes (before : List Cls) (evs : List RegEvent) (v : PyVal α) (hv : NodeFor before v) :
    isNodeIn ((RegWorld.start before).run evs).types v = true := by
  obtain ⟨kept, h, -, -⟩ := C131_any_schedule before evs
  have := (C126_is_node before v).1.2 hv
  rw [h]
  rw [registered, foldl_registerNodeType] at this
  unfold isNodeIn at this ⊢
  rw [List.any_append, this]
  rfl

/-- **C131, in turn.** If the registrations do not overlap, no type is lost: the registry is what it was in the beginning and
the registered types in the order in which their registrations returned. That no type is lost in every schedule is false:
see `C131_lost`. -/
theorem C131_in_turn_partial (before : List Cls) {evs : List RegEvent} (ho : InTurn (.start before) evs) :
    ((RegWorld.start before).run evs).types = libraryTypes ++ before ++ ((RegWorld.start before).run evs).done := by
  have key : ∀ (evs : List RegEvent) (g : RegWorld), InTurn g evs → g.types = libraryTypes ++ before ++ g.done →
      (g.quiet ∨ ∃ t c, g.threads t = .loaded g.types c ∧ ∀ u, u ≠ t → g.threads u = .idle) →
      (g.run evs).types = libraryTypes ++ before ++ (g.run evs).done := by
    intro evs
    induction evs with
    | nil => intro g _ h _; exact h
    | cons e evs ih =>
      intro g ho h hs
      cases ho with
      | @load _ t c _ hq ho =>
        refine ih _ ho ?_ (.inr ⟨t, c, ?_, fun u hu => ?_⟩)
        · simp only [RegWorld.step, hq t]; exact h
        · simp only [RegWorld.step, hq t, if_true]
        · simp only [RegWorld.step, hq t, if_neg hu]; exact hq u
      | @store _ t _ ho =>
        cases ht : g.threads t with
        | idle =>
          have e : g.step (.store t) = g := by simp only [RegWorld.step, ht]
          rw [e] at ho
          have := ih g ho h hs
          simpa only [RegWorld.run, List.foldl_cons, e] using this
        | loaded types c =>
          rcases hs with hq | ⟨t', c', h1, h2⟩
          · rw [hq t] at ht; cases ht
          · have : t = t' := Classical.byContradiction fun hne => by rw [h2 t hne] at ht; cases ht
            subst this
            rw [h1] at ht
            cases ht
            refine ih _ ho ?_ (.inl fun u => ?_)
            · simp only [RegWorld.step, h1, h]
              simp [registerNodeType]
            · simp only [RegWorld.step, h1]
              split
              · rfl
              · next hu => exact h2 u hu
  exact key evs _ ho (by simp [RegWorld.start, foldl_registerNodeType]) (.inl fun _ => rfl)

theorem InTurn.prefix {evs evs' : List RegEvent} : ∀ {g : RegWorld}, InTurn g (evs ++ evs') → InTurn g evs := by
  induction evs with
  | nil => intro g _; exact .nil
  | cons e evs ih =>
    intro g h
    cases h with
    | load hq h => exact .load hq (ih h)
    | store h => exact .store (ih h)

theorem done_grows : ∀ (evs : List RegEvent) (g : RegWorld), ∃ more, (g.run evs).done = g.done ++ more
  | [], g => ⟨[], by simp [RegWorld.run]⟩
  | e :: evs, g => by
    obtain ⟨more, h⟩ := done_grows evs (g.step e)
    have : ∃ m, (g.step e).done = g.done ++ m := by
      cases e with
      | load t c => simp only [RegWorld.step]; split <;> exact ⟨[], by simp⟩
      | store t =>
        simp only [RegWorld.step]
        split
        · exact ⟨[], by simp⟩
        · exact ⟨_, rfl⟩
    obtain ⟨m, hm⟩ := this
    exact ⟨m ++ more, by rw [show g.run (e :: evs) = (g.step e).run evs from rfl, h, hm, List.append_assoc]⟩

/-- **C131, partition.** While a thread partitions a Module, other threads register types, in turn: some before the definition is
made, some between this and the time the State is taken. Merging the definition and the State, split in any way and in any world,
gives a Module that is observationally equal to the original one: no value is lost, even those whose type was registered in
between, which are both in the definition and in the State. -/
theorem C131_registered_between [DecidableEq α] {before : List Cls} {evs later : List RegEvent}
    (ho : InTurn (.start before) (evs ++ later))
    (hu : MetadataUnregistered (before ++ ((RegWorld.start before).run (evs ++ later)).done))
    {h : Heap α} (wf : WFHeap h) {root : Loc} (hroot : root < h.length) {f1 f2 : Nat} {d : ModuleDef α}
    (hd : getModuleDefIn ((RegWorld.start before).run evs).types f1 h root = some d) {s : State (PyVal α)}
    (hs : getStateIn ((RegWorld.start before).run (evs ++ later)).types f2 h root = some s) {ss : List (State (PyVal α))}
    (hp : Pieces s ss) {w : World α} (wfw : WFWorld w) :
    ∃ w' r', mergeDef d ss w = (w', .ok r') ∧ SameGraph h root w'.heap r' ∧
      (∀ l : Loc, l < w.heap.length → w'.heap[l]? = w.heap[l]?) := by
  have e1 := C131_in_turn_partial before ho.prefix
  have e2 := C131_in_turn_partial before ho
  obtain ⟨more, hm⟩ := done_grows later ((RegWorld.start before).run evs)
  have hrun : ((RegWorld.start before).run evs).run later = (RegWorld.start before).run (evs ++ later) := by
    simp only [RegWorld.run, List.foldl_append]
  rw [hrun] at hm
  rw [hm] at e2 hu
  generalize ((RegWorld.start before).run evs).done = dn at e1 e2 hu
  rw [e1, List.append_assoc, ← registered_eq] at hd
  rw [e2, List.append_assoc, ← registered_eq] at hs
  obtain ⟨w', f, hmm, sp⟩ := mergeMore_spec (extends_registered (before ++ dn)) (extends_registered (before ++ (dn ++ more)))
    (noMeta_registered hu)
    (by
      intro v hv
      rw [(C126_is_node _ v).1] at hv ⊢
      refine hv.imp id ?_
      rintro ⟨c, hc, h⟩
      exact ⟨c, by rw [← List.append_assoc]; exact List.mem_append_left _ hc, h⟩)
    wf hroot hd hs hp (w := w) wfw.heap.conts
  exact ⟨w', _, hmm, sp.iso.sameGraph wf hroot, sp.old⟩

/-- Two threads that register two types at the same time. -/
def exTwoRegister (c d : Cls) : List RegEvent := [.load 0 c, .load 1 d, .store 0, .store 1]

/-- **C131 is false of every schedule.** Two threads register two types at the same time; both calls return, no call is under
way, and one of the types is not registered: the registry is the same as if only the other one had been. -/
theorem C131_lost (before : List Cls) (c d : Cls) :
    let g := (RegWorld.start before).run (exTwoRegister c d)
    g.quiet ∧ g.done = [c, d] ∧ g.types = libraryTypes ++ before ++ [d] := by
  refine ⟨fun t => ?_, ?_, ?_⟩
  · simp only [RegWorld.run, exTwoRegister, List.foldl_cons, List.foldl_nil, RegWorld.step, RegWorld.start]
    by_cases h0 : t = 0 <;> by_cases h1 : t = 1 <;> simp_all
  · simp [RegWorld.run, exTwoRegister, RegWorld.step, RegWorld.start]
  · simp [RegWorld.run, exTwoRegister, RegWorld.step, RegWorld.start, foldl_registerNodeType]
    simp [registerNodeType]

/-- **C131, consequences.** A Module holds a value of type `c`. After thread 0 has registered `c`, get_module_def does not list
the value as a static field, since it is a node. If now thread 1, which had begun before, finishes to register another type,
get_state does not list the value either. A partition at this time loses the value: it is missing after merge. -/
theorem C131_partition_loses : ∃ (w : World Nat) (c d : Cls) (evs : List RegEvent) (ds : ModuleDef Nat) (s : State (PyVal Nat))
    (w' : World Nat) (r : Loc), WFWorld w ∧
    getModuleDefIn ((RegWorld.start []).run evs).types 3 w.heap 0 = some ds ∧
    c ∈ ((RegWorld.start []).run evs).done ∧
    getStateIn ((RegWorld.start []).run (evs ++ [.store 1])).types 3 w.heap 0 = some s ∧
    ((RegWorld.start []).run (evs ++ [.store 1])).done = [c, d] ∧
    mergeDef ds [s] w = (w', .ok r) ∧ (∃ v l, IsA v c.name ∧ attrAt w.heap 1 (py! "k") = some (.val v) ∧
      Walk w'.heap r [py! "a"] l ∧ attrAt w'.heap l (py! "k") = none) ∧ ¬ SameGraph w.heap 0 w'.heap r := by
  refine ⟨exWorld, cTuple, { name := py! "Other" }, [.load 0 cTuple, .load 1 { name := py! "Other" }, .store 0], _, _, _, _,
    exWorld_wf, rfl, by decide, rfl, rfl, rfl, ⟨.data cTuple 3, 3, .inl rfl, by decide, ?_, by decide⟩, ?_⟩
  · exact .step (by decide) (.here (by decide))
  · intro h
    have := h.1 [py! "a", py! "k"]
    revert this
    decide

/-- Three registrations in turn, by two threads. -/
example : InTurn (.start [cTuple]) [.load 0 cStr, .store 0, .store 1, .load 1 cDict, .store 1, .load 0 cNoneType] ∧
    ((RegWorld.start [cTuple]).run [.load 0 cStr, .store 0, .store 1, .load 1 cDict, .store 1, .load 0 cNoneType]).types =
      libraryTypes ++ [cTuple, cStr, cDict] := by
  refine ⟨.load (fun _ => rfl) (.store (.store (.load ?_ (.store (.load ?_ .nil))))), by decide⟩
  · intro t
    simp only [RegWorld.step, RegWorld.start, if_true]
    by_cases h0 : t = 0 <;> by_cases h1 : t = 1 <;> simp_all
  · intro t
    simp only [RegWorld.step, RegWorld.start, if_true]
    by_cases h0 : t = 0 <;> by_cases h1 : t = 1 <;> simp_all

/-- tuple is registered between the definition and the State of a Module that has a tuple: the tuple is in both. -/
example : ∃ d s, InTurn (.start []) ([] ++ [.load 0 cTuple, .store 0]) ∧
    MetadataUnregistered ([] ++ ((RegWorld.start []).run ([] ++ [.load 0 cTuple, .store 0])).done) ∧
    getModuleDefIn ((RegWorld.start []).run []).types 3 exWorld.heap 0 = some d ∧
    getStateIn ((RegWorld.start []).run ([] ++ [.load 0 cTuple, .store 0])).types 3 exWorld.heap 0 = some s ∧
    (s.get (py! "a/k")).isSome ∧ Pieces s [s] := by
  refine ⟨_, _, .load (fun _ => rfl) (.store .nil), ?_, rfl, rfl, by decide, pieces_self ?_⟩
  · intro c hc
    have : c = cTuple := by simpa [RegWorld.run, RegWorld.step, RegWorld.start] using hc
    subst this
    decide
  · exact (Obtainable.new _).canonical

end Nnx
