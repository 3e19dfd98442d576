import Verif.Spec.RngThreads
import Verif.Props.Context
/-
C112: drawing keys in several threads.
-/
namespace Nnx
variable {κ η : Type}

/-- What a thread has read is still true. -/
def PcTrue (ss : List (RngStream κ)) : RngPc → Prop
  | .idle => True
  | .start _ => True
  | .counted c path => ∃ st, ss[c.stream]? = some st ∧ path = st.path ++ [st.count]
  | .bumping c path n => ∃ st, ss[c.stream]? = some st ∧ path = st.path ++ [st.count] ∧ n = st.count

/-- The invariant of schedules without overlap. -/
structure RngThreadInv (P : RngPrims κ η) (ss : List (RngStream κ)) (m : RngMachine κ) : Prop where
  turn : CallsInTurn P ss (m.log.map (·.2)) m.streams
  reads : ∀ t, PcTrue m.streams (m.threads t)
  apart : ∀ t u c c', t ≠ u → (m.threads t).call? = some c → (m.threads u).call? = some c' → c.stream ≠ c'.stream

theorem RngMachine.goto_self (m : RngMachine κ) (t : Nat) (pc : RngPc) : (m.goto t pc).threads t = pc := by
  simp [RngMachine.goto]

theorem RngMachine.goto_ne (m : RngMachine κ) {t u : Nat} (h : u ≠ t) (pc : RngPc) : (m.goto t pc).threads u = m.threads u := by
  simp [RngMachine.goto, h]

/-- A thread moves and nothing else happens. -/
theorem RngThreadInv.goto {P : RngPrims κ η} {ss : List (RngStream κ)} {m : RngMachine κ} (I : RngThreadInv P ss m) {t : Nat} {pc : RngPc}
    (hp : PcTrue m.streams pc) (ha : ∀ u c c', u ≠ t → pc.call? = some c → (m.threads u).call? = some c' → c.stream ≠ c'.stream) :
    RngThreadInv P ss (m.goto t pc) := by
  refine ⟨I.turn, fun u => ?_, fun u v c c' huv hu hv => ?_⟩
  · by_cases h : u = t
    · rw [h, RngMachine.goto_self]; exact hp
    · rw [RngMachine.goto_ne _ h]; exact I.reads u
  · by_cases h : u = t
    · rw [h, RngMachine.goto_self] at hu
      rw [RngMachine.goto_ne _ (fun e => huv (h.trans e.symm))] at hv
      exact ha v c c' (fun e => huv (h.trans e.symm)) hu hv
    · rw [RngMachine.goto_ne _ h] at hu
      by_cases h' : v = t
      · rw [h', RngMachine.goto_self] at hv
        exact (ha u c' c h hv hu).symm
      · rw [RngMachine.goto_ne _ h'] at hv
        exact I.apart u v c c' huv hu hv

theorem pcTrue_other {ss ss' : List (RngStream κ)} {s : Nat} (hs : ∀ i, i ≠ s → i < ss.length → ss'[i]? = ss[i]?) {pc : RngPc}
    (hne : ∀ c, pc.call? = some c → c.stream ≠ s) (h : PcTrue ss pc) : PcTrue ss' pc := by
  cases pc with
  | idle => trivial
  | start c => trivial
  | counted c path =>
    obtain ⟨st, h1, h2⟩ := h
    exact ⟨st, by rw [hs _ (hne c rfl) (List.getElem?_eq_some_iff.1 h1).1]; exact h1, h2⟩
  | bumping c path n =>
    obtain ⟨st, h1, h2⟩ := h
    exact ⟨st, by rw [hs _ (hne c rfl) (List.getElem?_eq_some_iff.1 h1).1]; exact h1, h2⟩

/-- A call returns. -/
theorem rngReturn_alone (P : RngPrims κ η) {c : RngCall} {ss : List (RngStream κ)} {st : RngStream κ} (h : ss[c.stream]? = some st) :
    CallAlone P ss c (rngReturn P c (st.path ++ [st.count]) st.count st ss).2 (rngReturn P c (st.path ++ [st.count]) st.count st ss).1 ∧
    ∀ i, i ≠ c.stream → i < ss.length → (rngReturn P c (st.path ++ [st.count]) st.count st ss).1[i]? = ss[i]? := by
  cases c with
  | draw s =>
    refine ⟨.draw h, fun i hi _ => ?_⟩
    exact List.getElem?_set_ne (fun e => hi e.symm)
  | fork s =>
    refine ⟨.fork h, fun i hi hl => ?_⟩
    show (ss.set s _ ++ _)[i]? = _
    rw [List.getElem?_append_left (by simpa using hl)]
    exact List.getElem?_set_ne (fun e => hi e.symm)

theorem RngThreadInv.step {P : RngPrims κ η} {ss : List (RngStream κ)} {m : RngMachine κ} (I : RngThreadInv P ss m) (t : Nat) :
    RngThreadInv P ss (rngStep P t m) := by
  have idle : RngThreadInv P ss (m.goto t .idle) := I.goto trivial (fun u c c' _ h => by cases h)
  have hr := I.reads t
  have ha : ∀ {c}, (m.threads t).call? = some c → ∀ u c', u ≠ t → (m.threads u).call? = some c' → c.stream ≠ c'.stream :=
    fun hc u c' hu hc' => I.apart t u _ _ (fun e => hu e.symm) hc hc'
  rw [rngStep]
  cases hpc : m.threads t with
  | idle => exact I
  | start c =>
    rw [hpc] at ha
    simp only
    cases hst : m.streams[c.stream]? with
    | none => exact idle
    | some st => exact I.goto ⟨st, hst, rfl⟩ (fun u c1 c' hu h h' => by cases h; exact ha rfl u c' hu h')
  | counted c path =>
    rw [hpc] at hr ha
    obtain ⟨st, hst, rfl⟩ := hr
    simp only [hst]
    exact I.goto ⟨st, hst, rfl, rfl⟩ (fun u c1 c' hu h h' => by cases h; exact ha rfl u c' hu h')
  | bumping c path n =>
    rw [hpc] at hr ha
    obtain ⟨st, hst, rfl, rfl⟩ := hr
    simp only [hst]
    obtain ⟨h1, h2⟩ := rngReturn_alone P hst
    refine ⟨?_, fun u => ?_, idle.apart⟩
    · rw [List.map_append]
      exact .snoc I.turn h1
    · refine pcTrue_other h2 ?_ (idle.reads u)
      intro c' hc'
      by_cases h : u = t
      · simp only [h, RngMachine.goto_self] at hc'; cases hc'
      · simp only [RngMachine.goto_ne _ h] at hc'
        exact (ha rfl u c' h hc').symm

theorem RngThreadInv.events {P : RngPrims κ η} {ss : List (RngStream κ)} : ∀ (evs : List RngEvent) {m : RngMachine κ}, RngThreadInv P ss m →
    NoOverlap P m evs → RngThreadInv P ss (rngEvents P m evs)
  | [], _, I, _ => I
  | .call t c :: evs, m, I, ⟨hq, ho⟩ => by
    rw [rngEvents, List.foldl_cons]
    refine RngThreadInv.events evs ?_ ho
    rw [rngEvent]
    split
    · refine I.goto trivial (fun u c1 c' hu h h' => ?_)
      cases h
      exact (hq u hu c' h').symm
    · exact I
  | .step t :: evs, m, I, ho => by
    rw [rngEvents, List.foldl_cons]
    exact RngThreadInv.events evs (I.step t) ho
  | .abort t :: evs, m, I, ho => by
    rw [rngEvents, List.foldl_cons]
    exact RngThreadInv.events evs (I.goto trivial (fun u c c' _ h => by cases h)) ho

theorem rngThreadInv_quiet (P : RngPrims κ η) (ss : List (RngStream κ)) : RngThreadInv P ss (.quiet ss) :=
  ⟨.nil, fun _ => trivial, fun t u c c' _ h => by cases h⟩

/-- **C112** (calls on one stream do not overlap; the full statement is false: `C112_race_same_key`, `C112_race_repeats`). In every schedule of any number of threads in which no two
threads are inside `make_rng` or `partition` on the same stream at the same time, with exceptions at any points, the calls that have returned, in the order in which they returned, are calls made one after
the other: the same results, and the streams are as after them. -/
theorem C112_in_turn_partial (P : RngPrims κ η) (ss : List (RngStream κ)) {evs : List RngEvent} (h : NoOverlap P (.quiet ss) evs) :
    CallsInTurn P ss ((rngEvents P (.quiet ss) evs).log.map (·.2)) (rngEvents P (.quiet ss) evs).streams :=
  ((rngThreadInv_quiet P ss).events evs h).turn

/-- It is enough that every stream is used by one thread, whatever the schedule. -/
theorem C112_own_streams (P : RngPrims κ η) (ss : List (RngStream κ)) (owner : Nat → Nat) {evs : List RngEvent}
    (h : ∀ t c, .call t c ∈ evs → owner c.stream = t) : NoOverlap P (.quiet ss) evs := by
  have key : ∀ (evs : List RngEvent) (m : RngMachine κ), (∀ t c, .call t c ∈ evs → owner c.stream = t) →
      (∀ t c, (m.threads t).call? = some c → owner c.stream = t) → NoOverlap P m evs := by
    intro evs
    induction evs with
    | nil => exact fun _ _ _ => trivial
    | cons ev evs ih =>
      intro m h hm
      have hrest : ∀ t c, .call t c ∈ evs → owner c.stream = t := fun t c hc => h t c (List.mem_cons_of_mem _ hc)
      have hgoto : ∀ t pc, (∀ c, pc.call? = some c → owner c.stream = t) → ∀ u c, ((m.goto t pc).threads u).call? = some c → owner c.stream = u := by
        intro t pc hpc u c hu
        by_cases e : u = t
        · rw [e, RngMachine.goto_self] at hu; rw [e]; exact hpc c hu
        · rw [RngMachine.goto_ne _ e] at hu; exact hm u c hu
      cases ev with
      | call t c =>
        refine ⟨fun u hu c' hc' e => hu ?_, ih _ hrest ?_⟩
        · rw [← hm u c' hc', e, h t c List.mem_cons_self]
        · rw [rngEvent]
          split
          · exact hgoto t _ (fun c' hc' => by cases hc'; exact h t c List.mem_cons_self)
          · exact hm
      | step t =>
        refine ih _ hrest ?_
        have idle := hgoto t .idle (fun c hc => by cases hc)
        rw [rngEvent, rngStep]
        have ht := hm t
        cases hpc : m.threads t with
        | idle => exact hm
        | start c =>
          rw [hpc] at ht
          simp only
          cases m.streams[c.stream]? with
          | none => exact idle
          | some st => exact hgoto t _ (fun c' hc' => by cases hc'; exact ht c rfl)
        | counted c path =>
          rw [hpc] at ht
          simp only
          cases m.streams[c.stream]? with
          | none => exact idle
          | some st => exact hgoto t _ (fun c' hc' => by cases hc'; exact ht c rfl)
        | bumping c path n =>
          simp only
          cases m.streams[c.stream]? with
          | none => exact idle
          | some st => exact idle
      | abort t => exact ih _ hrest (hgoto t .idle (fun c hc => by cases hc))
  exact key evs _ h (fun t c hc => by cases hc)

/-! ### Distinct keys -/

/-- The keys among the results of calls. -/
def keysOf (l : List (RngCall × RngResult κ)) : List κ := l.filterMap fun e => match e.2 with | .key k => some k | .stream _ => none

theorem rngInv_roots : ∀ {ks : List κ}, ks.Nodup → RngInv (ks.map (⟨·, 0, []⟩)) [] [] := by
  intro ks hn
  refine ⟨?_, ?_, by simp, by simp, List.nodup_nil⟩
  · simp only [List.append_nil, slots, List.map_map]
    unfold List.Nodup
    rw [List.pairwise_map]
    exact hn.imp fun hab h => hab (Prod.mk.inj h).1
  · intro k π i hm
    simp [slots] at hm

theorem callsInTurn_inv {P : RngPrims κ η} {ss : List (RngStream κ)} (I : RngInv ss [] []) {l : List (RngCall × RngResult κ)} {ss' : List (RngStream κ)}
    (h : CallsInTurn P ss l ss') : ∃ draws, RngInv ss' [] draws ∧ (keysOf l).reverse = draws.map (fun d => P.foldIn d.1 (P.hash d.2)) := by
  induction h with
  | nil => exact ⟨[], I, rfl⟩
  | snoc _ hc ih =>
    obtain ⟨draws, J, e⟩ := ih
    cases hc with
    | @draw s k n path h =>
      refine ⟨_, J.make h, ?_⟩
      simpa [keysOf, List.filterMap_append] using e
    | @fork s k n path h =>
      refine ⟨draws, RngInv.merge (new := [⟨k, 0, path ++ [n]⟩]) (J.fork h), ?_⟩
      simpa [keysOf, List.filterMap_append] using e

/-- **C112** (distinct keys). In such a schedule, from streams with different base keys, the keys returned by all threads together are derived from pairwise different pairs of a
base key and a fold-in string. -/
theorem C112_distinct_partial (P : RngPrims κ η) {ks : List κ} (hn : ks.Nodup) {evs : List RngEvent} (h : NoOverlap P (.quiet (ks.map (⟨·, 0, []⟩))) evs) :
    ∃ draws : List (κ × Str), draws.Nodup ∧
      drawnKeys (rngEvents P (.quiet (ks.map (⟨·, 0, []⟩))) evs).log = draws.map (fun d => P.foldIn d.1 (P.hash d.2)) := by
  obtain ⟨draws, I, e⟩ := callsInTurn_inv (rngInv_roots hn) (C112_in_turn_partial P _ h)
  refine ⟨draws.reverse, (List.reverse_perm draws).nodup_iff.2 I.draws_nodup, ?_⟩
  rw [List.map_reverse, ← e, List.reverse_reverse]
  simp only [keysOf, drawnKeys, List.filterMap_map]
  rfl

/-! ### The schedule does not matter -/

theorem CallAlone.length {P : RngPrims κ η} {ss ss' : List (RngStream κ)} {c r} (h : CallAlone P ss c r ss') : ss.length ≤ ss'.length := by
  cases h <;> simp

/-- A stream counts the calls on it. -/
theorem callsInTurn_count {P : RngPrims κ η} {ss : List (RngStream κ)} {s : Nat} {k : κ} {n : Nat} {path : List Nat} (h0 : ss[s]? = some ⟨k, n, path⟩)
    {l : List (RngCall × RngResult κ)} {ss' : List (RngStream κ)} (h : CallsInTurn P ss l ss') :
    ss'[s]? = some ⟨k, n + (l.filter fun e => e.1.stream == s).length, path⟩ := by
  induction h with
  | nil => exact h0
  | @snoc l ss1 c r ss2 _ hc ih =>
    have hl := (List.getElem?_eq_some_iff.1 ih).1
    have key : ∀ {c : RngCall} {k1 n1 path1}, ss1[c.stream]? = some ⟨k1, n1, path1⟩ →
        (ss1.set c.stream ⟨k1, n1 + 1, path1⟩)[s]? = some ⟨k, n + ((l ++ [(c, r)]).filter fun e => e.1.stream == s).length, path⟩ := by
      intro c k1 n1 path1 hc
      by_cases e : c.stream = s
      · rw [e, ih] at hc
        cases hc
        rw [e, List.getElem?_set_self (by simpa using hl)]
        simp [e, Nat.add_assoc]
      · rw [List.getElem?_set_ne e, ih]
        simp [e]
    cases hc with
    | @draw s1 k1 n1 path1 h1 => exact key (c := .draw s1) h1
    | @fork s1 k1 n1 path1 h1 =>
      rw [List.getElem?_append_left (by simpa using hl)]
      exact key (c := .fork s1) h1

/-- **C112** (the schedule does not matter). In such a schedule, the key that a thread draws from a stream is determined by how many calls on this stream have returned before: with `i` of them,
it is the one folded in from the first count plus `i`. -/
theorem C112_key_partial (P : RngPrims κ η) {ss : List (RngStream κ)} {evs : List RngEvent} (h : NoOverlap P (.quiet ss) evs) {s : Nat} {k : κ} {n : Nat}
    {path : List Nat} (h0 : ss[s]? = some ⟨k, n, path⟩) {pre post : List (Nat × RngCall × RngResult κ)} {t : Nat} {r : RngResult κ}
    (hlog : (rngEvents P (.quiet ss) evs).log = pre ++ (t, .draw s, r) :: post) :
    r = .key (P.foldIn k (P.hash (encodeCounts (path ++ [n + (pre.filter fun e => e.2.1.stream == s).length])))) := by
  have hturn := C112_in_turn_partial P ss h
  rw [hlog] at hturn
  -- the run up to this call
  have split : ∀ {l ss'}, CallsInTurn P ss l ss' → ∀ {a : List (RngCall × RngResult κ)} {x b}, l = a ++ x :: b →
      ∃ ss1 ss2, CallsInTurn P ss a ss1 ∧ CallAlone P ss1 x.1 x.2 ss2 := by
    intro l ss' hl
    induction hl with
    | nil => intro a x b e; simp at e
    | @snoc l ss1 c r ss2 hl hc ih =>
      intro a x b e
      rcases List.eq_nil_or_concat b with rfl | ⟨b', y, rfl⟩
      · rw [show a ++ [x] = a ++ [x] from rfl] at e
        obtain ⟨rfl, h2⟩ := List.append_inj' e rfl
        cases h2
        exact ⟨ss1, ss2, hl, hc⟩
      · rw [List.concat_eq_append, ← List.cons_append, ← List.append_assoc] at e
        obtain ⟨h1, -⟩ := List.append_inj' e rfl
        exact ih h1
  rw [List.map_append, List.map_cons] at hturn
  obtain ⟨ss1, ss2, h1, h2⟩ := split hturn rfl
  have hc := callsInTurn_count h0 h1
  cases h2 with
  | draw h3 =>
    rw [hc] at h3
    cases h3
    simp [List.filter_map, Function.comp_def]

/-! ### Calls that overlap -/

/-- **C112 fails** when calls on one stream overlap: two threads get the same key. -/
theorem C112_race_same_key (P : RngPrims κ η) (k : κ) :
    (rngEvents P (.quiet [⟨k, 0, []⟩]) [.call 0 (.draw 0), .step 0, .call 1 (.draw 0), .step 1, .step 0, .step 0, .step 1, .step 1]).log =
      [(0, .draw 0, .key (P.foldIn k (P.hash (encodeCounts [0])))), (1, .draw 0, .key (P.foldIn k (P.hash (encodeCounts [0]))))] := rfl

/-- **C112 fails** when calls on one stream overlap, also later: a thread that is interrupted in `stream.count += 1` sets the count back, and from then on another thread, alone, draws the
keys it has drawn before. -/
theorem C112_race_repeats (P : RngPrims κ η) (k : κ) :
    let draw1 : List RngEvent := [.call 1 (.draw 0), .step 1, .step 1, .step 1]
    let m := rngEvents P (.quiet [⟨k, 0, []⟩]) ([.call 0 (.draw 0), .step 0, .step 0] ++ draw1 ++ draw1 ++ draw1 ++ [.step 0])
    (∀ t, m.threads t = .idle) ∧ m.log.map (·.2.2) = [.key (P.foldIn k (P.hash (encodeCounts [0]))), .key (P.foldIn k (P.hash (encodeCounts [1]))),
      .key (P.foldIn k (P.hash (encodeCounts [2]))), .key (P.foldIn k (P.hash (encodeCounts [0])))] ∧
    (rngEvents P m (draw1 ++ draw1)).log.map (·.2.2) = m.log.map (·.2.2) ++
      [.key (P.foldIn k (P.hash (encodeCounts [1]))), .key (P.foldIn k (P.hash (encodeCounts [2])))] := by
  intro draw1 m
  have hm : m = ⟨[⟨k, 1, []⟩], m.threads, [(1, .draw 0, .key (P.foldIn k (P.hash (encodeCounts [0])))), (1, .draw 0, .key (P.foldIn k (P.hash (encodeCounts [1])))),
      (1, .draw 0, .key (P.foldIn k (P.hash (encodeCounts [2])))), (0, .draw 0, .key (P.foldIn k (P.hash (encodeCounts [0]))))]⟩ := by
    simp [m, draw1, rngEvents, rngEvent, rngStep, RngMachine.goto, RngMachine.quiet, rngReturn, RngCall.stream]
  have ht : ∀ t, m.threads t = .idle := by
    intro t
    match t with
    | 0 => simp [m, draw1, rngEvents, rngEvent, rngStep, RngMachine.goto, RngMachine.quiet, rngReturn, RngCall.stream]
    | 1 => simp [m, draw1, rngEvents, rngEvent, rngStep, RngMachine.goto, RngMachine.quiet, rngReturn, RngCall.stream]
    | t + 2 => simp [m, draw1, rngEvents, rngEvent, rngStep, RngMachine.goto, RngMachine.quiet, rngReturn, RngCall.stream]
  refine ⟨ht, by rw [hm]; rfl, ?_⟩
  rw [hm]
  simp [draw1, rngEvents, rngEvent, rngStep, RngMachine.goto, rngReturn, RngCall.stream, ht]

/-! ### A concrete case -/

/-- The main thread forks a stream for thread 1; then both draw, step by step in turn; a second draw of thread 1 is interrupted. -/
def exForked : List RngEvent :=
  [.call 0 (.fork 0), .step 0, .step 0, .step 0, .call 0 (.draw 0), .call 1 (.draw 1), .step 0, .step 1, .step 1, .step 0, .step 1, .step 0,
   .call 1 (.draw 1), .step 1, .step 1, .abort 1, .call 1 (.draw 1), .step 1, .step 1, .step 1]

example : NoOverlap symPrims (.quiet [⟨.prng 0, 0, []⟩]) exForked :=
  C112_own_streams symPrims _ id (by
    intro t c h
    simp only [exForked, List.mem_cons, RngEvent.call.injEq, reduceCtorEq, List.not_mem_nil, or_false, false_or] at h
    rcases h with ⟨rfl, rfl⟩ | ⟨rfl, rfl⟩ | ⟨rfl, rfl⟩ | ⟨rfl, rfl⟩ | ⟨rfl, rfl⟩ <;> rfl)

example : (rngEvents symPrims (.quiet [⟨.prng 0, 0, []⟩]) exForked).log =
    [(0, .fork 0, .stream 1), (1, .draw 1, .key (.fold (.prng 0) (encodeCounts [0, 0]))), (0, .draw 0, .key (.fold (.prng 0) (encodeCounts [1]))),
     (1, .draw 1, .key (.fold (.prng 0) (encodeCounts [0, 1])))] := rfl

end Nnx
