import Verif.Proofs.Context
/-
C29-C33: RNG contexts.
-/
namespace Nnx
variable {κ η : Type}

/-! ### C29 -/

/-- C29. In every history of `context`, `make_rng`, `partition`, `merge`, `copy` and trace changes (new streams get
new base keys, each PureContext is merged at most once), the keys returned by `make_rng` are derived from pairwise
different pairs of a base key and a fold-in string. -/
theorem C29_draws_distinct {P : RngPrims κ η} {w : RngWorld κ} {pend : List (PureContext κ)} {keys : List κ}
    (h : RngHist P w pend keys) : ∃ draws : List (κ × Str), draws.Nodup ∧
      keys = draws.map (fun d => P.foldIn d.1 (P.hash d.2)) ∧
      ∀ k s, (k, s) ∈ draws → ∃ st ∈ w.streams, st.key = k := by
  obtain ⟨draws, I, e, _⟩ := h.inv
  exact ⟨draws, I.draws_nodup, e, fun k s hm => by
    obtain ⟨st, hst, _, _, a, _⟩ := I.drawn k s hm
    exact ⟨st, hst, a⟩⟩

/-- C29. If `fold_in` and the hash have no collisions, no key is ever returned twice. -/
theorem C29_keys_distinct {P : RngPrims κ η} {w : RngWorld κ} {pend : List (PureContext κ)} {keys : List κ}
    (hinj : ∀ k s k' s', P.foldIn k (P.hash s) = P.foldIn k' (P.hash s') → k = k' ∧ s = s')
    (h : RngHist P w pend keys) : keys.Nodup := by
  obtain ⟨draws, hn, rfl, _⟩ := C29_draws_distinct h
  unfold List.Nodup
  rw [List.pairwise_map]
  refine hn.imp ?_
  intro a b hab e
  obtain ⟨h1, h2⟩ := hinj _ _ _ _ e
  exact hab (Prod.ext h1 h2)

/-- Symbolic keys. -/
inductive SymKey where
  | prng (n : Int)
  | fold (k : SymKey) (s : Str)
deriving DecidableEq, Repr

/-- The free interpretation of the primitives. -/
def symPrims : RngPrims SymKey Str := ⟨.prng, id, .fold⟩

example : ∀ k s k' s', symPrims.foldIn k (symPrims.hash s) = symPrims.foldIn k' (symPrims.hash s') → k = k' ∧ s = s' := by
  intro k s k' s' e
  simp only [symPrims, id, SymKey.fold.injEq] at e
  exact e

/-- The calls of the example below. -/
def exRng0 : RngWorld SymKey := ⟨[], [], 0, [0]⟩
def exRng1 : RngWorld SymKey := (newContext symPrims (some (.seed 0)) [(py! "det", true)] [(py! "dropout", .seed 1)] exRng0).1
def exRng2 : RngWorld SymKey := (makeRng symPrims 0 (py! "params") exRng1).1
def exRng3 : RngWorld SymKey := (partitionCtx 0 exRng2).1
def exPure : PureContext SymKey := ⟨[(py! "dropout", .prng 1), (py! "params", .prng 0)],
  [(py! "dropout", [0]), (py! "params", [1])], [(py! "det", true)]⟩
def exRng4 : RngWorld SymKey := (mergeCtx exPure exRng3).1
def exRng5 : RngWorld SymKey := (makeRng symPrims 1 (py! "params") exRng4).1
def exRng6 : RngWorld SymKey := (makeRng symPrims 0 (py! "params") exRng5).1

theorem exRng_hist : RngHist symPrims exRng6 [] [.fold (.prng 0) (encodeCounts [2]),
    .fold (.prng 0) (encodeCounts [1, 0]), .fold (.prng 0) (encodeCounts [0])] := by
  have h1 : RngHist symPrims exRng1 [] [] :=
    .create (.start 0 [0]) ⟨by decide, by decide, by simp [contextArgs]⟩ (by decide) (by simp [exRng0])
  have h2 : RngHist symPrims exRng2 [] [.fold (.prng 0) (encodeCounts [0])] :=
    .make h1 (c := 0) (name := py! "params") rfl
  have h3 : RngHist symPrims exRng3 [exPure] _ := .partition h2 (c := 0) (by decide)
  have h4 : RngHist symPrims exRng4 [] _ := .merge (c := 1) h3 (List.Perm.refl _) (by decide)
  have h5 : RngHist symPrims exRng5 [] (.fold (.prng 0) (encodeCounts [1, 0]) :: _) :=
    .make h4 (c := 1) (name := py! "params") rfl
  exact .make h5 (c := 0) (name := py! "params") rfl

/-- Two streams with the same seed do give the same key: base keys must differ. -/
theorem C29_same_seed_collides (P : RngPrims κ η) :
    let w0 : RngWorld κ := ⟨[], [], 0, [0]⟩
    let r := newContext P (some (.seed 0)) [] [(py! "dropout", .seed 0)] w0
    let r1 := makeRng P r.2 (py! "params") r.1
    let r2 := makeRng P r.2 (py! "dropout") r1.1
    r1.2 = r2.2 ∧ ∃ k, r1.2 = .ok k := by
  refine ⟨rfl, _, rfl⟩

/-- Merging one PureContext twice does give the same key twice. -/
theorem C29_merge_twice_collides :
    let r1 := mergeCtx exPure exRng3
    let r2 := mergeCtx exPure r1.1
    let k1 := makeRng symPrims 1 (py! "params") r2.1
    let k2 := makeRng symPrims 2 (py! "params") k1.1
    r1.2 = .ok 1 ∧ r2.2 = .ok 2 ∧ k1.2 = k2.2 ∧ ∃ k, k1.2 = .ok k :=
  ⟨rfl, rfl, rfl, _, rfl⟩

/-! ### C30 -/

theorem forkAll_streams : ∀ {rs : List (Str × Nat)} {ss ss' : List (RngStream κ)} {fs : List (Str × RngStream κ)},
    forkAll rs ss = some (ss', fs) → ∀ s : Nat, ss'[s]? =
      ss[s]?.map (fun st => { st with count := st.count + (rs.filter (fun kv => kv.2 == s)).length }) := by
  intro rs
  induction rs with
  | nil =>
    intro ss ss' fs e s
    simp only [forkAll, Option.some.injEq, Prod.mk.injEq] at e
    obtain ⟨rfl, rfl⟩ := e
    cases ss[s]? <;> simp
  | cons x rs ih =>
    intro ss ss' fs e s
    obtain ⟨n, t⟩ := x
    simp only [forkAll] at e
    split at e
    · cases e
    next st hst =>
    split at e
    · cases e
    next ss1 fs1 h1 =>
    simp only [Option.some.injEq, Prod.mk.injEq] at e
    obtain ⟨rfl, rfl⟩ := e
    rw [ih h1 s]
    obtain ⟨hl, rfl⟩ := List.getElem?_eq_some_iff.1 hst
    by_cases hts : t = s
    · subst hts
      simp [bump, hl, Nat.add_assoc, Nat.add_comm 1]
    · simp [bump, List.getElem?_set_ne hts, beq_eq_false_iff_ne.2 hts]

theorem forkAll_some : ∀ {rs : List (Str × Nat)} {ss : List (RngStream κ)}, (∀ n s, (n, s) ∈ rs → s < ss.length) →
    ∃ r, forkAll rs ss = some r := by
  intro rs
  induction rs with
  | nil => intro ss _; exact ⟨_, rfl⟩
  | cons x rs ih =>
    intro ss h
    obtain ⟨n, s⟩ := x
    have hs := h n s (by simp)
    obtain ⟨r, hr⟩ := ih (ss := bump ss s ss[s]) (fun m t ht => by
      simp only [bump, List.length_set]; exact h m t (by simp [ht]))
    simp only [forkAll, List.getElem?_eq_getElem hs, hr]
    exact ⟨_, rfl⟩

theorem forkAll_length {rs : List (Str × Nat)} {ss ss' : List (RngStream κ)} {fs : List (Str × RngStream κ)}
    (h : forkAll rs ss = some (ss', fs)) : ss'.length = ss.length := by
  have := forkAll_streams h
  apply Nat.le_antisymm
  · have := this ss.length
    rw [List.getElem?_eq_none (Nat.le_refl ss.length)] at this
    exact List.getElem?_eq_none_iff.1 this
  · have := this ss'.length
    rw [List.getElem?_eq_none (Nat.le_refl ss'.length)] at this
    simpa using this.symm

theorem makeStreams_spec (P : RngPrims κ η) : ∀ {rngs : List (Str × RngSpec κ)} {ss : List (RngStream κ)},
    (∃ new, (makeStreams P rngs ss).1 = ss ++ new) ∧ (makeStreams P rngs ss).2.map (·.1) = rngs.map (·.1) ∧
    ((∀ n s, (n, RngSpec.stream s) ∈ rngs → s < ss.length) →
      ∀ n s, (n, s) ∈ (makeStreams P rngs ss).2 → s < (makeStreams P rngs ss).1.length) := by
  intro rngs
  induction rngs with
  | nil => intro ss; exact ⟨⟨[], by simp [makeStreams]⟩, rfl, by simp [makeStreams]⟩
  | cons x rngs ih =>
    intro ss
    obtain ⟨n, sp⟩ := x
    have root : ∀ k : κ, (∃ new, (makeStreams P rngs (ss ++ [⟨k, 0, []⟩])).1 = ss ++ new) ∧
        (n :: (makeStreams P rngs (ss ++ [⟨k, 0, []⟩])).2.map (·.1)) = n :: rngs.map (·.1) ∧
        ((∀ m s, (m, RngSpec.stream s) ∈ rngs → s < ss.length) →
          ∀ m s, (m, s) ∈ (n, ss.length) :: (makeStreams P rngs (ss ++ [⟨k, 0, []⟩])).2 →
            s < (makeStreams P rngs (ss ++ [⟨k, 0, []⟩])).1.length) := by
      intro k
      obtain ⟨⟨new, e⟩, hn, hb⟩ := ih (ss := ss ++ [⟨k, 0, []⟩])
      refine ⟨⟨⟨k, 0, []⟩ :: new, by simp [e]⟩, by rw [hn], ?_⟩
      intro h m s hm
      rcases List.mem_cons.1 hm with e2 | hm
      · cases e2
        rw [e]; simp
      · exact hb (fun m s hm => by have := h m s hm; simp; omega) m s hm
    cases sp with
    | seed i =>
      obtain ⟨a, b, c⟩ := root (P.prngKey i)
      exact ⟨a, b, fun h => c (fun m s hm => h m s (by simp [hm]))⟩
    | key k =>
      obtain ⟨a, b, c⟩ := root k
      exact ⟨a, b, fun h => c (fun m s hm => h m s (by simp [hm]))⟩
    | stream t =>
      obtain ⟨⟨new, e⟩, hn, hb⟩ := ih (ss := ss)
      refine ⟨⟨new, e⟩, by simp only [makeStreams, List.map_cons, hn], ?_⟩
      intro h m s hm
      simp only [makeStreams] at hm ⊢
      rcases List.mem_cons.1 hm with e2 | hm
      · cases e2
        have := h n t (by simp)
        rw [e]; simp; omega
      · exact hb (fun m s hm => h m s (by simp [hm])) m s hm

theorem mem_of_usable {w : RngWorld κ} {c : Nat} {ctx : CtxObj} (h : usable w c = some ctx) :
    w.ctxs[c]? = some ctx ∧ ctx.trace = w.curTrace := by
  unfold usable at h
  split at h
  · next x hx =>
    split at h
    · next ht => cases h; exact ⟨hx, ht⟩
    · cases h
  · cases h

theorem usable_of {w : RngWorld κ} {c : Nat} {ctx : CtxObj} (h : w.ctxs[c]? = some ctx) (ht : ctx.trace = w.curTrace) :
    usable w c = some ctx := by
  simp [usable, h, ht]

theorem partitionCtx_of_usable {w : RngWorld κ} (hw : WFRng w) {c : Nat} {ctx : CtxObj} (h : usable w c = some ctx) :
    ∃ ss fs, forkAll ctx.rngs w.streams = some (ss, fs) ∧ partitionCtx c w = ({ w with streams := ss },
      .ok ⟨fs.map (fun kv => (kv.1, kv.2.key)), fs.map (fun kv => (kv.1, kv.2.path)), ctx.flags⟩) := by
  obtain ⟨h1, h2⟩ := mem_of_usable h
  obtain ⟨⟨ss, fs⟩, hr⟩ := forkAll_some (hw.addr ctx (List.mem_of_getElem? h1))
  exact ⟨ss, fs, hr, by simp only [partitionCtx, h1, h2, if_true, hr]⟩

/-- One call: what happens to a stream. -/
theorem runEv_stream (P : RngPrims κ η) {w : RngWorld κ} (hw : WFRng w) (e : RngEv κ) (hg : e.Good w) {s : Nat}
    {st : RngStream κ} (hs : w.streams[s]? = some st) :
    (runEv P e w).streams[s]? = some { st with count := st.count + uses s e w } := by
  have hl := (List.getElem?_eq_some_iff.1 hs).1
  cases e with
  | make c name =>
    simp only [runEv, uses, makeRng, usable]
    cases hc : w.ctxs[c]? with
    | none => simp [hs]
    | some ctx =>
      cases hd : dget ctx.rngs name with
      | none => by_cases ht : ctx.trace = w.curTrace <;> simp [hs, hd, ht]
      | some t =>
        by_cases ht : ctx.trace = w.curTrace
        · have hb := hw.addr ctx (List.mem_of_getElem? hc) _ _ (dget_mem hd)
          simp only [ht, if_true, List.getElem?_eq_getElem hb, hd]
          by_cases hts : t = s
          · subst hts
            have : w.streams[t] = st := by
              rw [List.getElem?_eq_getElem hb] at hs; exact Option.some.inj hs
            simp [bump, hb, this]
          · simp [bump, List.getElem?_set_ne hts, hs, hts]
        · simp [hd, hs, ht]
  | partition c =>
    simp only [runEv, uses]
    cases hu : usable w c with
    | none =>
      have : (partitionCtx c w).1 = w := by
        unfold usable at hu
        unfold partitionCtx
        cases hc : w.ctxs[c]? with
        | none => rfl
        | some ctx =>
          rw [hc] at hu
          by_cases ht : ctx.trace = w.curTrace
          · simp [ht] at hu
          · simp [ht]
      simp [this, hs]
    | some ctx =>
      obtain ⟨ss, fs, hf, hp⟩ := partitionCtx_of_usable hw hu
      rw [hp]
      simp only
      rw [forkAll_streams hf, hs]
      rfl
  | merge p =>
    simp only [runEv, uses, mergeCtx]
    split
    · simp [hs]
    · simp [List.getElem?_append_left hl, hs]
  | copy c =>
    simp only [runEv, uses, copyCtx]
    split <;> simp [hs]
  | create params flags rngs =>
    simp only [runEv, uses]
    rw [newContext_eq hg.1.noParams]
    obtain ⟨⟨new, e⟩, _⟩ := makeStreams_spec P (rngs := contextArgs params rngs) (ss := w.streams)
    simp only [e]
    simp [List.getElem?_append_left hl, hs]
  | trace j t => simp [runEv, uses, hs]

/-- Well-formedness is kept by every call. -/
theorem WFRng.runEv {P : RngPrims κ η} {w : RngWorld κ} (hw : WFRng w) (e : RngEv κ) (hg : e.Good w) :
    WFRng (runEv P e w) := by
  have same : ∀ ss : List (RngStream κ), ss.length = w.streams.length → WFRng { w with streams := ss } :=
    fun ss h => ⟨fun ctx hc n s hm => by rw [h]; exact hw.addr ctx hc n s hm, hw.nodup, hw.flags⟩
  cases e with
  | make c name =>
    simp only [Nnx.runEv, makeRng]
    split
    · exact hw
    · split
      · exact hw
      · split
        · split
          · exact hw
          · exact same _ (by simp [bump])
        · exact hw
  | partition c =>
    simp only [Nnx.runEv, partitionCtx]
    split
    · exact hw
    · split
      · split
        · exact hw
        · next h => exact same _ (forkAll_length h)
      · exact hw
  | merge p =>
    simp only [Nnx.runEv, mergeCtx]
    split
    · exact hw
    · next ss rs h =>
      obtain ⟨_, hn, ha, hl, _⟩ := mergeStreams_spec h
      refine ⟨?_, ?_, ?_⟩
      · intro ctx hm n s hmem
        simp only [List.mem_append, List.mem_singleton, List.length_append] at hm ⊢
        rcases hm with hm | rfl
        · have := hw.addr ctx hm n s hmem; omega
        · have h2 : (n, s) ∈ rs := mem_dofList hmem
          have : s ∈ rs.map (·.2) := List.mem_map_of_mem (f := (·.2)) h2
          rw [ha, List.mem_range'] at this
          obtain ⟨i, hi, rfl⟩ := this
          omega
      · intro ctx hm
        simp only [List.mem_append, List.mem_singleton] at hm
        rcases hm with hm | rfl
        · exact hw.nodup ctx hm
        · exact dnodup_dofList _
      · intro ctx hm
        simp only [List.mem_append, List.mem_singleton] at hm
        rcases hm with hm | rfl
        · exact hw.flags ctx hm
        · exact dnodup_dofList _
  | copy c =>
    simp only [Nnx.runEv, copyCtx]
    split
    · exact hw
    · next ctx hc =>
      have hmem := List.mem_of_getElem? hc
      refine ⟨?_, ?_, ?_⟩ <;>
      · intro x hm
        simp only [List.mem_append, List.mem_singleton] at hm
        rcases hm with hm | rfl
        · first | exact hw.addr x hm | exact hw.nodup x hm | exact hw.flags x hm
        · first | exact hw.addr ctx hmem | exact hw.nodup ctx hmem | exact hw.flags ctx hmem
  | create params flags rngs =>
    simp only [Nnx.runEv]
    rw [newContext_eq hg.1.noParams]
    obtain ⟨⟨new, e⟩, hn, hb⟩ := makeStreams_spec P (rngs := contextArgs params rngs) (ss := w.streams)
    refine ⟨?_, ?_, ?_⟩
    · intro ctx hm n s hmem
      simp only [List.mem_append, List.mem_singleton] at hm
      rcases hm with hm | rfl
      · have := hw.addr ctx hm n s hmem
        simp only [e, List.length_append]; omega
      · exact hb hg.1.streams n s (mem_dofList hmem)
    · intro ctx hm
      simp only [List.mem_append, List.mem_singleton] at hm
      rcases hm with hm | rfl
      · exact hw.nodup ctx hm
      · exact dnodup_dofList _
    · intro ctx hm
      simp only [List.mem_append, List.mem_singleton] at hm
      rcases hm with hm | rfl
      · exact hw.flags ctx hm
      · exact hg.2
  | trace j t => exact ⟨hw.addr, hw.nodup, hw.flags⟩

/-- C30. After any sequence of calls, by anyone, a stream has the base key and fork path it had, and its counter has
grown by the number of `make_rng`/`partition` calls on that stream. -/
theorem C30_stream_state (P : RngPrims κ η) : ∀ (evs : List (RngEv κ)) {w : RngWorld κ}, WFRng w → GoodAll P evs w →
    ∀ {s : Nat} {st : RngStream κ}, w.streams[s]? = some st →
    (runEvs P evs w).streams[s]? = some { st with count := st.count + usesAll P s evs w } ∧ WFRng (runEvs P evs w) := by
  intro evs
  induction evs with
  | nil => intro w hw _ s st h; exact ⟨by simpa [runEvs, usesAll] using h, hw⟩
  | cons e evs ih =>
    intro w hw hg s st h
    obtain ⟨a, b⟩ := ih (hw.runEv (P := P) e hg.1) hg.2 (runEv_stream P hw e hg.1 h)
    refine ⟨?_, b⟩
    simp only [runEvs, List.foldl_cons] at a ⊢
    rw [a]
    simp [usesAll, Nat.add_assoc]

/-- C30. The key returned by `make_rng` is determined by the stream's base key, its fork path, and how often the
stream was used before. -/
theorem C30_key_value (P : RngPrims κ η) (evs : List (RngEv κ)) {w : RngWorld κ} (hw : WFRng w) (hg : GoodAll P evs w)
    {s : Nat} {st : RngStream κ} (hs : w.streams[s]? = some st) {c : Nat} {name : Str} {ctx : CtxObj}
    (hu : usable (runEvs P evs w) c = some ctx) (hn : dget ctx.rngs name = some s) :
    (makeRng P c name (runEvs P evs w)).2 =
      .ok (P.foldIn st.key (P.hash (encodeCounts (st.path ++ [st.count + usesAll P s evs w])))) := by
  obtain ⟨a, _⟩ := C30_stream_state P evs hw hg hs
  obtain ⟨h1, h2⟩ := mem_of_usable hu
  simp only [makeRng, h1, hn, h2, if_true, a]

/-- C30. Two histories that use two streams with the same base key and fork path equally often then get the same key
from them, whatever else happens: other streams, flags and contexts do not matter. -/
theorem C30_streams_independent (P : RngPrims κ η) (evs evs' : List (RngEv κ)) {w w' : RngWorld κ} (hw : WFRng w)
    (hw' : WFRng w') (hg : GoodAll P evs w) (hg' : GoodAll P evs' w') {s s' : Nat} {st : RngStream κ}
    (hs : w.streams[s]? = some st) (hs' : w'.streams[s']? = some st) (hu : usesAll P s evs w = usesAll P s' evs' w')
    {c c' : Nat} {name name' : Str} {ctx ctx' : CtxObj} (hc : usable (runEvs P evs w) c = some ctx)
    (hc' : usable (runEvs P evs' w') c' = some ctx') (hn : dget ctx.rngs name = some s)
    (hn' : dget ctx'.rngs name' = some s') :
    (makeRng P c name (runEvs P evs w)).2 = (makeRng P c' name' (runEvs P evs' w')).2 := by
  rw [C30_key_value P evs hw hg hs hc hn, C30_key_value P evs' hw' hg' hs' hc' hn', hu]

/-- Two contexts in two worlds that look the same from the outside. -/
structure CtxSim (w1 : RngWorld κ) (c1 : Nat) (w2 : RngWorld κ) (c2 : Nat) (x1 x2 : CtxObj) (f : Nat → Nat) : Prop where
  u1 : usable w1 c1 = some x1
  u2 : usable w2 c2 = some x2
  rngs : x2.rngs = x1.rngs.map (fun kv => (kv.1, f kv.2))
  flags : x2.flags = x1.flags
  inj : ∀ n s m t, (n, s) ∈ x1.rngs → (m, t) ∈ x1.rngs → f s = f t → s = t
  streams : ∀ n s, (n, s) ∈ x1.rngs → ∃ st, w1.streams[s]? = some st ∧ w2.streams[f s]? = some st

theorem forkAll_sim {f : Nat → Nat} {R : List (Str × Nat)} (hinj : ∀ n s m t, (n, s) ∈ R → (m, t) ∈ R → f s = f t → s = t) :
    ∀ {rs : List (Str × Nat)} {ss1 ss2 : List (RngStream κ)}, (∀ x ∈ rs, x ∈ R) →
    (∀ n s, (n, s) ∈ R → ∃ st, ss1[s]? = some st ∧ ss2[f s]? = some st) →
    ∃ ss1' ss2' fs, forkAll rs ss1 = some (ss1', fs) ∧
      forkAll (rs.map (fun kv => (kv.1, f kv.2))) ss2 = some (ss2', fs) ∧
      (∀ n s, (n, s) ∈ R → ∃ st, ss1'[s]? = some st ∧ ss2'[f s]? = some st) := by
  intro rs
  induction rs with
  | nil => intro ss1 ss2 _ h; exact ⟨ss1, ss2, [], rfl, rfl, h⟩
  | cons x rs ih =>
    intro ss1 ss2 hR h
    obtain ⟨n, s⟩ := x
    obtain ⟨st, h1, h2⟩ := h n s (hR _ (by simp))
    have hl1 := (List.getElem?_eq_some_iff.1 h1).1
    have hl2 := (List.getElem?_eq_some_iff.1 h2).1
    obtain ⟨a, b, fs, e1, e2, e3⟩ := ih (ss1 := bump ss1 s st) (ss2 := bump ss2 (f s) st) (fun y hy => hR y (by simp [hy]))
      (by
        intro m t hm
        by_cases hst : s = t
        · subst hst
          exact ⟨{ st with count := st.count + 1 }, by simp [bump, hl1], by simp [bump, hl2]⟩
        · have : f s ≠ f t := fun e => hst (hinj n s m t (hR _ (by simp)) hm e)
          obtain ⟨st', g1, g2⟩ := h m t hm
          exact ⟨st', by simp [bump, List.getElem?_set_ne hst, g1], by simp [bump, List.getElem?_set_ne this, g2]⟩)
    refine ⟨a, b, (n, ⟨st.key, 0, st.path ++ [st.count]⟩) :: fs, ?_, ?_, e3⟩
    · simp only [forkAll, h1, e1]
    · simp only [List.map_cons, forkAll, h2, e2]

theorem dget_map_snd {f : Nat → Nat} {name : Str} : ∀ (d : Dict Str Nat), dget (d.map (fun kv => (kv.1, f kv.2))) name =
    (dget d name).map f := by
  intro d
  exact dget_map_val (fun _ v => f v) d name

theorem runOps_sim (P : RngPrims κ η) : ∀ (ops : List CtxOp) {w1 w2 : RngWorld κ} {c1 c2 : Nat} {x1 x2 : CtxObj} {f : Nat → Nat},
    CtxSim w1 c1 w2 c2 x1 x2 f → runOps P c1 ops w1 = runOps P c2 ops w2 := by
  intro ops
  induction ops with
  | nil => intros; rfl
  | cons op ops ih =>
    intro w1 w2 c1 c2 x1 x2 f S
    obtain ⟨a1, b1⟩ := mem_of_usable S.u1
    obtain ⟨a2, b2⟩ := mem_of_usable S.u2
    cases op with
    | make name =>
      have hd : dget x2.rngs name = (dget x1.rngs name).map f := by rw [S.rngs]; exact dget_map_snd _
      cases h1 : dget x1.rngs name with
      | none =>
        rw [h1] at hd
        simp only [Option.map_none] at hd
        simp only [runOps, makeRng, a1, a2, h1, hd]
        rw [ih S]
      | some s =>
        rw [h1] at hd
        simp only [Option.map_some] at hd
        obtain ⟨st, g1, g2⟩ := S.streams name s (dget_mem h1)
        simp only [runOps, makeRng, a1, a2, h1, hd, b1, b2, if_true, g1, g2]
        congr 1
        have hl1 := (List.getElem?_eq_some_iff.1 g1).1
        have hl2 := (List.getElem?_eq_some_iff.1 g2).1
        refine ih (x1 := x1) (x2 := x2) (f := f) ⟨usable_of a1 b1, usable_of a2 b2, S.rngs, S.flags, S.inj, ?_⟩
        intro m t hm
        by_cases hst : s = t
        · subst hst
          exact ⟨{ st with count := st.count + 1 }, by simp [bump, hl1], by simp [bump, hl2]⟩
        · have : f s ≠ f t := fun e => hst (S.inj _ _ _ _ (dget_mem h1) hm e)
          obtain ⟨st', g1, g2⟩ := S.streams m t hm
          exact ⟨st', by simp [bump, List.getElem?_set_ne hst, g1], by simp [bump, List.getElem?_set_ne this, g2]⟩
    | partition =>
      obtain ⟨ss1, ss2, fs, e1, e2, e3⟩ := forkAll_sim S.inj (rs := x1.rngs) (fun _ h => h) S.streams
      rw [← S.rngs] at e2
      simp only [runOps, partitionCtx, a1, a2, b1, b2, if_true, e1, e2, S.flags]
      congr 1
      exact ih (x1 := x1) (x2 := x2) (f := f) ⟨usable_of a1 b1, usable_of a2 b2, S.rngs, S.flags, S.inj, e3⟩

theorem mergeStreams_shift {keys : Dict Str κ} : ∀ {counts : List (Str × List Nat)} {base : Nat}
    {ss : List (RngStream κ)} {rs : List (Str × Nat)}, mergeStreams keys counts base = .ok (ss, rs) → ∀ base',
    mergeStreams keys counts base' = .ok (ss, rs.map (fun kv => (kv.1, kv.2 + base' - base))) ∧
      (∀ n s, (n, s) ∈ rs → base ≤ s ∧ s < base + ss.length) := by
  intro counts
  induction counts with
  | nil =>
    intro base ss rs e base'
    simp only [mergeStreams, Except.ok.injEq, Prod.mk.injEq] at e
    obtain ⟨rfl, rfl⟩ := e
    simp [mergeStreams]
  | cons x counts ih =>
    intro base ss rs e base'
    obtain ⟨n, π⟩ := x
    simp only [mergeStreams] at e ⊢
    split at e
    · cases e
    next k hk =>
    split at e
    · cases e
    next ss1 rs1 h1 =>
    simp only [Except.ok.injEq, Prod.mk.injEq] at e
    obtain ⟨rfl, rfl⟩ := e
    obtain ⟨g1, g2⟩ := ih h1 (base' + 1)
    rw [g1]
    refine ⟨?_, ?_⟩
    · simp only [List.map_cons, Except.ok.injEq, Prod.mk.injEq, List.cons.injEq, true_and]
      refine ⟨by omega, ?_⟩
      apply List.map_congr_left
      rintro ⟨m, s⟩ hm
      have := (g2 m s hm).1
      simp only [Prod.mk.injEq, true_and]
      omega
    · intro m s hm
      simp only [List.length_cons]
      rcases List.mem_cons.1 hm with e | hm
      · cases e; omega
      · have := g2 m s hm; omega

/-- C30. Merging the same PureContext twice, in any two situations, gives two contexts on which every sequence of calls
returns the same keys and the same forks. -/
theorem C30_reproducible (P : RngPrims κ η) {p : PureContext κ} {w1 w2 w1' w2' : RngWorld κ} {c1 c2 : Nat}
    (h1 : mergeCtx p w1 = (w1', .ok c1)) (h2 : mergeCtx p w2 = (w2', .ok c2)) (ops : List CtxOp) :
    runOps P c1 ops w1' = runOps P c2 ops w2' := by
  unfold mergeCtx at h1 h2
  split at h1
  · simp at h1
  next ss1 rs1 e1 =>
  split at h2
  · simp at h2
  next ss2 rs2 e2 =>
  simp only [Prod.mk.injEq, Except.ok.injEq] at h1 h2
  obtain ⟨rfl, rfl⟩ := h1
  obtain ⟨rfl, rfl⟩ := h2
  obtain ⟨g, gb⟩ := mergeStreams_shift e1 w2.streams.length
  rw [g] at e2
  simp only [Except.ok.injEq, Prod.mk.injEq] at e2
  obtain ⟨rfl, rfl⟩ := e2
  have hmem : ∀ n s, (n, s) ∈ dofList rs1 → (n, s) ∈ rs1 := fun _ _ h => mem_dofList h
  refine runOps_sim P ops (x1 := ⟨dofList rs1, dofList p.flags, w1.curTrace⟩)
    (x2 := ⟨dofList (rs1.map (fun kv => (kv.1, kv.2 + w2.streams.length - w1.streams.length))), dofList p.flags, w2.curTrace⟩)
    (f := fun s => s + w2.streams.length - w1.streams.length) ⟨usable_of (by simp) rfl, usable_of (by simp) rfl, ?_, rfl, ?_, ?_⟩
  · exact dofList_map_val (fun s => s + w2.streams.length - w1.streams.length) rs1
  · intro n s m t hs ht e
    have h1 := (gb n s (hmem n s hs)).1
    have h2 := (gb m t (hmem m t ht)).1
    omega
  · intro n s hs
    obtain ⟨h1, h2⟩ := gb n s (hmem n s hs)
    have hl : s - w1.streams.length < ss1.length := by omega
    refine ⟨ss1[s - w1.streams.length], ?_, ?_⟩
    · simp only [List.getElem?_append_right h1, List.getElem?_eq_getElem hl]
    · simp only
      rw [List.getElem?_append_right (by omega)]
      rw [show s + w2.streams.length - w1.streams.length - w2.streams.length = s - w1.streams.length by omega]
      exact List.getElem?_eq_getElem hl

theorem exRng0_wf : WFRng exRng0 := ⟨by simp [exRng0], by simp [exRng0], by simp [exRng0]⟩

theorem exRng_good : GoodAll symPrims [.create (some (.seed 0)) [(py! "det", true)] [(py! "dropout", .seed 1)],
    .make 0 (py! "params"), .partition 0, .merge exPure, .make 1 (py! "params"), .trace 5 [0, 3], .make 0 (py! "dropout")] exRng0 :=
  ⟨⟨⟨by decide, by decide, by simp [contextArgs]⟩, by decide⟩, trivial, trivial, trivial, trivial, trivial, trivial, trivial⟩

example : WFRng exRng1 := exRng0_wf.runEv (P := symPrims)
  (.create (some (.seed 0)) [(py! "det", true)] [(py! "dropout", .seed 1)]) exRng_good.1

/-- The stream of "params" is used once by `make_rng` and once by `partition`, but not from another trace level, nor by
draws from its fork or from the stream "dropout". -/
example : usesAll symPrims 1 [.make 0 (py! "params"), .partition 0, .merge exPure, .make 1 (py! "params"),
    .make 0 (py! "dropout"), .trace 5 [0, 3], .make 0 (py! "params")] exRng1 = 2 := rfl

example : (usable exRng5 0).isSome ∧ (usable exRng5 1).isSome := by decide

/-! ### C31 -/

/-- C31. A call of `make_rng` or `partition` that raises changes nothing. -/
theorem C31_failure_consumes_nothing (P : RngPrims κ η) (c : Nat) (name : Str) (w : RngWorld κ) :
    (∀ e, (makeRng P c name w).2 = .error e → (makeRng P c name w).1 = w) ∧
    (∀ e, (partitionCtx c w).2 = .error e → (partitionCtx c w).1 = w) := by
  constructor
  · intro e
    unfold makeRng
    split
    · intro _; rfl
    · split
      · intro _; rfl
      · split
        · split
          · intro _; rfl
          · intro h; cases h
        · intro _; rfl
  · intro e
    unfold partitionCtx
    split
    · intro _; rfl
    · split
      · split
        · intro _; rfl
        · intro h; cases h
      · intro _; rfl

/-- C31. When the calls raise, and what: an unknown name gives ValueError; a context of another trace level gives
TraceContextError; otherwise the call succeeds. -/
theorem C31_errors (P : RngPrims κ η) {w : RngWorld κ} (hw : WFRng w) {c : Nat} {ctx : CtxObj} (hc : w.ctxs[c]? = some ctx)
    (name : Str) :
    (ctx.hasRng name = false → (makeRng P c name w).2 = .error .valueError) ∧
    (ctx.hasRng name = true → ctx.trace ≠ w.curTrace → (makeRng P c name w).2 = .error .traceContextError) ∧
    (ctx.hasRng name = true → ctx.trace = w.curTrace → ∃ k, (makeRng P c name w).2 = .ok k) ∧
    (ctx.trace ≠ w.curTrace → (partitionCtx c w).2 = .error .traceContextError) ∧
    (ctx.trace = w.curTrace → ∃ p, (partitionCtx c w).2 = .ok p) := by
  refine ⟨?_, ?_, ?_, ?_, ?_⟩
  · intro h
    have : dget ctx.rngs name = none := by simpa [CtxObj.hasRng, dhas] using h
    simp [makeRng, hc, this]
  · intro h ht
    cases hd : dget ctx.rngs name with
    | none => simp [CtxObj.hasRng, dhas, hd] at h
    | some s => simp [makeRng, hc, hd, ht]
  · intro h ht
    cases hd : dget ctx.rngs name with
    | none => simp [CtxObj.hasRng, dhas, hd] at h
    | some s =>
      have hb := hw.addr ctx (List.mem_of_getElem? hc) _ _ (dget_mem hd)
      simp [makeRng, hc, hd, ht, List.getElem?_eq_getElem hb]
  · intro ht
    simp [partitionCtx, hc, ht]
  · intro ht
    obtain ⟨ss, fs, _, hp⟩ := partitionCtx_of_usable hw (usable_of hc ht)
    rw [hp]
    exact ⟨_, rfl⟩

/-- C31. A context made under the jax trace `w.jaxTrace` and the nnx trace `t` can be used exactly where both are the innermost traces
again, whatever traces were entered and left between. -/
theorem C31_trace_level (P : RngPrims κ η) (params : Option (RngSpec κ)) (flags : Dict Str Bool) (rngs : List (Str × RngSpec κ))
    (w : RngWorld κ) {t : Nat} (ht : w.nnxStack.getLast? = some t) {ctx : CtxObj}
    (hc : (newContext P params flags rngs w).1.ctxs[(newContext P params flags rngs w).2]? = some ctx) {name : Str}
    (hn : ctx.hasRng name = true) (jax : Nat) (stack : List Nat) {t' : Nat} (ht' : stack.getLast? = some t') :
    let w' := { (newContext P params flags rngs w).1 with jaxTrace := jax, nnxStack := stack }
    let c := (newContext P params flags rngs w).2
    ((makeRng P c name w').2 = .error .traceContextError ↔ ¬ (jax = w.jaxTrace ∧ t' = t)) ∧
    ((partitionCtx c w').2 = .error .traceContextError ↔ ¬ (jax = w.jaxTrace ∧ t' = t)) := by
  have htr : ctx.trace = ⟨w.jaxTrace, t⟩ := by
    simp only [newContext, List.getElem?_concat_length, Option.some.injEq] at hc
    rw [← hc]
    rw [RngWorld.curTrace, List.getLastD_eq_getLast?, ht, Option.getD_some]
  have hcur : ∀ u : RngWorld κ, u.nnxStack = stack → u.jaxTrace = jax → u.curTrace = ⟨jax, t'⟩ := by
    rintro u rfl rfl
    rw [RngWorld.curTrace, List.getLastD_eq_getLast?, ht', Option.getD_some]
  have hiff : ctx.trace = ⟨jax, t'⟩ ↔ jax = w.jaxTrace ∧ t' = t := by
    rw [htr, Trace.mk.injEq]; exact ⟨fun h => ⟨h.1.symm, h.2.symm⟩, fun h => ⟨h.1.symm, h.2.symm⟩⟩
  obtain ⟨s, hd⟩ : ∃ s, dget ctx.rngs name = some s := by
    simpa [CtxObj.hasRng, dhas, Option.isSome_iff_exists] using hn
  constructor
  · rw [← hiff, makeRng]
    simp only [hc, hd]
    rw [hcur _ rfl rfl]
    split
    · rename_i h
      split <;> simp [h]
    · rename_i h; simp [h]
  · rw [← hiff, partitionCtx]
    simp only [hc]
    rw [hcur _ rfl rfl]
    split
    · rename_i h
      split <;> simp [h]
    · rename_i h; simp [h]

example : exRng0.nnxStack.getLast? = some 0 ∧ [0, 3].getLast? = some 3 ∧
    ∃ ctx, (newContext symPrims (some (.seed 0)) [(py! "det", true)] [] exRng0).1.ctxs[(0 : Nat)]? = some ctx ∧ ctx.hasRng (py! "params") = true :=
  ⟨rfl, rfl, _, rfl, rfl⟩

/-! ### C32 -/

/-- C32. The streams and flags of a new context: those given, with their values. -/
theorem C32_new_context (P : RngPrims κ η) (params : Option (RngSpec κ)) {flags : Dict Str Bool} (hf : DNodup flags)
    {rngs : List (Str × RngSpec κ)} (hp : py! "params" ∉ rngs.map (·.1)) (w : RngWorld κ) :
    ∃ ctx, (newContext P params flags rngs w).1.ctxs[(newContext P params flags rngs w).2]? = some ctx ∧
      (∀ name b, ctx.getFlag name = some b ↔ (name, b) ∈ flags) ∧
      (∀ name, ctx.hasFlag name = true ↔ ∃ b, (name, b) ∈ flags) ∧
      (∀ name, ctx.hasRng name = true ↔ name ∈ rngs.map (·.1) ∨ name = py! "params" ∧ params ≠ none) := by
  rw [newContext_eq hp]
  refine ⟨_, List.getElem?_concat_length, ?_, ?_, ?_⟩
  · exact fun name b => ⟨dget_mem, mem_dget hf⟩
  · intro name
    simp only [CtxObj.hasFlag, dhas, Option.isSome_iff_exists]
    exact ⟨fun ⟨b, h⟩ => ⟨b, dget_mem h⟩, fun ⟨b, h⟩ => ⟨b, mem_dget hf h⟩⟩
  · intro name
    have h1 : ∀ rs : List (Str × Nat), dhas (dofList rs) name = true ↔ name ∈ rs.map (·.1) := by
      intro rs
      rw [dhas, dget_isSome, dofList, mem_dkeys_dupdate]; simp [dkeys]
    rw [CtxObj.hasRng, h1, (makeStreams_spec P).2.1]
    cases params with
    | none => simp [contextArgs]
    | some p => simp [contextArgs]

theorem forkAll_forks : ∀ {rs : List (Str × Nat)} {ss ss' : List (RngStream κ)} {fs : List (Str × RngStream κ)},
    forkAll rs ss = some (ss', fs) → fs.map (·.1) = rs.map (·.1) ∧
    ∀ name s, dget rs name = some s → ∃ st, ss[s]? = some st ∧ ∃ i, dget fs name = some ⟨st.key, 0, st.path ++ [st.count + i]⟩ ∧
      i < (rs.filter (fun kv => kv.2 == s)).length ∧ ((rs.map (·.2)).Nodup → i = 0) := by
  intro rs
  induction rs with
  | nil =>
    intro ss ss' fs e
    simp only [forkAll, Option.some.injEq, Prod.mk.injEq] at e
    obtain ⟨rfl, rfl⟩ := e
    simp [dget]
  | cons x rs ih =>
    intro ss ss' fs e
    obtain ⟨n, t⟩ := x
    simp only [forkAll] at e
    split at e
    · cases e
    next st hst =>
    split at e
    · cases e
    next ss1 fs1 h1 =>
    simp only [Option.some.injEq, Prod.mk.injEq] at e
    obtain ⟨rfl, rfl⟩ := e
    obtain ⟨a, b⟩ := ih h1
    refine ⟨by simp [a], ?_⟩
    intro name s hd
    simp only [dget] at hd ⊢
    by_cases hn : n = name
    · rw [if_pos hn] at hd ⊢
      cases hd
      exact ⟨st, hst, 0, by simp, by simp, fun _ => rfl⟩
    · rw [if_neg hn] at hd ⊢
      obtain ⟨st', g1, i, g2, g3, g4⟩ := b name s hd
      obtain ⟨hl, rfl⟩ := List.getElem?_eq_some_iff.1 hst
      by_cases hts : t = s
      · subst hts
        simp only [bump, List.getElem?_set_self hl, Option.some.injEq] at g1
        subst g1
        refine ⟨_, hst, i + 1, ?_, by simp; exact g3, ?_⟩
        · rw [g2]; simp [Nat.add_assoc, Nat.add_comm 1]
        · intro hnd
          simp only [List.map_cons, List.nodup_cons] at hnd
          exact absurd (List.mem_map_of_mem (f := (·.2)) (dget_mem hd)) hnd.1
      · simp only [bump, List.getElem?_set_ne hts] at g1
        refine ⟨st', g1, i, g2, ?_, ?_⟩
        · simp only [List.filter_cons, beq_eq_false_iff_ne.2 hts]; exact g3
        · intro hnd
          simp only [List.map_cons, List.nodup_cons] at hnd
          exact g4 hnd.2

theorem mergeStreams_ok {keys : Dict Str κ} : ∀ {counts : List (Str × List Nat)} (base : Nat),
    (∀ n π, (n, π) ∈ counts → n ∈ dkeys keys) → ∃ ss rs, mergeStreams keys counts base = .ok (ss, rs) ∧
    ∀ n π, (n, π) ∈ counts → (counts.map (·.1)).Nodup → ∃ k i, dget keys n = some k ∧ dget rs n = some (base + i) ∧ ss[i]? = some ⟨k, 0, π⟩ := by
  intro counts
  induction counts with
  | nil => intro base _; exact ⟨[], [], rfl, by simp⟩
  | cons x counts ih =>
    intro base h
    obtain ⟨n, π⟩ := x
    obtain ⟨ss, rs, e, hs⟩ := ih (base + 1) (fun m ρ hm => h m ρ (by simp [hm]))
    obtain ⟨k, hk⟩ := Option.isSome_iff_exists.1 (dget_isSome.2 (h n π (by simp)))
    refine ⟨⟨k, 0, π⟩ :: ss, (n, base) :: rs, by simp only [mergeStreams, hk, e], ?_⟩
    intro m ρ hm hnd
    simp only [List.map_cons, List.nodup_cons] at hnd
    rcases List.mem_cons.1 hm with e2 | hm
    · cases e2
      exact ⟨k, 0, hk, by simp [dget], rfl⟩
    · obtain ⟨k', i, g1, g2, g3⟩ := hs m ρ hm hnd.2
      refine ⟨k', i + 1, g1, ?_, by simpa using g3⟩
      have : n ≠ m := by rintro rfl; exact hnd.1 (List.mem_map_of_mem (f := (·.1)) hm)
      simp only [dget, if_neg this, g2]
      congr 1; omega

/-- C32. `ctx.partition().merge()` succeeds for a context usable in the current trace. The result is a new context with
the same stream names, and the same flags; each of its streams has the base key of the original, counter 0 and the path
of the original extended by its counter (by one of its counters, if several names share the stream), and the counter of
each original stream has advanced by one for each name bound to it. -/
theorem C32_partition_merge {w : RngWorld κ} (hw : WFRng w) {c : Nat} {ctx : CtxObj} (hu : usable w c = some ctx) :
    ∃ (w1 : RngWorld κ) (p : PureContext κ) (w2 : RngWorld κ) (c2 : Nat) (ctx2 : CtxObj), partitionCtx c w = (w1, .ok p) ∧ mergeCtx p w1 = (w2, .ok c2) ∧ c2 = w.ctxs.length ∧
      usable w2 c2 = some ctx2 ∧ (∀ d, d < w.ctxs.length → w2.ctxs[d]? = w.ctxs[d]?) ∧
      (∀ name, ctx2.hasRng name = ctx.hasRng name) ∧ (∀ name, ctx2.hasFlag name = ctx.hasFlag name) ∧
      (∀ name, ctx2.getFlag name = ctx.getFlag name) ∧
      (∀ name s, dget ctx.rngs name = some s → ∃ st s2 i, w.streams[s]? = some st ∧ dget ctx2.rngs name = some s2 ∧
        w.streams.length ≤ s2 ∧
        w2.streams[s2]? = some ⟨st.key, 0, st.path ++ [st.count + i]⟩ ∧
        i < (ctx.rngs.filter (fun kv => kv.2 == s)).length ∧ (ctx.Unaliased → i = 0)) ∧
      (∀ (s : Nat) (st : RngStream κ), w.streams[s]? = some st →
        w2.streams[s]? = some { st with count := st.count + (ctx.rngs.filter (fun kv => kv.2 == s)).length }) := by
  obtain ⟨ss, fs, hf, hp⟩ := partitionCtx_of_usable hw hu
  obtain ⟨hn, hforks⟩ := forkAll_forks hf
  have hmem := List.mem_of_getElem? (mem_of_usable hu).1
  have hnd := hw.nodup ctx hmem
  have hfsnd : DNodup fs := by unfold DNodup dkeys; rw [hn]; exact hnd
  have hlen := forkAll_length hf
  obtain ⟨ss2, rs2, hms, hspec⟩ := mergeStreams_ok (keys := fs.map (fun kv => (kv.1, kv.2.key)))
    (counts := fs.map (fun kv => (kv.1, kv.2.path))) ss.length (by
      intro n π hm
      obtain ⟨x, hx, e⟩ := List.mem_map.1 hm
      cases e
      unfold dkeys
      rw [List.map_map]
      exact List.mem_map_of_mem (f := fun kv : Str × RngStream κ => kv.1) hx)
  obtain ⟨_, hrs, _, _, _⟩ := mergeStreams_spec hms
  have hrsnd : DNodup rs2 := by
    unfold DNodup dkeys; rw [hrs, List.map_map]; exact hfsnd
  have hm : mergeCtx ⟨fs.map (fun kv => (kv.1, kv.2.key)), fs.map (fun kv => (kv.1, kv.2.path)), ctx.flags⟩
      { w with streams := ss } = ({ w with
        streams := ss ++ ss2, ctxs := w.ctxs ++ [⟨dofList rs2, dofList ctx.flags, w.curTrace⟩] }, .ok w.ctxs.length) := by
    simp only [mergeCtx, hms]; rfl
  refine ⟨_, _, _, _, ⟨dofList rs2, dofList ctx.flags, w.curTrace⟩, hp, hm, rfl, usable_of (by simp) rfl, ?_, ?_, ?_, ?_, ?_, ?_⟩
  · intro d hd
    simp [List.getElem?_append_left hd]
  · intro name
    simp only [CtxObj.hasRng, dhas]
    rw [dofList_of_nodup hrsnd]
    have : dkeys rs2 = dkeys ctx.rngs := by unfold dkeys; rw [hrs, List.map_map, ← hn]; rfl
    rw [Bool.eq_iff_iff, dget_isSome, dget_isSome, this]
  · intro name; simp only [CtxObj.hasFlag, dofList_of_nodup (hw.flags ctx hmem)]
  · intro name; simp only [CtxObj.getFlag, dofList_of_nodup (hw.flags ctx hmem)]
  · intro name s hd
    obtain ⟨st, g1, i, g2, g3, g4⟩ := hforks name s hd
    obtain ⟨k, j, k1, k2, k3⟩ := hspec name (st.path ++ [st.count + i])
      (List.mem_map_of_mem (f := fun kv : Str × RngStream κ => (kv.1, kv.2.path)) (dget_mem g2)) (by rw [List.map_map]; exact hfsnd)
    rw [dget_map_val (fun _ (v : RngStream κ) => v.key), g2] at k1
    simp only [Option.map_some, Option.some.injEq] at k1
    subst k1
    refine ⟨st, ss.length + j, i, g1, ?_, ?_, ?_, g3, g4⟩
    · rw [dofList_of_nodup hrsnd]; exact k2
    · omega
    · rw [List.getElem?_append_right (by omega)]
      rw [show ss.length + j - ss.length = j by omega]
      exact k3
  · intro s st hs
    have := (forkAll_streams hf s)
    rw [hs] at this
    have hl := (List.getElem?_eq_some_iff.1 this).1
    rw [List.getElem?_append_left hl]
    exact this

/-! ### C33 -/

mutual
theorem toRngPredicate_spec : ∀ (f : RngFilter),
    (f.Valid → ∃ p, toRngPredicate f = .ok p ∧ ∀ name, p name = true ↔ f.Selects name) ∧
    (¬ f.Valid → toRngPredicate f = .error .typeError)
  | .none => by simp [RngFilter.Valid, toRngPredicate, RngFilter.Selects]
  | .ellipsis => by simp [RngFilter.Valid, toRngPredicate, RngFilter.Selects]
  | .pred p => by simp [RngFilter.Valid, toRngPredicate, RngFilter.Selects]
  | .str s => by simp [RngFilter.Valid, toRngPredicate, RngFilter.Selects]
  | .invalid => by simp [RngFilter.Valid, toRngPredicate]
  | .map fs => by
    obtain ⟨a, b⟩ := toRngPredicatesIncluded_spec fs
    constructor
    · intro h
      obtain ⟨ps, e, hs⟩ := a (by simpa [RngFilter.Valid] using h)
      exact ⟨fun name => ps.any (fun p => p name), by simp only [toRngPredicate, e], fun name => by
        simp only [RngFilter.Selects]; exact hs name⟩
    · intro h
      simp only [toRngPredicate, b (by simpa [RngFilter.Valid] using h)]
  | .seq fs => by
    obtain ⟨a, b⟩ := toRngPredicates_spec fs
    constructor
    · intro h
      obtain ⟨ps, e, hs⟩ := a (by simpa [RngFilter.Valid] using h)
      exact ⟨fun name => ps.any (fun p => p name), by simp only [toRngPredicate, e], fun name => by
        simp only [RngFilter.Selects]; exact hs name⟩
    · intro h
      simp only [toRngPredicate, b (by simpa [RngFilter.Valid] using h)]
theorem toRngPredicatesIncluded_spec : ∀ (fs : List (RngFilter × Bool)),
    (ValidMap fs → ∃ ps, toRngPredicatesIncluded fs = .ok ps ∧ ∀ name, ps.any (fun p => p name) = true ↔ SelectsMap name fs) ∧
    (¬ ValidMap fs → toRngPredicatesIncluded fs = .error .typeError)
  | [] => by simp [ValidMap, toRngPredicatesIncluded, SelectsMap]
  | (f, inc) :: rest => by
    obtain ⟨a, b⟩ := toRngPredicate_spec f
    obtain ⟨c, d⟩ := toRngPredicatesIncluded_spec rest
    cases inc with
    | false =>
      simp only [ValidMap, toRngPredicatesIncluded, SelectsMap, Bool.false_eq_true, false_implies, true_and, if_false, false_and,
        false_or]
      exact ⟨c, d⟩
    | true =>
      simp only [ValidMap, toRngPredicatesIncluded, SelectsMap, true_implies, true_and, if_true]
      constructor
      · rintro ⟨h1, h2⟩
        obtain ⟨p, e, hp⟩ := a h1
        obtain ⟨ps, e2, hps⟩ := c h2
        refine ⟨p :: ps, by rw [e, e2], fun name => ?_⟩
        simp only [List.any_cons, Bool.or_eq_true, hp, hps]
      · intro h
        by_cases h1 : f.Valid
        · obtain ⟨p, e, _⟩ := a h1
          rw [e, d (fun h2 => h ⟨h1, h2⟩)]
        · rw [b h1]
theorem toRngPredicates_spec : ∀ (fs : List RngFilter),
    (ValidSeq fs → ∃ ps, toRngPredicates fs = .ok ps ∧ ∀ name, ps.any (fun p => p name) = true ↔ SelectsSeq name fs) ∧
    (¬ ValidSeq fs → toRngPredicates fs = .error .typeError)
  | [] => by simp [ValidSeq, toRngPredicates, SelectsSeq]
  | f :: rest => by
    obtain ⟨a, b⟩ := toRngPredicate_spec f
    obtain ⟨c, d⟩ := toRngPredicates_spec rest
    simp only [ValidSeq, toRngPredicates, SelectsSeq]
    constructor
    · rintro ⟨h1, h2⟩
      obtain ⟨p, e, hp⟩ := a h1
      obtain ⟨ps, e2, hps⟩ := c h2
      refine ⟨p :: ps, by rw [e, e2], fun name => ?_⟩
      simp only [List.any_cons, Bool.or_eq_true, hp, hps]
    · intro h
      by_cases h1 : f.Valid
      · obtain ⟨p, e, _⟩ := a h1
        rw [e, d (fun h2 => h ⟨h1, h2⟩)]
      · rw [b h1]
end

/-- C33. A filter without objects of the wrong kind becomes a predicate that accepts exactly the names it denotes; any
other filter raises TypeError. -/
theorem C33_rng_filters (f : RngFilter) :
    (f.Valid → ∃ p, toRngPredicate f = .ok p ∧ ∀ name, p name = true ↔ f.Selects name) ∧
    (¬ f.Valid → toRngPredicate f = .error .typeError) :=
  toRngPredicate_spec f

end Nnx
