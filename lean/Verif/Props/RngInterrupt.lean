import Verif.Spec.RngInterrupt
import Verif.Props.Context
/-
C139: keys after an interrupted make_rng or partition.
-/
namespace Nnx
variable {κ η : Type}

/-- Forked streams that nobody got. -/
theorem RngInv.drop {ss : List (RngStream κ)} {ex : List (κ × List Nat)} {draws : List (κ × Str)} (lost : List (κ × List Nat))
    (I : RngInv ss (lost ++ ex) draws) : RngInv ss ex draws := by
  have sub : (slots ss ++ ex).Sublist (slots ss ++ (lost ++ ex)) :=
    (List.Sublist.refl _).append (List.sublist_append_right _ _)
  exact ⟨I.nodup.sublist sub, fun k π i hm => I.parent k π i (sub.subset hm),
    fun k π hm => I.known k π (List.mem_append_right _ hm), I.drawn, I.draws_nodup⟩

theorem RngHistInterrupted.inv {P : RngPrims κ η} {kbd : Err} {w : RngWorld κ} {pend : List (PureContext κ)} {keys : List κ}
    (h : RngHistInterrupted P kbd w pend keys) : ∃ draws, RngInv w.streams (pend.flatMap pureSlots) draws ∧
      keys = draws.map (fun d => P.foldIn d.1 (P.hash d.2)) ∧ (∀ ctx ∈ w.ctxs, DNodup ctx.rngs) := by
  induction h with
  | start j s =>
    refine ⟨[], ⟨by simp [slots], by simp [slots], by simp, by simp, by simp⟩, rfl, by simp⟩
  | @create w pend keys params rngs flags _ hg hn hk ih =>
    obtain ⟨draws, I, e, hd⟩ := ih
    refine ⟨draws, ?_, e, ?_⟩
    · rw [newContext_eq hg.noParams]
      exact RngInv.makeStreams P I hn hk
    · intro ctx hm
      rw [newContext_eq hg.noParams] at hm
      simp only [List.mem_append, List.mem_singleton] at hm
      rcases hm with hm | rfl
      · exact hd ctx hm
      · exact dnodup_dofList _
  | @make w pend keys c name w' k _ hm ih =>
    obtain ⟨draws, I, e, hd⟩ := ih
    unfold makeRng at hm
    split at hm
    · simp at hm
    · split at hm
      · simp at hm
      · split at hm
        · split at hm
          · simp at hm
          · next st hst =>
            simp only [Prod.mk.injEq, Except.ok.injEq] at hm
            obtain ⟨rfl, rfl⟩ := hm
            exact ⟨_, I.make hst, by simp [e], hd⟩
        · simp at hm
  | @partition w pend keys c w' p _ hm ih =>
    obtain ⟨draws, I, e, hd⟩ := ih
    unfold partitionCtx at hm
    split at hm
    · simp at hm
    · next ctx hctx =>
      split at hm
      · split at hm
        · simp at hm
        · next ss fs hf =>
          simp only [Prod.mk.injEq, Except.ok.injEq] at hm
          obtain ⟨rfl, rfl⟩ := hm
          obtain ⟨I2, _, hnames⟩ := I.forkAll hf
          refine ⟨draws, ?_, e, hd⟩
          rw [List.flatMap_cons, pureSlots_of_forks (by
            rw [hnames]; exact hd ctx (List.mem_of_getElem? hctx))]
          exact I2
      · simp at hm
  | @makeInterrupted w pend keys counted c name _ ih =>
    obtain ⟨draws, I, e, hd⟩ := ih
    unfold makeRngInterrupted
    split
    · exact ⟨draws, I, e, hd⟩
    · split
      · exact ⟨draws, I, e, hd⟩
      · split
        · split
          · exact ⟨draws, I, e, hd⟩
          · next st hst =>
            cases counted with
            | false => exact ⟨draws, I, e, hd⟩
            | true => exact ⟨draws, (I.fork hst).drop [_], e, hd⟩
        · exact ⟨draws, I, e, hd⟩
  | @partitionInterrupted w pend keys n c _ ih =>
    obtain ⟨draws, I, e, hd⟩ := ih
    unfold Nnx.partitionInterrupted
    split
    · exact ⟨draws, I, e, hd⟩
    · split
      · split
        · exact ⟨draws, I, e, hd⟩
        · next ss fs hf =>
          exact ⟨draws, (I.forkAll hf).1.drop _, e, hd⟩
      · exact ⟨draws, I, e, hd⟩
  | @merge w pend keys p pend' w' c _ hp hm ih =>
    obtain ⟨draws, I, e, hd⟩ := ih
    unfold mergeCtx at hm
    split at hm
    · simp at hm
    · next ss rs hms =>
      simp only [Prod.mk.injEq, Except.ok.injEq] at hm
      obtain ⟨rfl, rfl⟩ := hm
      have hs := (mergeStreams_spec hms).1
      refine ⟨draws, ?_, e, ?_⟩
      · apply RngInv.merge
        have : pend.flatMap pureSlots |>.Perm (pureSlots p ++ pend'.flatMap pureSlots) := by
          rw [← List.flatMap_cons]
          exact hp.flatMap_right _
        rw [hs]
        exact I.perm this
      · intro ctx hm
        simp only [List.mem_append, List.mem_singleton] at hm
        rcases hm with hm | rfl
        · exact hd ctx hm
        · exact dnodup_dofList _
  | @copy w pend keys c w' c' _ hm ih =>
    obtain ⟨draws, I, e, hd⟩ := ih
    unfold copyCtx at hm
    split at hm
    · simp at hm
    · next ctx hctx =>
      simp only [Prod.mk.injEq, Except.ok.injEq] at hm
      obtain ⟨rfl, rfl⟩ := hm
      refine ⟨draws, I, e, ?_⟩
      intro x hx
      simp only [List.mem_append, List.mem_singleton] at hx
      rcases hx with hx | rfl
      · exact hd x hx
      · exact hd ctx (List.mem_of_getElem? hctx)
  | trace j s _ ih => exact ih

/-- C139. Whatever calls of `make_rng` and `partition` were interrupted, and wherever, the keys that the other calls returned are derived from pairwise different pairs of a base key and a
fold-in string. -/
theorem C139_draws_distinct {P : RngPrims κ η} {kbd : Err} {w : RngWorld κ} {pend : List (PureContext κ)} {keys : List κ}
    (h : RngHistInterrupted P kbd w pend keys) : ∃ draws : List (κ × Str), draws.Nodup ∧
      keys = draws.map (fun d => P.foldIn d.1 (P.hash d.2)) := by
  obtain ⟨draws, I, e, _⟩ := h.inv
  exact ⟨draws, I.draws_nodup, e⟩

/-- C139. If `fold_in` and the hash have no collisions, no key is returned twice, whatever was interrupted. -/
theorem C139_keys_distinct {P : RngPrims κ η} {kbd : Err} {w : RngWorld κ} {pend : List (PureContext κ)} {keys : List κ}
    (hinj : ∀ k s k' s', P.foldIn k (P.hash s) = P.foldIn k' (P.hash s') → k = k' ∧ s = s')
    (h : RngHistInterrupted P kbd w pend keys) : keys.Nodup := by
  obtain ⟨draws, hn, rfl⟩ := C139_draws_distinct h
  unfold List.Nodup
  rw [List.pairwise_map]
  refine hn.imp ?_
  intro a b hab e
  obtain ⟨h1, h2⟩ := hinj _ _ _ _ e
  exact hab (Prod.ext h1 h2)

/-- C139. An interrupted `make_rng` has the effect of no call or of a whole call whose key is lost: repeated, it returns the key it would have returned, or the one that the next call would
have. It raises the exception of the whole call when that raises one. -/
theorem C139_make (P : RngPrims κ η) (kbd : Err) (counted : Bool) (c : Nat) (name : Str) (w : RngWorld κ) :
    (makeRngInterrupted kbd counted c name w).1 = (if counted then (makeRng P c name w).1 else w) ∧
    (makeRngInterrupted kbd counted c name w).2 = (match (makeRng P c name w).2 with | .ok _ => kbd | .error e => e) := by
  unfold makeRngInterrupted makeRng
  cases hc : w.ctxs[c]? with
  | none => cases counted <;> exact ⟨rfl, rfl⟩
  | some ctx =>
    dsimp only
    cases hd : dget ctx.rngs name with
    | none => cases counted <;> exact ⟨rfl, rfl⟩
    | some s =>
      dsimp only
      by_cases ht : ctx.trace = w.curTrace
      · simp only [if_pos ht]
        cases hs : w.streams[s]? with
        | none => cases counted <;> exact ⟨rfl, rfl⟩
        | some st => cases counted <;> exact ⟨rfl, rfl⟩
      · simp only [if_neg ht]
        cases counted <;> simp

/-- Interrupted before the count, `make_rng` gives the same key when it is repeated; after it, the next key. -/
example : (makeRng symPrims 0 (py! "params") (makeRngInterrupted .keyError false 0 (py! "params") exRng1).1).2.toOption =
      some (.fold (.prng 0) (encodeCounts [0])) ∧
    (makeRng symPrims 0 (py! "params") (makeRngInterrupted .keyError true 0 (py! "params") exRng1).1).2.toOption =
      some (.fold (.prng 0) (encodeCounts [1])) := by
  exact ⟨rfl, rfl⟩

/-- C139. `partition` of a usable context, interrupted after `n` streams: each stream is counted up once for every one of the first `n` names it has in the context, keeps its key and its path,
and nothing else changes. -/
theorem C139_partition (kbd : Err) (n : Nat) {w : RngWorld κ} (hw : WFRng w) {c : Nat} {ctx : CtxObj} (hc : usable w c = some ctx) :
    (partitionInterrupted kbd n c w).2 = kbd ∧
    (partitionInterrupted kbd n c w).1.ctxs = w.ctxs ∧
    (partitionInterrupted kbd n c w).1.curTrace = w.curTrace ∧
    ∀ s : Nat, (partitionInterrupted kbd n c w).1.streams[s]? =
      w.streams[s]?.map (fun st => { st with count := st.count + ((ctx.rngs.take n).filter (fun kv => kv.2 == s)).length }) := by
  obtain ⟨h1, h2⟩ := mem_of_usable hc
  obtain ⟨⟨ss, fs⟩, hr⟩ := forkAll_some (rs := ctx.rngs.take n) (ss := w.streams)
    (fun m s hm => hw.addr ctx (List.mem_of_getElem? h1) m s (List.mem_of_mem_take hm))
  simp only [partitionInterrupted, h1, h2, if_true, hr]
  exact ⟨trivial, trivial, rfl, forkAll_streams hr⟩

example : WFRng exRng1 ∧ (usable exRng1 0).isSome :=
  ⟨exRng0_wf.runEv (P := symPrims) (.create (some (.seed 0)) [(py! "det", true)] [(py! "dropout", .seed 1)])
    ⟨⟨by decide, by decide, by simp [contextArgs]⟩, by decide⟩, by decide⟩

/-- C139. After an interrupted call every context can be used where it could be used before, with the same names and flags, and what is known of well formed worlds (C30, C31) still applies. -/
theorem C139_usable (kbd : Err) {w : RngWorld κ} (hw : WFRng w) (counted : Bool) (n c : Nat) (name : Str) :
    (WFRng (makeRngInterrupted kbd counted c name w).1 ∧ ∀ c', usable (makeRngInterrupted kbd counted c name w).1 c' = usable w c') ∧
    (WFRng (partitionInterrupted kbd n c w).1 ∧ ∀ c', usable (partitionInterrupted kbd n c w).1 c' = usable w c') := by
  have same : ∀ ss : List (RngStream κ), ss.length = w.streams.length →
      WFRng { w with streams := ss } ∧ ∀ c', usable { w with streams := ss } c' = usable w c' :=
    fun ss h => ⟨⟨fun ctx hc n s hm => by rw [h]; exact hw.addr ctx hc n s hm, hw.nodup, hw.flags⟩, fun _ => rfl⟩
  constructor
  · unfold makeRngInterrupted
    split
    · exact ⟨hw, fun _ => rfl⟩
    · split
      · exact ⟨hw, fun _ => rfl⟩
      · split
        · split
          · exact ⟨hw, fun _ => rfl⟩
          · cases counted with
            | false => exact ⟨hw, fun _ => rfl⟩
            | true => exact same _ (by simp [bump])
        · exact ⟨hw, fun _ => rfl⟩
  · unfold partitionInterrupted
    split
    · exact ⟨hw, fun _ => rfl⟩
    · split
      · split
        · exact ⟨hw, fun _ => rfl⟩
        · next ss fs hf => exact same _ (forkAll_length hf)
      · exact ⟨hw, fun _ => rfl⟩

/-- The worlds of the example below: `make_rng` interrupted after the count, then `partition` after one of the two streams. -/
def exRngInt2 : RngWorld SymKey := (makeRngInterrupted .keyError true 0 (py! "params") exRng1).1
def exRngInt3 : RngWorld SymKey := (partitionInterrupted .keyError 1 0 exRngInt2).1

example : exRngInt3.streams.map (·.count) = [1, 1] ∧ exRngInt3 ≠ exRngInt2 ∧ exRngInt2 ≠ exRng1 := by decide

/-- Two draws after the interrupted calls. -/
example : RngHistInterrupted symPrims .keyError
    (makeRng symPrims 0 (py! "dropout") (makeRng symPrims 0 (py! "params") exRngInt3).1).1 []
    [.fold (.prng 1) (encodeCounts [1]), .fold (.prng 0) (encodeCounts [1])] := by
  have h1 : RngHistInterrupted symPrims .keyError exRng1 [] [] :=
    .create (.start 0 [0]) ⟨by decide, by decide, by simp [contextArgs]⟩ (by decide) (by simp [exRng0])
  have h3 : RngHistInterrupted symPrims .keyError exRngInt3 [] [] := .partitionInterrupted 1 0 (.makeInterrupted true 0 _ h1)
  have h4 : RngHistInterrupted symPrims .keyError (makeRng symPrims 0 (py! "params") exRngInt3).1 []
      [.fold (.prng 0) (encodeCounts [1])] := .make h3 (c := 0) (name := py! "params") rfl
  exact .make h4 (c := 0) (name := py! "dropout") rfl

end Nnx
