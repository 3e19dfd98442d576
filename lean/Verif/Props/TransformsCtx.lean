import Verif.Proofs.TransformsCtx
/-
C99: Contexts through `nnx.remat` and `nnx.jit`.
-/
namespace Nnx
variable {α κ η β : Type}

/-- No functions of jax are needed. -/
def noJax (α κ : Type) : Jax α κ Unit := ⟨fun _ _ => ⟨[]⟩, ⟨fun _ _ => none, fun _ _ _ => none, fun _ _ => none⟩, fun k _ _ => k⟩

theorem noJax_law : GradLaw (noJax α κ).gradOf := ⟨fun _ _ _ _ => rfl, fun _ _ _ _ h => by cases h⟩

variable [DecidableEq α]

/-- **C99, Contexts through remat.** Let `p` be a function of a Module and a Context that calls other functions with its Context, directly or through
`nnx.remat`, nested in any way, and call it with a Context that can be used in the current trace. Then it returns or raises what it would return or raise if each
`nnx.remat(f)(m, ctx=ctx)` were the direct call `f(m, ctx=ctx.partition().merge())`: in particular all keys it draws are the same. If it returns, all Modules that could be
reached from its argument have the same graphs and are at the same places, and all streams are the same, as after the direct calls. All other Modules, all Contexts there were
before, and the traces are as before in any case. -/
theorem C99_remat_ctx (P : RngPrims κ η) {w : World α} (wf : WFWorld w) {l : Loc} (hl : l < w.heap.length) (hv : AllValid w l) {r : RngWorld κ} (hr : WFRng r)
    {c : Nat} {ctx : CtxObj} (hu : usable r c = some ctx) {p : CtxRoutine α κ β} (hp : p.Good) (hc : p.Carried P [l] c (w, r))
    {wt wp : World α} {rt rp : RngWorld κ} {ot op : Except Err β} (ht : p.run P [l] c (w, r) = ((wt, rt), ot)) (hpl : p.plain P [l] c (w, r) = ((wp, rp), op)) :
    ot = op ∧
    (∀ b, ot = .ok b → rt.streams = rp.streams ∧ (∀ a, Reaches w.heap l a → SameGraph wp.heap a wt.heap a) ∧
      ∀ a a' q, Reaches w.heap l a → Reaches w.heap l a' → (Walk wp.heap a q a' ↔ Walk wt.heap a q a')) ∧
    (∀ a : Loc, a < w.heap.length → ¬ Reaches w.heap l a → wt.heap[a]? = w.heap[a]?) ∧
    (∀ d, d < r.ctxs.length → rt.ctxs[d]? = r.ctxs[d]?) ∧
    WFWorld wt ∧ WFRng rt ∧ wt.jaxTrace = w.jaxTrace ∧ wt.nnxStack = w.nnxStack ∧ rt.jaxTrace = r.jaxTrace ∧ rt.nnxStack = r.nnxStack := by
  have live : Live c r := ⟨hr, ctx, hu⟩
  have R := RngRel.self live
  obtain ⟨h1, h2⟩ := run_toR P (noJax α κ) p [l] c w r live
  obtain ⟨k1, k2, k3⟩ := plain_toR P (noJax α κ) p [l] c w r r R
  rw [ht] at h1 h2
  rw [hpl] at k1 k2 k3
  have hcr := CtxRoutine.Carried.toR P (noJax α κ) p [l] c w r r R hc
  rcases hq : (p.toR (L := Unit) P c r).plain (noJax α κ) [l] w with ⟨wq, oq⟩
  rw [hq] at k1 k3
  obtain ⟨g1, g2, g3, g4, g5, g6⟩ := C90_nested noJax_law wf hl hv (hp.toR P c r) hcr h1.symm hq
  simp only at g1 g2 g3 g4 g5 g6 h2 k1 k2 k3
  subst k1
  refine ⟨?_, ?_, g3, h2.ctxs, g4, h2.wf, g5, g6, h2.jax, h2.stack⟩
  · rcases ot with e | b <;> rcases op with e' | b' <;> rcases oq with e'' | y <;> simp only [Except.map, OutRel] at g1 k3
    all_goals first | exact k3.elim | cases g1
    · rw [k3]
    · exact congrArg Except.ok k3.1
  · intro b hb
    subst hb
    obtain ⟨q1, q2⟩ := g2 (b, rt) rfl
    refine ⟨?_, q1, q2⟩
    rcases op with e' | b' <;> rcases oq with e'' | y <;> simp only [Except.map, OutRel] at g1 k3
    all_goals first | exact k3.elim | cases g1
    exact k3.2.2.streams

/-- **C99, the streams of the caller.** `nnx.remat(f)(m, ctx=ctx)` advances the counter of each existing stream by one for each name that `ctx` has for it, whatever the function does
with its Context and whether it returns or raises. The Context can be used afterwards as before. -/
theorem C99_streams (P : RngPrims κ η) {w : World α} (wf : WFWorld w) {l : Loc} (hl : l < w.heap.length) {r : RngWorld κ} (hr : WFRng r)
    {c : Nat} {ctx : CtxObj} (hu : usable r c = some ctx) (f : CtxRoutine α κ β) (j : Nat) {fuel : Nat} (hf : w.heap.length < fuel) {wt : World α}
    {rt : RngWorld κ} {ot : Except Err β} (ht : rematCtxCall fuel j l c (fun l c x => f.run P [l] c x) (w, r) = ((wt, rt), ot)) :
    (∀ (s : Nat) (st : RngStream κ), r.streams[s]? = some st →
      rt.streams[s]? = some { st with count := st.count + (ctx.rngs.filter (fun kv => kv.2 == s)).length }) ∧
    usable rt c = some ctx := by
  have live : Live c r := ⟨hr, ctx, hu⟩
  obtain ⟨r1, _, p, r2, _, c2, hp, _, hm, _, hj, R, h3, _⟩ := fork_live P (RngRel.self live) j
  obtain ⟨s0, d0, hpart⟩ := partition_budget wf hl
  have hlater : ∀ q, Later c2 r2 q → (∀ s, s < r.streams.length → (q.inJax r1.jaxTrace).streams[s]? = r1.streams[s]?) ∧ Later c r (q.inJax r1.jaxTrace) := by
    intro q hq
    rw [hj]
    exact ⟨(h3 q hq).2, (h3 q hq).1⟩
  have key := rematCtx_ctxs (fuel := fuel) (l := l) (w := w) (body := fun l c x => f.run P [l] c x)
    (Q := fun q => (∀ s, s < r.streams.length → q.streams[s]? = r1.streams[s]?) ∧ Later c r q) hp hm
    (by rintro ⟨e, he⟩; rw [(hpart fuel hf).1] at he; cases he) (hlater r2 (Later.refl c2 R.live.wf))
    (fun l w => hlater _ (run_toR P (noJax α κ) f [l] c2 w r2 R.live).2)
  rw [ht] at key
  obtain ⟨k1, k2⟩ := key
  refine ⟨?_, ?_⟩
  · intro s st hs
    have hlt := (List.getElem?_eq_some_iff.1 hs).1
    obtain ⟨ss, fs, hff, hpp⟩ := partitionCtx_of_usable hr hu
    rw [hp] at hpp
    cases hpp
    rw [k1 s hlt]
    have := forkAll_streams hff s
    rw [hs] at this
    exact this
  · obtain ⟨h1, h2⟩ := mem_of_usable hu
    refine usable_of (by rw [k2.ctxs c live.lt]; exact h1) ?_
    rw [h2]
    have e1 : rt.jaxTrace = r.jaxTrace := k2.jax
    have e2 : rt.nnxStack = r.nnxStack := k2.stack
    simp only [RngWorld.curTrace, e1, e2]

omit [DecidableEq α] in
/-- **C99, Contexts of another trace.** With a Context of another trace, `nnx.remat(f)(m, ctx=ctx)` and `nnx.jit(f)(m, ctx=ctx)` raise TraceContextError before `f` is called, and nothing
is changed. -/
theorem C99_other_trace [DecidableEq α] {w : World α} (wf : WFWorld w) {l : Loc} (hl : l < w.heap.length) {r : RngWorld κ} {c : Nat} {ctx : CtxObj}
    (hc : r.ctxs[c]? = some ctx) (ht : ctx.trace ≠ r.curTrace) (body : Loc → Nat → Joint α κ → Joint α κ × Except Err β) (j t : Nat) (stateful isStatic : Bool)
    {fuel : Nat} (hf : w.heap.length < fuel) :
    rematCtxCall fuel j l c body (w, r) = ((w, r), .error .traceContextError) ∧
    jitCtxCall fuel stateful isStatic j t l c body (w, r) = ((w, r), .error .traceContextError) := by
  obtain ⟨s0, d0, hpart⟩ := partition_budget wf hl
  have hp : partitionCtx c r = (r, .error .traceContextError) := by simp only [partitionCtx, hc, if_neg ht]
  simp only [rematCtxCall, jitCtxCall, (hpart fuel hf).1, hp, and_self]

omit [DecidableEq α] in
/-- **C99, jit does not take a Context.** `nnx.jit(f)(m, ctx=ctx)` raises TypeError, or ValueError if `ctx` is one of the static arguments, for every function, Module and usable
Context: the function is not called, the Module is not changed; but the streams have been advanced. -/
theorem C99_jit_raises [DecidableEq α] {w : World α} (wf : WFWorld w) {l : Loc} (hl : l < w.heap.length) {r : RngWorld κ} (hr : WFRng r) {c : Nat} {ctx : CtxObj}
    (hu : usable r c = some ctx) (body : Loc → Nat → Joint α κ → Joint α κ × Except Err β) (j t : Nat) (stateful isStatic : Bool)
    {fuel : Nat} (hf : w.heap.length < fuel) :
    ∃ r', jitCtxCall fuel stateful isStatic j t l c body (w, r) = ((w, r'), .error (if isStatic then .valueError else .typeError)) ∧
      r'.ctxs = r.ctxs ∧ ∀ (s : Nat) (st : RngStream κ), r.streams[s]? = some st →
        r'.streams[s]? = some { st with count := st.count + (ctx.rngs.filter (fun kv => kv.2 == s)).length } := by
  obtain ⟨s0, d0, hpart⟩ := partition_budget wf hl
  obtain ⟨ss, fs, hff, hp⟩ := partitionCtx_of_usable hr hu
  refine ⟨{ r with streams := ss }, ?_, rfl, ?_⟩
  · cases isStatic <;>
      simp [jitCtxCall, hp, (hpart fuel hf).1, jitCtxArg, pureContextLeaves, ArgLeaf.traceable]
  · intro s st hs
    have := forkAll_streams hff s
    rw [hs] at this
    exact this

/-- Go on with a key, or let the exception pass. -/
def orRaise (g : κ → CtxRoutine α κ β) : Except Err κ → CtxRoutine α κ β
  | .ok k => g k
  | .error e => .fail e

/-- **C99, the Context of a jitted function.** Even if `jax.jit` accepted the argument, the function could not use its Context: it is merged before the nnx trace of the call is entered, so
that `make_rng` raises TraceContextError (unless that trace is the current one already). -/
theorem C99_jit_merges_outside (P : RngPrims κ η) {w : World α} (wf : WFWorld w) {l : Loc} (hl : l < w.heap.length) {r : RngWorld κ} (hr : WFRng r)
    {c : Nat} {ctx : CtxObj} (hu : usable r c = some ctx) {name : Str} (hn : ctx.hasRng name = true) {t : Nat} (ht : t ≠ r.nnxStack.getLastD 0)
    (g : κ → CtxRoutine α κ β) (j : Nat) (stateful : Bool) {fuel : Nat} (hf : w.heap.length < fuel) :
    ∃ r1 p ss d, partitionCtx c r = (r1, .ok p) ∧ partitionModule fuel w.heap l [] = .ok (ss, d) ∧
      (jitCtxRun fuel stateful j t l ss d p (fun l c x => (CtxRoutine.draw name (orRaise g)).run P [l] c x) (w, r1)).2 = .error .traceContextError := by
  obtain ⟨s0, d0, hpart⟩ := partition_budget wf hl
  obtain ⟨hp0, hd, hs⟩ := hpart fuel hf
  obtain ⟨ss, p, new, rngs, flags, h1, _, hlen, _, _, hm⟩ := fork_spec (RngRel.self ⟨hr, ctx, hu⟩)
  obtain ⟨w1, p', w2, c2, ctx2, k1, k2, _, k4, _, k6, _⟩ := C32_partition_merge hr hu
  rw [h1] at k1
  cases k1
  have hm1 := hm { r with streams := ss } rfl
  rw [k2] at hm1
  cases hm1
  have hrn : dhas rngs name = true := by
    have e := (mem_of_usable k4).1
    simp only [List.getElem?_concat_length, Option.some.injEq] at e
    rw [← e] at k6
    exact (k6 name).trans hn
  obtain ⟨u, _, hmg, _⟩ := mergeDef_spec wf.heap hl hd hs (pieces_self (getState_canonical hs))
    (w := { w with jaxTrace := j, nnxStack := w.nnxStack ++ [t] }) wf.heap.conts
  refine ⟨_, _, _, _, h1, hp0, ?_⟩
  have hm2 := hm (RngWorld.inJax { r with streams := ss } j) rfl
  simp only [RngWorld.inJax] at hm2
  obtain ⟨s, hds⟩ : ∃ s, dget rngs name = some s := Option.isSome_iff_exists.1 (by simpa [dhas] using hrn)
  rw [List.getLastD_eq_getLast?] at ht
  simp [jitCtxRun, RngWorld.inJax, hm2, hmg, CtxRoutine.run, makeRng, hds, RngWorld.curTrace, orRaise, List.getLastD_eq_getLast?, Ne.symm ht]

/-! ### Keys -/

/-- A call through `nnx.remat` of a function that records. -/
theorem rematCtx_map {γ : Type} {fuel j : Nat} {l : Loc} {c : Nat} {F : Loc → Nat → Joint α κ → Joint α κ × Except Err γ}
    {G : Loc → Nat → Joint α κ → Joint α κ × Except Err β} {φ : γ → β} (h : ∀ l c x, ((F l c x).1, (F l c x).2.map φ) = G l c x) (x : Joint α κ) :
    ((rematCtxCall fuel j l c F x).1, (rematCtxCall fuel j l c F x).2.map φ) = rematCtxCall fuel j l c G x := by
  simp only [rematCtxCall]
  cases partitionModule fuel x.1.heap l [] with
  | error e => rfl
  | ok sd =>
    simp only
    rcases partitionCtx c x.2 with ⟨r1, e | p⟩
    · rfl
    · simp only [insideJax, mergeAndRunCtx]
      rcases mergeCtx p (r1.inJax j) with ⟨r2, e | c2⟩
      · rfl
      · simp only
        rcases mergeDef sd.2 sd.1 { x.1 with jaxTrace := j } with ⟨w1, e | l1⟩
        · rfl
        · simp only
          have := h l1 c2 (w1, r2)
          rw [← this]
          rcases F l1 c2 (w1, r2) with ⟨y, e | b⟩
          · rfl
          · simp only [Except.map]
            rcases partitionModule fuel y.1.heap l1 [] with e | ⟨_ | ⟨s, _ | ⟨_, _⟩⟩, _⟩
            · rfl
            · rfl
            · simp only
              rcases updateState fuel l _ _ with ⟨w4, _ | e⟩ <;> rfl
            · rfl

/-- **C99, recording.** A function that returns its keys in addition does and returns the same otherwise. -/
theorem C99_recording (P : RngPrims κ η) : ∀ (p : CtxRoutine α κ β) (ks : List κ) (K : List Loc) (c : Nat) (x : Joint α κ),
    (((p.recording ks).run P K c x).1, ((p.recording ks).run P K c x).2.map Prod.fst) = p.run P K c x := by
  intro p
  induction p with
  | ret b | fail e => intro ks K c x; rfl
  | op o k ih =>
    intro ks K c x
    simp only [CtxRoutine.recording, CtxRoutine.run]
    cases o.run K x.1 with
    | error e => rfl
    | ok y => exact ih y.1 ks y.2.1 c (y.2.2, x.2)
  | draw name k ih => intro ks K c x; exact ih _ _ K c _
  | hasRng name k ih => intro ks K c x; exact ih _ _ K c _
  | flag name k ih => intro ks K c x; exact ih _ _ K c _
  | call m body k ihb ihk =>
    intro ks K c x
    simp only [CtxRoutine.recording, CtxRoutine.run]
    cases K[m]? with
    | none => rfl
    | some l =>
      simp only
      rw [← ihb ks [l] c x]
      rcases (body.recording ks).run P [l] c x with ⟨y, e | b⟩
      · rfl
      · exact ihk b.1 b.2 K c y
  | remat j m body k ihb ihk =>
    intro ks K c x
    simp only [CtxRoutine.recording, CtxRoutine.run]
    cases K[m]? with
    | none => rfl
    | some l =>
      simp only
      have hm : ∀ fuel, _ := fun fuel => rematCtx_map (fuel := fuel) (j := j) (l := l) (c := c) (fun l c x => ihb ks [l] c x) x
      have hu : ((unlimitedCtx (fun fuel => rematCtxCall fuel j l c fun l c x => (body.recording ks).run P [l] c x) x).1,
          (unlimitedCtx (fun fuel => rematCtxCall fuel j l c fun l c x => (body.recording ks).run P [l] c x) x).2.map Prod.fst) =
          unlimitedCtx (fun fuel => rematCtxCall fuel j l c fun l c x => body.run P [l] c x) x := by
        simp only [unlimitedCtx]
        rw [← congrArg Prod.fst (hm (x.1.heap.length + 1))]
        exact hm _
      rw [← hu]
      rcases unlimitedCtx (fun fuel => rematCtxCall fuel j l c fun l c x => (body.recording ks).run P [l] c x) x with ⟨y, e | b⟩
      · rfl
      · exact ihk b.1 b.2 K c y

/-- What a call through `nnx.remat` that returns consists of. -/
theorem rematCtx_returns {fuel j : Nat} {l : Loc} {c : Nat} {F : Loc → Nat → Joint α κ → Joint α κ × Except Err β} {x y : Joint α κ} {b : β}
    (h : rematCtxCall fuel j l c F x = (y, .ok b)) : ∃ r1 p r2 c2 l' w' z, partitionCtx c x.2 = (r1, .ok p) ∧ mergeCtx p (r1.inJax j) = (r2, .ok c2) ∧
      F l' c2 (w', r2) = (z, .ok b) ∧ y.2 = z.2.inJax r1.jaxTrace := by
  simp only [rematCtxCall] at h
  rcases hpm : partitionModule fuel x.1.heap l [] with e | sd <;> rw [hpm] at h
  · cases h
  · simp only at h
    rcases hp : partitionCtx c x.2 with ⟨r1, e | p⟩ <;> rw [hp] at h
    · cases h
    · simp only [insideJax, mergeAndRunCtx] at h
      rcases hm : mergeCtx p (r1.inJax j) with ⟨r2, e | c2⟩ <;> rw [hm] at h
      · cases h
      · simp only at h
        rcases hd : mergeDef sd.2 sd.1 { x.1 with jaxTrace := j } with ⟨w1, e | l1⟩ <;> rw [hd] at h
        · cases h
        · simp only at h
          rcases hF : F l1 c2 (w1, r2) with ⟨z, e | b'⟩ <;> rw [hF] at h
          · cases h
          · simp only at h
            rcases hq : partitionModule fuel z.1.heap l1 [] with e | ⟨_ | ⟨s, _ | ⟨_, _⟩⟩, _⟩ <;> rw [hq] at h
            · cases h
            · cases h
            · simp only at h
              rcases hu : updateState fuel l [s] { z.1 with jaxTrace := x.1.jaxTrace, nnxStack := x.1.nnxStack } with ⟨w4, _ | e⟩ <;> rw [hu] at h
              · cases h
                exact ⟨r1, p, r2, c2, l1, w1, z, rfl, hm, hF, rfl⟩
              · cases h
            · cases h

/-- The keys that a function has drawn when it returns extend the history of the Contexts. -/
theorem recording_hist (P : RngPrims κ η) : ∀ (p : CtxRoutine α κ β) (ks : List κ) (K : List Loc) (c : Nat) (x y : Joint α κ) (b : β) (ks' keys : List κ)
    (pend : List (PureContext κ)), RngHist P x.2 pend (ks ++ keys) → (p.recording ks).run P K c x = (y, .ok (b, ks')) → RngHist P y.2 pend (ks' ++ keys) := by
  intro p
  induction p with
  | ret b =>
    intro ks K c x y b' ks' keys pend h e
    cases e
    exact h
  | fail e => intro ks K c x y b' ks' keys pend h e; cases e
  | op o k ih =>
    intro ks K c x y b' ks' keys pend h e
    simp only [CtxRoutine.recording, CtxRoutine.run] at e
    rcases ho : o.run K x.1 with e' | z <;> rw [ho] at e
    · cases e
    · exact ih z.1 ks z.2.1 c (z.2.2, x.2) y b' ks' keys pend h e
  | draw name k ih =>
    intro ks K c x y b' ks' keys pend h e
    simp only [CtxRoutine.recording, CtxRoutine.run] at e
    refine ih _ _ K c (x.1, (makeRng P c name x.2).1) y b' ks' keys pend ?_ e
    have hf := (C31_failure_consumes_nothing P c name x.2).1
    rcases hm : makeRng P c name x.2 with ⟨r', e' | k'⟩
    · rw [hm] at hf
      have : r' = x.2 := hf e' rfl
      subst this
      exact h
    · exact .make h hm
  | hasRng name k ih => intro ks K c x y b' ks' keys pend h e; exact ih _ ks K c x y b' ks' keys pend h e
  | flag name k ih => intro ks K c x y b' ks' keys pend h e; exact ih _ ks K c x y b' ks' keys pend h e
  | call m body k ihb ihk =>
    intro ks K c x y b' ks' keys pend h e
    simp only [CtxRoutine.recording, CtxRoutine.run] at e
    rcases hK : K[m]? with _ | l <;> rw [hK] at e
    · cases e
    · simp only at e
      rcases hb : (body.recording ks).run P [l] c x with ⟨z, e' | d⟩ <;> rw [hb] at e
      · cases e
      · exact ihk d.1 d.2 K c z y b' ks' keys pend (ihb ks [l] c x z d.1 d.2 keys pend h hb) e
  | remat j m body k ihb ihk =>
    intro ks K c x y b' ks' keys pend h e
    simp only [CtxRoutine.recording, CtxRoutine.run] at e
    rcases hK : K[m]? with _ | l <;> rw [hK] at e
    · cases e
    · simp only at e
      rcases hb : unlimitedCtx (fun fuel => rematCtxCall fuel j l c fun l c x => (body.recording ks).run P [l] c x) x with ⟨z, e' | d⟩ <;> rw [hb] at e
      · cases e
      · simp only [unlimitedCtx] at hb
        obtain ⟨r1, p, r2, c2, l', w', u, h1, h2, h3, h4⟩ := rematCtx_returns hb
        refine ihk d.1 d.2 K c z y b' ks' keys pend ?_ e
        have g1 : RngHist P r1 (p :: pend) (ks ++ keys) := .partition h h1
        have g2 : RngHist P (r1.inJax j) (p :: pend) (ks ++ keys) := .trace j r1.nnxStack g1
        have g3 : RngHist P r2 pend (ks ++ keys) := .merge g2 (List.Perm.refl _) h2
        have g4 := ihb ks [l'] c2 (w', r2) u d.1 d.2 keys pend g3 h3
        rw [h4]
        exact .trace r1.jaxTrace u.2.nnxStack g4

/-- **C99, fresh keys.** All keys that a function draws, inside and outside of the functions that it calls through `nnx.remat`, extend the history of `make_rng` calls: by C29 they
are derived from pairwise different pairs of a base key and a fold-in string, which also differ from those of all keys drawn before and (the history may go on) later. -/
theorem C99_fresh_keys {P : RngPrims κ η} {p : CtxRoutine α κ β} {K : List Loc} {c : Nat} {w w' : World α} {r r' : RngWorld κ} {b : β} {keys drawn : List κ}
    {pend : List (PureContext κ)} (h : RngHist P r pend keys) (hrun : (p.recording []).run P K c (w, r) = ((w', r'), .ok (b, drawn))) :
    RngHist P r' pend (drawn ++ keys) ∧
    ((∀ k s k' s', P.foldIn k (P.hash s) = P.foldIn k' (P.hash s') → k = k' ∧ s = s') → (drawn ++ keys).Nodup) := by
  have := recording_hist P p [] K c (w, r) _ b drawn keys pend h hrun
  exact ⟨this, fun hinj => C29_keys_distinct hinj this⟩

/-! ### An example -/

/-- Draws a key, changes the parameter of the Module, and draws another key. -/
def exNoisy : CtxRoutine Nat SymKey Nat :=
  .draw (py! "dropout") fun _ => .op (.set 0 (py! "w") (.data cArray 5)) fun _ => .draw (py! "params") fun _ => .ret 5

/-- Draws keys before, between and after two calls of this function through `nnx.remat`. -/
def exNoisyTwice : CtxRoutine Nat SymKey Nat :=
  .draw (py! "dropout") fun _ => .remat 9 0 exNoisy fun n => .draw (py! "dropout") fun _ => .remat 9 0 exNoisy fun _ => .draw (py! "dropout") fun _ => .ret n

theorem exNoisyTwice_good : exNoisyTwice.Good := by
  have hn : GoodName (py! "w") := ⟨by unfold NoSlash; decide, by decide⟩
  have h : exNoisy.Good := fun _ => ⟨⟨hn, .inl trivial⟩, fun _ _ _ => trivial⟩
  exact fun _ => ⟨h, fun _ _ => ⟨h, fun _ _ => trivial⟩⟩

theorem exNoisyTwice_carried : exNoisyTwice.Carried symPrims [0] 0 (exWorld, exRng1) := by
  intro l hl r p r' c' hp hm
  cases hl
  cases hp
  cases hm
  refine ⟨fun _ _ _ _ => trivial, ?_⟩
  intro y b h
  cases h
  refine ⟨nodeWrites_of_check (by decide) (by decide), ?_⟩
  intro l hl r p r' c' hp hm
  cases hl
  cases hp
  cases hm
  refine ⟨fun _ _ _ _ => trivial, ?_⟩
  intro y b h
  cases h
  exact ⟨nodeWrites_of_check (by decide) (by decide), trivial⟩

theorem exRng1_wf : WFRng exRng1 := exRng0_wf.runEv (P := symPrims)
  (.create (some (.seed 0)) [(py! "det", true)] [(py! "dropout", .seed 1)]) ⟨⟨by decide, by decide, by simp [contextArgs]⟩, by decide⟩

/-- It returns 5, changes the parameter, and draws seven different keys. -/
theorem exNoisyTwice_runs : ∃ y, (exNoisyTwice.recording []).run symPrims [0] 0 (exWorld, exRng1) = (y, .ok (5,
      [.fold (.prng 1) (encodeCounts [4]), .fold (.prng 0) (encodeCounts [1, 0]), .fold (.prng 1) (encodeCounts [3, 0]), .fold (.prng 1) (encodeCounts [2]),
       .fold (.prng 0) (encodeCounts [0, 0]), .fold (.prng 1) (encodeCounts [1, 0]), .fold (.prng 1) (encodeCounts [0])])) ∧
    observe y.1.heap 0 [py! "w"] = some (.value (exParam 5)) := by
  refine ⟨((exNoisyTwice.recording []).run symPrims [0] 0 (exWorld, exRng1)).1, ?_, ?_⟩
  · refine Prod.ext rfl ?_
    decide +kernel
  · decide +kernel

/-- The hypotheses of `C99_remat_ctx` hold for it. -/
example {ot op : Except Err Nat} {wt wp : World Nat} {rt rp : RngWorld SymKey} (ht : exNoisyTwice.run symPrims [0] 0 (exWorld, exRng1) = ((wt, rt), ot))
    (hp : exNoisyTwice.plain symPrims [0] 0 (exWorld, exRng1) = ((wp, rp), op)) : ot = op :=
  (C99_remat_ctx symPrims exWorld_wf (by decide) exWorld_valid exRng1_wf (c := 0) rfl exNoisyTwice_good exNoisyTwice_carried ht hp).1

/-- The hypotheses of `C99_streams` hold. -/
example : ((rematCtxCall 20 9 0 0 (fun l c x => exNoisy.run symPrims [l] c x) (exWorld, exRng1)).1.2.streams).map (·.count) = [1, 1, 1, 1] ∧
    (usable exRng1 0).isSome = true := by
  refine ⟨by decide +kernel, by decide +kernel⟩

/-- The hypotheses of `C99_fresh_keys` hold. -/
example : ∃ r' drawn, drawn.length = 7 ∧ RngHist symPrims r' [] (drawn ++ []) := by
  have h1 : RngHist symPrims exRng1 [] [] :=
    .create (.start 0 [0]) ⟨by decide, by decide, by simp [contextArgs]⟩ (by decide) (by simp [exRng0])
  obtain ⟨y, hy, _⟩ := exNoisyTwice_runs
  exact ⟨_, _, rfl, (C99_fresh_keys h1 hy).1⟩

/-- A Context created outside and used in another trace: the hypotheses of `C99_other_trace` hold. -/
example : rematCtxCall 20 9 0 0 (fun l c x => exNoisy.run symPrims [l] c x) (exWorld, exRng1.inJax 3) = ((exWorld, exRng1.inJax 3), .error .traceContextError) :=
  (C99_other_trace exWorld_wf (by decide) (ctx := exRng1.ctxs[0]) rfl (by decide) _ 9 0 true false (by decide)).1

/-- The hypotheses of `C99_jit_raises` hold. -/
example : ∃ r', jitCtxCall 20 true false 9 10 0 0 (fun l c x => exNoisy.run symPrims [l] c x) (exWorld, exRng1) = ((exWorld, r'), .error .typeError) := by
  obtain ⟨r', h, _⟩ := C99_jit_raises exWorld_wf (l := 0) (by decide) exRng1_wf (c := 0) (ctx := exRng1.ctxs[0]) rfl (fun l c x => exNoisy.run symPrims [l] c x) 9 10 true false
    (fuel := 20) (by decide)
  exact ⟨r', h⟩

/-- The hypotheses of `C99_jit_merges_outside` hold. -/
example : (10 : Nat) ≠ exRng1.nnxStack.getLastD 0 ∧ ∃ ctx, usable exRng1 0 = some ctx ∧ ctx.hasRng (py! "dropout") = true := ⟨by decide, _, rfl, by decide⟩

end Nnx
