import Verif.Spec.TransformsCtx
import Verif.Props.Context
import Verif.Props.Nested
/-
Functions of a Module and a Context as functions of a Module that return the streams as well.
-/
namespace Nnx
variable {α κ η L β : Type}

/-- The Context `c` can be used. -/
structure Live (c : Nat) (r : RngWorld κ) : Prop where
  wf : WFRng r
  ok : ∃ ctx, usable r c = some ctx

/-- What a Context is apart from its trace. -/
def CtxObj.untraced (x : CtxObj) : Dict Str Nat × Dict Str Bool := (x.rngs, x.flags)

/-- Two worlds of Contexts that differ only in the traces. -/
structure RngRel (c : Nat) (r r' : RngWorld κ) : Prop where
  live : Live c r
  live' : Live c r'
  streams : r.streams = r'.streams
  objs : r.ctxs.map CtxObj.untraced = r'.ctxs.map CtxObj.untraced

theorem RngRel.self {c : Nat} {r : RngWorld κ} (h : Live c r) : RngRel c r r := ⟨h, h, rfl, rfl⟩

/-- What using the Context `c` can do. -/
structure Later (c : Nat) (r r' : RngWorld κ) : Prop where
  jax : r'.jaxTrace = r.jaxTrace
  stack : r'.nnxStack = r.nnxStack
  ctxs : ∀ d, d < r.ctxs.length → r'.ctxs[d]? = r.ctxs[d]?
  wf : WFRng r'
  len : r.streams.length ≤ r'.streams.length
  others : ∀ ctx, r.ctxs[c]? = some ctx → ∀ s, s < r.streams.length → (∀ n, (n, s) ∉ ctx.rngs) → r'.streams[s]? = r.streams[s]?

theorem Live.lt {c : Nat} {r : RngWorld κ} (h : Live c r) : c < r.ctxs.length := by
  obtain ⟨ctx, hu⟩ := h.ok
  exact (List.getElem?_eq_some_iff.1 (mem_of_usable hu).1).1

theorem Later.refl (c : Nat) {r : RngWorld κ} (h : WFRng r) : Later c r r := ⟨rfl, rfl, fun _ _ => rfl, h, Nat.le_refl _, fun _ _ _ _ _ => rfl⟩

theorem Later.ctxs_le {c : Nat} {r r' : RngWorld κ} (h : Later c r r') : r.ctxs.length ≤ r'.ctxs.length := by
  by_cases e : r.ctxs.length = 0
  · omega
  · have h1 : r.ctxs.length - 1 < r.ctxs.length := by omega
    have h2 := h.ctxs (r.ctxs.length - 1) h1
    rw [List.getElem?_eq_getElem h1] at h2
    have := (List.getElem?_eq_some_iff.1 h2).1
    omega

theorem Later.trans {c : Nat} {r r1 r2 : RngWorld κ} (hc : c < r.ctxs.length) (h : Later c r r1) (h' : Later c r1 r2) : Later c r r2 := by
  have hl := h.ctxs_le
  refine ⟨h'.jax.trans h.jax, h'.stack.trans h.stack, fun d hd => (h'.ctxs d (Nat.lt_of_lt_of_le hd hl)).trans (h.ctxs d hd), h'.wf,
    Nat.le_trans h.len h'.len, ?_⟩
  intro ctx hx s hs hn
  rw [h'.others ctx (by rw [h.ctxs c hc]; exact hx) s (Nat.lt_of_lt_of_le hs h.len) hn, h.others ctx hx s hs hn]

theorem Later.live {c : Nat} {r r' : RngWorld κ} (h : Later c r r') (hl : Live c r) : Live c r' := by
  obtain ⟨ctx, hu⟩ := hl.ok
  obtain ⟨h1, h2⟩ := mem_of_usable hu
  refine ⟨h.wf, ctx, usable_of (by rw [h.ctxs c hl.lt]; exact h1) ?_⟩
  simp only [RngWorld.curTrace, h.jax, h.stack]
  exact h2

/-- `make_rng` -/
theorem later_make (P : RngPrims κ η) {c : Nat} {r : RngWorld κ} (h : Live c r) (name : Str) : Later c r (makeRng P c name r).1 := by
  have hwf := WFRng.runEv (P := P) h.wf (.make c name) trivial
  simp only [runEv] at hwf
  obtain ⟨ctx, hu⟩ := h.ok
  obtain ⟨h1, h2⟩ := mem_of_usable hu
  revert hwf
  simp only [makeRng, h1]
  cases hd : dget ctx.rngs name with
  | none => intro hwf; exact Later.refl c hwf
  | some s =>
    simp only [if_pos h2]
    cases hs : r.streams[s]? with
    | none => intro hwf; exact Later.refl c hwf
    | some st =>
      intro hwf
      refine ⟨rfl, rfl, fun _ _ => rfl, hwf, by simp [bump], ?_⟩
      intro ctx' hx t ht hn
      rw [h1] at hx
      cases hx
      have : s ≠ t := fun e => hn name (e ▸ dget_mem hd)
      simp [bump, List.getElem?_set_ne this]

/-- `partition()` and `merge()`, in two worlds that differ only in the traces. -/
theorem fork_spec {c : Nat} {r r' : RngWorld κ} (R : RngRel c r r') : ∃ ss p new rngs flags,
    partitionCtx c r = ({ r with streams := ss }, .ok p) ∧ partitionCtx c r' = ({ r' with streams := ss }, .ok p) ∧
    ss.length = r.streams.length ∧
    (∀ ctx, r.ctxs[c]? = some ctx → ∀ s, (∀ n, (n, s) ∉ ctx.rngs) → ss[s]? = r.streams[s]?) ∧
    (∀ n s, (n, s) ∈ rngs → ss.length ≤ s) ∧
    ∀ r1 : RngWorld κ, r1.streams = ss →
      mergeCtx p r1 = ({ r1 with streams := ss ++ new, ctxs := r1.ctxs ++ [⟨rngs, flags, r1.curTrace⟩] }, .ok r1.ctxs.length) := by
  obtain ⟨ctx, hu⟩ := R.live.ok
  obtain ⟨ctx', hu'⟩ := R.live'.ok
  have he : ctx.untraced = ctx'.untraced := by
    have := congrArg (fun l => l[c]?) R.objs
    simp only [List.getElem?_map, (mem_of_usable hu).1, (mem_of_usable hu').1, Option.map_some, Option.some.injEq] at this
    exact this
  simp only [CtxObj.untraced, Prod.mk.injEq] at he
  obtain ⟨ss, fs, hf, hp⟩ := partitionCtx_of_usable R.live.wf hu
  obtain ⟨ss', fs', hf', hp'⟩ := partitionCtx_of_usable R.live'.wf hu'
  rw [← he.1, ← R.streams, hf] at hf'
  cases hf'
  rw [← he.2] at hp'
  obtain ⟨hn, _⟩ := forkAll_forks hf
  have hlen := forkAll_length hf
  obtain ⟨ss2, rs2, hms, _⟩ := mergeStreams_ok (keys := fs.map (fun kv => (kv.1, kv.2.key)))
    (counts := fs.map (fun kv => (kv.1, kv.2.path))) ss.length (by
      intro n π hm
      obtain ⟨x, hx, e⟩ := List.mem_map.1 hm
      cases e
      unfold dkeys
      rw [List.map_map]
      exact List.mem_map_of_mem (f := fun kv : Str × RngStream κ => kv.1) hx)
  obtain ⟨_, _, ha, _, _⟩ := mergeStreams_spec hms
  refine ⟨ss, _, ss2, dofList rs2, dofList ctx.flags, hp, hp', hlen, ?_, ?_, ?_⟩
  · intro x hx s hn
    rw [(mem_of_usable hu).1] at hx
    cases hx
    rw [forkAll_streams hf s]
    have : ctx.rngs.filter (fun kv => kv.2 == s) = [] := by
      rw [List.filter_eq_nil_iff]
      rintro ⟨n, t⟩ hm ht
      simp only [beq_iff_eq] at ht
      subst ht
      exact hn n hm
    rw [this]
    cases r.streams[s]? <;> simp
  · intro n s hm
    have h2 : (n, s) ∈ rs2 := mem_dofList hm
    have : s ∈ rs2.map (·.2) := List.mem_map_of_mem (f := (·.2)) h2
    rw [ha, List.mem_range'] at this
    obtain ⟨i, hi, rfl⟩ := this
    omega
  · intro r1 e
    subst e
    simp only [mergeCtx, hms]

/-- The world after `partition()` and `merge()`, the latter inside a trace in one of the worlds. -/
theorem fork_live (P : RngPrims κ η) {c : Nat} {r r' : RngWorld κ} (R : RngRel c r r') (j : Nat) : ∃ r1 r1' p r2 r2' c2,
    partitionCtx c r = (r1, .ok p) ∧ partitionCtx c r' = (r1', .ok p) ∧ mergeCtx p (r1.inJax j) = (r2, .ok c2) ∧ mergeCtx p r1' = (r2', .ok c2) ∧
    r1.jaxTrace = r.jaxTrace ∧ RngRel c2 r2 r2' ∧
    (∀ r3, Later c2 r2 r3 → Later c r (r3.inJax r.jaxTrace) ∧ ∀ s, s < r.streams.length → r3.streams[s]? = r1.streams[s]?) ∧
    (∀ r3, Later c2 r2' r3 → Later c r' r3) := by
  obtain ⟨ss, p, new, rngs, flags, h1, h2, hlen, hother, hnew, hm⟩ := fork_spec R
  have hclen : r.ctxs.length = r'.ctxs.length := by simpa using congrArg List.length R.objs
  have hm1 := hm (RngWorld.inJax { r with streams := ss } j) rfl
  have hm2 := hm { r' with streams := ss } rfl
  have hpwf : ∀ {q : RngWorld κ}, WFRng q → q.streams.length = r.streams.length → WFRng { q with streams := ss } :=
    fun h e => ⟨fun ctx hc n s hs => by simp only [hlen, ← e]; exact h.addr ctx hc n s hs, h.nodup, h.flags⟩
  have hmwf : ∀ {q q' : RngWorld κ} {d : Nat}, WFRng q → mergeCtx p q = (q', .ok d) → WFRng q' := by
    intro q q' d h e
    have := WFRng.runEv (P := P) h (.merge p) trivial
    simpa only [runEv, e] using this
  have w0 : WFRng (RngWorld.inJax { r with streams := ss } j) := ⟨(hpwf R.live.wf rfl).addr, (hpwf R.live.wf rfl).nodup, (hpwf R.live.wf rfl).flags⟩
  have w1 := hmwf w0 hm1
  have w2 := hmwf (hpwf R.live'.wf (by rw [R.streams])) hm2
  simp only [RngWorld.inJax] at hm1 w1
  simp only [← hclen] at hm2 w2
  refine ⟨_, _, p, _, _, _, h1, h2, hm1, hm2, rfl, ⟨⟨w1, _, usable_of List.getElem?_concat_length rfl⟩, ⟨w2, _, usable_of (by rw [hclen]; exact List.getElem?_concat_length) rfl⟩, rfl, ?_⟩, ?_, ?_⟩
  · simp only [List.map_append, R.objs, List.map_cons, List.map_nil, CtxObj.untraced]
  · intro r3 L
    have hs : ∀ s, s < r.streams.length → r3.streams[s]? = ss[s]? := by
      intro s hs
      have := L.others ⟨rngs, flags, RngWorld.curTrace { r with streams := ss, jaxTrace := j }⟩ (by simp) s (by simp; omega) (fun n hn => by have := hnew n s hn; omega)
      simpa [List.getElem?_append_left (hlen ▸ hs : s < ss.length)] using this
    refine ⟨⟨rfl, L.stack, ?_, ⟨L.wf.addr, L.wf.nodup, L.wf.flags⟩, ?_, ?_⟩, hs⟩
    · intro d hd
      have := L.ctxs d (by simp; omega)
      simpa [RngWorld.inJax, List.getElem?_append_left hd] using this
    · have := L.len
      simp only [List.length_append, hlen] at this
      simp only [RngWorld.inJax]; omega
    · intro ctx hx s hlt hn
      exact (hs s hlt).trans (hother ctx hx s hn)
  · intro r3 L
    have hs : ∀ s, s < r'.streams.length → r3.streams[s]? = ss[s]? := by
      intro s hs
      rw [← R.streams] at hs
      have := L.others ⟨rngs, flags, RngWorld.curTrace { r' with streams := ss }⟩ (by simp [hclen]) s (by simp; omega) (fun n hn => by have := hnew n s hn; omega)
      simpa [List.getElem?_append_left (hlen ▸ hs : s < ss.length)] using this
    refine ⟨L.jax, L.stack, ?_, L.wf, ?_, ?_⟩
    · intro d hd
      have := L.ctxs d (by simp; omega)
      simpa [List.getElem?_append_left hd] using this
    · have := L.len
      simp only [List.length_append, hlen] at this
      rw [← R.streams]; omega
    · intro ctx hx s hlt hn
      have he := congrArg (fun l => l[c]?) R.objs
      obtain ⟨ctx0, hu⟩ := R.live.ok
      simp only [List.getElem?_map, (mem_of_usable hu).1, hx, Option.map_some, Option.some.injEq, CtxObj.untraced, Prod.mk.injEq] at he
      rw [hs s hlt, ← R.streams]
      exact hother ctx0 (mem_of_usable hu).1 s (he.1 ▸ hn)

variable [DecidableEq α]

/-- The result of a function of a Module and a Context, with the Contexts as part of what is returned. -/
def dropOut (y : Joint α κ × Except Err β) : World α × Except Err (β × RngWorld κ) := (y.1.1, y.2.map fun b => (b, y.1.2))

/-- The function as a function of a Module that returns the Contexts as well. -/
def CtxRoutine.toR (P : RngPrims κ η) : CtxRoutine α κ β → Nat → RngWorld κ → Routine α κ L (β × RngWorld κ)
  | .ret b, _, r => .ret (b, r)
  | .fail e, _, _ => .fail e
  | .op o k, c, r => .op o fun s => (k s).toR P c r
  | .draw name k, c, r => (k (makeRng P c name r).2).toR P c (makeRng P c name r).1
  | .hasRng name k, c, r => (k (askCtx false (·.hasRng name) c r)).toR P c r
  | .flag name k, c, r => (k (askCtx none (·.getFlag name) c r)).toR P c r
  | .call m body k, c, r => .call .direct m (body.toR P c r) fun x => (k x.1).toR P c x.2
  | .remat j m body k, c, r =>
    match partitionCtx c r with
    | (_, .error e) => .fail e
    | (r1, .ok p) =>
      match mergeCtx p (r1.inJax j) with
      | (_, .error e) => .fail e
      | (r2, .ok c2) => .call (.remat j) m (body.toR P c2 r2) fun x => (k x.1).toR P c (x.2.inJax r1.jaxTrace)

theorem CtxRoutine.Good.toR (P : RngPrims κ η) : ∀ {p : CtxRoutine α κ β}, p.Good → ∀ c r, (p.toR (L := L) P c r).Good := by
  intro p
  induction p with
  | ret | fail => intros; trivial
  | op o k ih => intro h c r; exact ⟨h.1, fun x hx => ih x (h.2 x hx) c r⟩
  | draw name k ih => intro h c r; exact ih _ (h _) c _
  | hasRng name k ih => intro h c r; exact ih _ (h _) c _
  | flag name k ih => intro h c r; exact ih _ (h _) c _
  | call m body k ihb ihk => intro h c r; exact ⟨ihb h.1 c r, fun x => ihk x.1 (h.2 x.1) c x.2⟩
  | remat j m body k ihb ihk =>
    intro h c r
    simp only [CtxRoutine.toR]
    split
    · trivial
    · split
      · trivial
      · exact ⟨ihb h.1 _ _, fun x => ihk x.1 (h.2 x.1) c _⟩

/-- The outcome of `nnx.remat` with a Context. -/
theorem rematCtx_drop {fuel j c c2 : Nat} {l : Loc} {w : World α} {r r1 r2 : RngWorld κ} {p : PureContext κ} (hp : partitionCtx c r = (r1, .ok p))
    (hm : mergeCtx p (r1.inJax j) = (r2, .ok c2)) {body : Loc → Nat → Joint α κ → Joint α κ × Except Err β}
    {F : Loc → World α → World α × Except Err (β × RngWorld κ)} (hb : ∀ l w, dropOut (body l c2 (w, r2)) = F l w) :
    dropOut (rematCtxCall fuel j l c body (w, r)) =
      ((rematCall fuel j l F w).1, (rematCall fuel j l F w).2.map fun x => (x.1, x.2.inJax r1.jaxTrace)) := by
  simp only [rematCtxCall, rematCall]
  cases partitionModule fuel w.heap l [] with
  | error e => rfl
  | ok sd =>
    obtain ⟨ss, d⟩ := sd
    simp only [hp, insideJax, insideTrace, mergeAndRunCtx, mergeAndRun, hm, Option.toList, List.append_nil]
    cases mergeDef d ss { w with jaxTrace := j } with
    | mk w1 o =>
      cases o with
      | error e => rfl
      | ok l1 =>
        simp only
        have := hb l1 w1
        rw [← this]
        rcases body l1 c2 (w1, r2) with ⟨⟨w2, r3⟩, o⟩
        cases o with
        | error e => rfl
        | ok b =>
          simp only [dropOut, Except.map]
          rcases partitionModule fuel w2.heap l1 [] with e | ⟨_ | ⟨s, _ | ⟨_, _⟩⟩, _⟩
          · rfl
          · rfl
          · simp only
            rcases updateState fuel l _ _ with ⟨w4, _ | e⟩ <;> rfl
          · rfl

/-- The Contexts after `nnx.remat` with a Context. -/
theorem rematCtx_ctxs {fuel j c c2 : Nat} {l : Loc} {w : World α} {r r1 r2 : RngWorld κ} {p : PureContext κ} (hp : partitionCtx c r = (r1, .ok p))
    (hm : mergeCtx p (r1.inJax j) = (r2, .ok c2)) {body : Loc → Nat → Joint α κ → Joint α κ × Except Err β} {Q : RngWorld κ → Prop}
    (h0 : (∃ e, partitionModule fuel w.heap l [] = .error e) → Q r) (h2 : Q (r2.inJax r1.jaxTrace)) (h3 : ∀ l w, Q ((body l c2 (w, r2)).1.2.inJax r1.jaxTrace)) :
    Q (rematCtxCall fuel j l c body (w, r)).1.2 := by
  simp only [rematCtxCall]
  cases hpm : partitionModule fuel w.heap l [] with
  | error e => exact h0 ⟨e, hpm⟩
  | ok sd =>
    obtain ⟨ss, d⟩ := sd
    simp only [hp, insideJax, mergeAndRunCtx, hm]
    cases mergeDef d ss { w with jaxTrace := j } with
    | mk w1 o =>
      cases o with
      | error e => exact h2
      | ok l1 =>
        simp only
        have := h3 l1 w1
        revert this
        rcases body l1 c2 (w1, r2) with ⟨⟨w2, r3⟩, o⟩
        cases o with
        | error e => exact id
        | ok b =>
          intro this
          simp only
          split
          · rcases updateState fuel l _ _ with ⟨w4, _ | e⟩ <;> exact this
          · exact this
          · exact this

theorem unlimitedCtx_drop {γ : Type} {f : Nat → Joint α κ → Joint α κ × Except Err β} {g : Nat → World α → World α × Except Err γ} {w : World α}
    {r : RngWorld κ} {φ : γ → β × RngWorld κ} (h : ∀ fuel, dropOut (f fuel (w, r)) = ((g fuel w).1, (g fuel w).2.map φ)) :
    dropOut (unlimitedCtx f (w, r)) = ((unlimited g w).1, (unlimited g w).2.map φ) := by
  have : ∀ n, (f n (w, r)).1.1 = (g n w).1 := fun n => congrArg Prod.fst (h n)
  simp only [unlimitedCtx, unlimited, this]
  exact h _

/-- The function with a Context does what the function that returns the Contexts does. -/
theorem run_toR (P : RngPrims κ η) (J : Jax α κ L) : ∀ (p : CtxRoutine α κ β) (K : List Loc) (c : Nat) (w : World α) (r : RngWorld κ), Live c r →
    dropOut (p.run P K c (w, r)) = (p.toR (L := L) P c r).run J K w ∧ Later c r (p.run P K c (w, r)).1.2 := by
  intro p
  induction p with
  | ret b => intro K c w r h; exact ⟨rfl, Later.refl c h.wf⟩
  | fail e => intro K c w r h; exact ⟨rfl, Later.refl c h.wf⟩
  | op o k ih =>
    intro K c w r h
    simp only [CtxRoutine.run, CtxRoutine.toR, Routine.run]
    cases o.run K w with
    | error e => exact ⟨rfl, Later.refl c h.wf⟩
    | ok x => exact ih x.1 x.2.1 c x.2.2 r h
  | draw name k ih =>
    intro K c w r h
    have L1 := later_make P h name
    obtain ⟨h1, h2⟩ := ih (makeRng P c name r).2 K c w _ (L1.live h)
    exact ⟨h1, L1.trans h.lt h2⟩
  | hasRng name k ih => intro K c w r h; exact ih _ K c w r h
  | flag name k ih => intro K c w r h; exact ih _ K c w r h
  | call m body k ihb ihk =>
    intro K c w r h
    simp only [CtxRoutine.run, CtxRoutine.toR, Routine.run]
    cases K[m]? with
    | none => exact ⟨rfl, Later.refl c h.wf⟩
    | some l =>
      obtain ⟨h1, h2⟩ := ihb [l] c w r h
      simp only [How.call, ← h1]
      revert h2
      rcases body.run P [l] c (w, r) with ⟨⟨w', r'⟩, e | b⟩
      · intro h2; exact ⟨rfl, h2⟩
      · intro h2
        obtain ⟨k1, k2⟩ := ihk b K c w' r' (h2.live h)
        exact ⟨k1, h2.trans h.lt k2⟩
  | remat j m body k ihb ihk =>
    intro K c w r h
    obtain ⟨r1, r1', p, r2, r2', c2, hp, _, hm, _, hj, R, hl, _⟩ := fork_live P (RngRel.self h) j
    simp only [CtxRoutine.run, CtxRoutine.toR, hp, hm, Routine.run]
    cases K[m]? with
    | none => exact ⟨rfl, Later.refl c h.wf⟩
    | some l =>
      have hd := unlimitedCtx_drop (w := w) (r := r) (f := fun fuel => rematCtxCall fuel j l c fun l c x => body.run P [l] c x)
        (g := fun fuel => rematCall fuel j l fun l w => (body.toR (L := L) P c2 r2).run J [l] w)
        (φ := fun x => (x.1, x.2.inJax r1.jaxTrace))
        (fun fuel => rematCtx_drop hp hm fun l w => (ihb [l] c2 w r2 R.live).1)
      have hlat : Later c r (unlimitedCtx (fun fuel => rematCtxCall fuel j l c fun l c x => body.run P [l] c x) (w, r)).1.2 := by
        simp only [unlimitedCtx]
        refine rematCtx_ctxs (Q := fun q => Later c r q) hp hm (fun _ => Later.refl c h.wf) ?_ ?_
        · rw [hj]; exact (hl r2 (Later.refl c2 R.live.wf)).1
        · intro l w
          rw [hj]
          exact (hl _ (ihb [l] c2 w r2 R.live).2).1
      simp only [How.call]
      revert hd hlat
      rcases unlimitedCtx (fun fuel => rematCtxCall fuel j l c fun l c x => body.run P [l] c x) (w, r) with ⟨⟨w', r'⟩, e | b⟩
      · intro hd hlat
        refine ⟨?_, hlat⟩
        rcases hu : unlimited (fun fuel => rematCall fuel j l fun l w => (body.toR (L := L) P c2 r2).run J [l] w) w with ⟨w2, e' | x⟩
        · rw [hu] at hd
          simp only [dropOut, Except.map, Prod.mk.injEq, Except.error.injEq] at hd
          simp only [dropOut, Except.map, hd.1, hd.2]
        · rw [hu] at hd
          simp [dropOut, Except.map] at hd
      · intro hd hlat
        rcases hu : unlimited (fun fuel => rematCall fuel j l fun l w => (body.toR (L := L) P c2 r2).run J [l] w) w with ⟨w2, e' | x⟩
        · rw [hu] at hd
          simp [dropOut, Except.map] at hd
        · rw [hu] at hd
          simp only [dropOut, Except.map, Prod.mk.injEq, Except.ok.injEq] at hd
          obtain ⟨rfl, rfl, rfl⟩ := hd
          obtain ⟨k1, k2⟩ := ihk x.1 K c w' _ (hlat.live h)
          exact ⟨k1, hlat.trans h.lt k2⟩

/-- What the functions return, with Contexts that differ in the traces. -/
def OutRel (c : Nat) (r : RngWorld κ) (x : Except Err (β × RngWorld κ)) (o : Except Err β) (r' : RngWorld κ) : Prop :=
  match x, o with
  | .error e, .error e' => e = e'
  | .ok y, .ok b => y.1 = b ∧ Later c r y.2 ∧ RngRel c y.2 r'
  | _, _ => False

theorem RngRel.ask {c : Nat} {r r' : RngWorld κ} (R : RngRel c r r') {γ : Type} (d : γ) (f : Dict Str Nat × Dict Str Bool → γ) :
    askCtx d (fun x => f x.untraced) c r = askCtx d (fun x => f x.untraced) c r' := by
  have he := congrArg (fun l => l[c]?) R.objs
  simp only [List.getElem?_map] at he
  simp only [askCtx]
  rcases h1 : r.ctxs[c]? with _ | x <;> rcases h2 : r'.ctxs[c]? with _ | x' <;> simp_all

theorem RngRel.make (P : RngPrims κ η) {c : Nat} {r r' : RngWorld κ} (R : RngRel c r r') (name : Str) :
    (makeRng P c name r).2 = (makeRng P c name r').2 ∧ RngRel c (makeRng P c name r).1 (makeRng P c name r').1 := by
  have l1 := (later_make P R.live name).live R.live
  have l2 := (later_make P R.live' name).live R.live'
  obtain ⟨ctx, hu⟩ := R.live.ok
  obtain ⟨ctx', hu'⟩ := R.live'.ok
  obtain ⟨h1, h2⟩ := mem_of_usable hu
  obtain ⟨h1', h2'⟩ := mem_of_usable hu'
  have he := congrArg (fun l => l[c]?) R.objs
  simp only [List.getElem?_map, h1, h1', Option.map_some, Option.some.injEq, CtxObj.untraced, Prod.mk.injEq] at he
  revert l1 l2
  simp only [makeRng, h1, h1', ← he.1]
  cases dget ctx.rngs name with
  | none => intro _ _; exact ⟨rfl, R⟩
  | some s =>
    simp only [if_pos h2, if_pos h2', ← R.streams]
    cases r.streams[s]? with
    | none => intro _ _; exact ⟨rfl, R⟩
    | some st => intro l1 l2; exact ⟨rfl, l1, l2, rfl, R.objs⟩

/-- The functions without `nnx.remat` correspond as well. -/
theorem plain_toR (P : RngPrims κ η) (J : Jax α κ L) : ∀ (p : CtxRoutine α κ β) (K : List Loc) (c : Nat) (w : World α) (r r' : RngWorld κ), RngRel c r r' →
    ((p.toR (L := L) P c r).plain J K w).1 = (p.plain P K c (w, r')).1.1 ∧ Later c r' (p.plain P K c (w, r')).1.2 ∧
    OutRel c r ((p.toR (L := L) P c r).plain J K w).2 (p.plain P K c (w, r')).2 (p.plain P K c (w, r')).1.2 := by
  intro p
  induction p with
  | ret b => intro K c w r r' R; exact ⟨rfl, Later.refl c R.live'.wf, rfl, Later.refl c R.live.wf, R⟩
  | fail e => intro K c w r r' R; exact ⟨rfl, Later.refl c R.live'.wf, rfl⟩
  | op o k ih =>
    intro K c w r r' R
    simp only [CtxRoutine.plain, CtxRoutine.toR, Routine.plain]
    cases o.run K w with
    | error e => exact ⟨rfl, Later.refl c R.live'.wf, rfl⟩
    | ok x => exact ih x.1 x.2.1 c x.2.2 r r' R
  | draw name k ih =>
    intro K c w r r' R
    obtain ⟨e, R'⟩ := R.make P name
    have L1 := later_make P R.live name
    have L1' := later_make P R.live' name
    simp only [CtxRoutine.plain, CtxRoutine.toR, e]
    obtain ⟨h1, h2, h3⟩ := ih (makeRng P c name r').2 K c w _ _ R'
    refine ⟨h1, L1'.trans R.live'.lt h2, ?_⟩
    revert h3
    simp only [OutRel]
    split
    · exact id
    · rintro ⟨a, b, d⟩; exact ⟨a, L1.trans R.live.lt b, d⟩
    · exact id
  | hasRng name k ih =>
    intro K c w r r' R
    have := R.ask false (fun x => dhas x.1 name)
    simp only [CtxObj.untraced] at this
    simp only [CtxRoutine.plain, CtxRoutine.toR, CtxObj.hasRng, this]
    exact ih _ K c w r r' R
  | flag name k ih =>
    intro K c w r r' R
    have := R.ask none (fun x => dget x.2 name)
    simp only [CtxObj.untraced] at this
    simp only [CtxRoutine.plain, CtxRoutine.toR, CtxObj.getFlag, this]
    exact ih _ K c w r r' R
  | call m body k ihb ihk =>
    intro K c w r r' R
    simp only [CtxRoutine.plain, CtxRoutine.toR, Routine.plain]
    cases K[m]? with
    | none => exact ⟨rfl, Later.refl c R.live'.wf, rfl⟩
    | some l =>
      obtain ⟨h1, h2, h3⟩ := ihb [l] c w r r' R
      simp only
      revert h1 h2 h3
      rcases (body.toR (L := L) P c r).plain J [l] w with ⟨w1, e | y⟩ <;> rcases body.plain P [l] c (w, r') with ⟨⟨w2, r2⟩, e' | b⟩
      · intro h1 h2 h3; exact ⟨h1, h2, h3⟩
      · intro h1 h2 h3; exact h3.elim
      · intro h1 h2 h3; exact h3.elim
      · rintro rfl h2 ⟨rfl, h4, R'⟩
        obtain ⟨k1, k2, k3⟩ := ihk y.1 K c w1 y.2 r2 R'
        simp only [How.kept, if_true]
        refine ⟨k1, h2.trans R.live'.lt k2, ?_⟩
        revert k3
        simp only [OutRel]
        split
        · exact id
        · rintro ⟨a, b, d⟩; exact ⟨a, h4.trans R.live.lt b, d⟩
        · exact id
  | remat j m body k ihb ihk =>
    intro K c w r r' R
    obtain ⟨r1, r1', p, r2, r2', c2, hp, hp', hm, hm', hj, R2, hl, hl'⟩ := fork_live P R j
    simp only [CtxRoutine.plain, CtxRoutine.toR, hp, hm, Routine.plain, hp', hm']
    cases K[m]? with
    | none => exact ⟨rfl, Later.refl c R.live'.wf, rfl⟩
    | some l =>
      obtain ⟨h1, h2, h3⟩ := ihb [l] c2 w r2 r2' R2
      have L2 := hl' _ h2
      simp only
      revert h1 h2 h3 L2
      rcases (body.toR (L := L) P c2 r2).plain J [l] w with ⟨w1, e | y⟩ <;> rcases body.plain P [l] c2 (w, r2') with ⟨⟨w2, r3⟩, e' | b⟩
      · intro h1 h2 h3 L2; exact ⟨h1, L2, h3⟩
      · intro h1 h2 h3; exact h3.elim
      · intro h1 h2 h3; exact h3.elim
      · rintro rfl h2 ⟨rfl, h4, R'⟩ L2
        have L4 := (hl _ h4).1
        have R4 : RngRel c (y.2.inJax r1.jaxTrace) r3 :=
          ⟨hj ▸ L4.live R.live, L2.live R.live', R'.streams, R'.objs⟩
        obtain ⟨k1, k2, k3⟩ := ihk y.1 K c w1 _ r3 R4
        simp only [How.kept, if_true]
        refine ⟨k1, L2.trans R.live'.lt k2, ?_⟩
        revert k3
        simp only [OutRel]
        split
        · exact id
        · rintro ⟨a, b, d⟩; exact ⟨a, L4.trans R.live.lt (hj ▸ b), d⟩
        · exact id

/-- Effects that can be carried back. -/
theorem CtxRoutine.Carried.toR (P : RngPrims κ η) (J : Jax α κ L) : ∀ (p : CtxRoutine α κ β) (K : List Loc) (c : Nat) (w : World α) (r r' : RngWorld κ),
    RngRel c r r' → p.Carried P K c (w, r') → (p.toR (L := L) P c r).Carried J K w := by
  intro p
  induction p with
  | ret | fail => intros; trivial
  | op o k ih => intro K c w r r' R h s K' w' e; exact ih s K' c w' r r' R (h s K' w' e)
  | draw name k ih =>
    intro K c w r r' R h
    obtain ⟨e, R'⟩ := R.make P name
    simp only [CtxRoutine.Carried] at h
    simp only [CtxRoutine.toR, e]
    exact ih _ K c w _ _ R' h
  | hasRng name k ih =>
    intro K c w r r' R h
    have := R.ask false (fun x => dhas x.1 name)
    simp only [CtxObj.untraced] at this
    simp only [CtxRoutine.Carried, CtxObj.hasRng] at h
    simp only [CtxRoutine.toR, CtxObj.hasRng, this]
    exact ih _ K c w r r' R h
  | flag name k ih =>
    intro K c w r r' R h
    have := R.ask none (fun x => dget x.2 name)
    simp only [CtxObj.untraced] at this
    simp only [CtxRoutine.Carried, CtxObj.getFlag] at h
    simp only [CtxRoutine.toR, CtxObj.getFlag, this]
    exact ih _ K c w r r' R h
  | call m body k ihb ihk =>
    intro K c w r r' R h l hl
    obtain ⟨h1, h2⟩ := h l hl
    refine ⟨ihb [l] c w r r' R h1, ?_⟩
    intro w' x hx
    obtain ⟨k1, k2, k3⟩ := plain_toR P J body [l] c w r r' R
    rw [hx] at k1 k3
    rcases hb : body.plain P [l] c (w, r') with ⟨⟨w2, r2⟩, e' | b⟩ <;> rw [hb] at k1 k2 k3
    · exact k3.elim
    · obtain ⟨rfl, k4, R'⟩ := k3
      simp only at k1
      subst k1
      refine ⟨fun h => absurd rfl h, ?_⟩
      simp only [How.kept, if_true]
      exact ihk x.1 K c w' x.2 r2 R' (h2 _ _ hb)
  | remat j m body k ihb ihk =>
    intro K c w r r' R h
    obtain ⟨r1, r1', p, r2, r2', c2, hp, hp', hm, hm', hj, R2, hl, hl'⟩ := fork_live P R j
    simp only [CtxRoutine.toR, hp, hm]
    intro l hl0
    obtain ⟨h1, h2⟩ := h l hl0 _ _ _ _ hp' hm'
    refine ⟨ihb [l] c2 w r2 r2' R2 h1, ?_⟩
    intro w' x hx
    obtain ⟨k1, k2, k3⟩ := plain_toR P J body [l] c2 w r2 r2' R2
    rw [hx] at k1 k3
    rcases hb : body.plain P [l] c2 (w, r2') with ⟨⟨w2, r3⟩, e' | b⟩ <;> rw [hb] at k1 k2 k3
    · exact k3.elim
    · obtain ⟨rfl, k4, R'⟩ := k3
      simp only at k1
      subst k1
      obtain ⟨g1, g2⟩ := h2 _ _ hb
      refine ⟨fun _ _ => g1, ?_⟩
      simp only [How.kept, if_true]
      exact ihk x.1 K c w' _ r3 ⟨hj ▸ (hl _ k4).1.live R.live, (hl' _ k2).live R.live', R'.streams, R'.objs⟩ g2

end Nnx
