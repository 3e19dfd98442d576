import Verif.Model.JitInterrupt
import Verif.Spec.JitInterrupt
import Verif.Props.Jit
import Verif.Props.Grad
import Verif.Props.Remat
import Verif.Props.Interrupt
/-
C138: interrupted calls of jitted functions, gradients and remat.
-/
namespace Nnx
variable {α β : Type} [DecidableEq α]

omit [DecidableEq α] in
theorem upTo_good (kbd : Err) : ∀ (f : Prog α β) (n : Nat), f.Good → (f.upTo kbd n).Good
  | f, 0, _ => by cases f <;> trivial
  | .ret _, _ + 1, _ => trivial
  | .fail _, _ + 1, _ => trivial
  | .get _ _ k, n + 1, h => fun x hx => upTo_good kbd (k x) n (h x hx)
  | .same _ _ k, n + 1, h => fun x => upTo_good kbd (k x) n (h x)
  | .set _ _ _ k, n + 1, h => ⟨h.1, h.2.1, fun x => upTo_good kbd (k x) n (h.2.2 x)⟩
  | .link _ _ _ k, n + 1, h => ⟨h.1, fun x => upTo_good kbd (k x) n (h.2 x)⟩
  | .del _ _ k, n + 1, h => fun x => upTo_good kbd (k x) n (h x)
  | .new _ k, n + 1, h => upTo_good kbd k n h
  | .state _ k, n + 1, h => fun x hx => upTo_good kbd (k x) n (h x hx)

/-- **C138, during the function.** If the exception arrives after `n` steps of the function (a direct call would be stopped there, with whatever it has changed by then), the jitted call
raises it and leaves every existing Module exactly as it was. -/
theorem C138_before {w wd : World α} (wf : WFWorld w) {l : Loc} (hl : l < w.heap.length) (hv : AllValid w l) {f : Prog α β} (hf : f.Good) {kbd : Err} {n : Nat}
    (hd : (f.upTo kbd n).call l w = (wd, .error kbd)) (stateful : Bool) (j t : Nat) :
    ∃ limit, ∀ fuel, limit < fuel → ∃ wj, jitCall fuel stateful j t l (f.upTo kbd n).call w = (wj, .error kbd) ∧
      (∀ a : Loc, a < w.heap.length → wj.heap[a]? = w.heap[a]?) ∧ wj.jaxTrace = w.jaxTrace ∧ wj.nnxStack = w.nnxStack :=
  C49_raises wf hl hv (upTo_good kbd f n hf) hd stateful j t

omit [DecidableEq α] in
/-- What C113 needs of the State of the copy. -/
theorem update_from_pre {u w' : World α} (wf' : WFWorld w') {root : Loc} (hroot' : root < w'.heap.length) (hwalk : ∀ p b, Walk w'.heap root p b ↔ Walk u.heap root p b)
    (hn : NodeWrites u w' root) {k : Nat} {s : State (PyVal α)} (hs : getState k w'.heap root = some s) :
    (∀ t ∈ [s], t.Canonical) ∧ GoodUpdates [s] ∧ LeafPaths u.heap root [s] ∧ NoConflict u.heap root [s] := by
  obtain ⟨p1, p2, p3⟩ := state_paths wf'.heap hroot' hs
  have hadr : ∀ key a n, Addresses u.heap root key a n → Addresses w'.heap root key a n := by
    rintro key a n ⟨p, e, hp⟩; exact ⟨p, e, (hwalk p a).2 hp⟩
  refine ⟨?_, ?_, ?_, ?_⟩
  · intro t ht; rw [List.mem_singleton.1 ht]; exact getState_canonical hs
  · intro t ht key v hm
    rw [List.mem_singleton.1 ht] at hm
    exact getState_good wf'.heap hroot' hs key v hm
  · intro key v hk a n ha b hb
    rw [given_single] at hk
    obtain ⟨a', n', ha', h1, _⟩ := p1 key v hk
    obtain ⟨rfl, rfl⟩ := ha'.functional (hadr _ _ _ ha)
    rcases hn a' n' ha.reaches with h | ⟨v', _, _, h2, _⟩
    · rw [h, hb] at h1; cases h1
    · exact h2 b hb
  · intro key v key' v' hk hk' a n ha ha'
    rw [given_single] at hk hk'
    have := p2 key key' a n (by rw [hk]; rfl) (by rw [hk']; rfl) (hadr _ _ _ ha) (hadr _ _ _ ha')
    subst this
    rw [hk] at hk'; cases hk'; rfl

/-- An update with the State of a copy on which the function has run, stopped after `n` assignments. -/
theorem copy_between {w wd w3 : World α} (wf : WFWorld w) {l : Loc} (hl : l < w.heap.length) (hv : AllValid w l) {F : Loc → World α → World α × Except Err β} (hF : Parametric F) {out : β}
    (hd : F l w = (wd, .ok out)) (hn : NodeWrites w wd l) (pr : PureRun w l F w3 w.heap.length) (hj : w3.jaxTrace = w.jaxTrace) (hst : w3.nnxStack = w.nnxStack)
    {fuel : Nat} (hfuel : w3.heap.length < fuel) :
    ∃ s d, getState fuel w3.heap w.heap.length = some s ∧ partitionModule fuel w3.heap w.heap.length [] = .ok ([s], d) ∧
      Between l w wd fun n => updateInterrupted n fuel l [s] w3 := by
  have hwd : (F l w).1 = wd := by rw [hd]
  have hl3 : l < w3.heap.length := Nat.lt_of_lt_of_le hl pr.len
  obtain ⟨hwalk, hn3⟩ := hn.transfer wf.heap hl pr.len pr.old
  have hkeep := hF.keeps l w wf hl
  rw [hwd] at hkeep
  obtain ⟨s', d', _, hp3, hsd, hs3⟩ := pr.part _ fuel (Nat.lt_succ_self _) hfuel
  obtain ⟨w4, hu, hag, _, _, _⟩ := write_copy wf hl hv hF pr hj hst (by rw [hwd]; exact hn) hsd hfuel
  rw [hwd] at hag hsd
  obtain ⟨hc, hg, hleaf, hnc⟩ := update_from_pre (hwd ▸ pr.wfd) (hwd ▸ pr.ltd)
    (fun q b => (hn.walk hkeep.len wf.heap ⟨[], .here hl⟩).trans (hwalk q b).symm) hn3 hsd
  obtain ⟨cur, hcur⟩ := getState_exists pr.wf.heap hl3 hfuel
  have hm := fun n => interrupted_midway pr.wf hl3 hc hg hleaf hnc hu n fuel
  have hattr : ∀ (n : Nat) (a : Loc) (k : Str), a < w.heap.length →
      attrAt (updateInterrupted n fuel l [s'] w3).heap a k = attrAt w.heap a k ∨ attrAt (updateInterrupted n fuel l [s'] w3).heap a k = attrAt wd.heap a k := by
    intro n a k ha
    have h3 : attrAt w3.heap a k = attrAt w.heap a k := by simp only [attrAt, pr.old a ha]
    rcases (hm n).attr a k with h | h
    · exact .inl (h.trans h3)
    · exact .inr (h.trans ((hag a ha).1 k))
  have hinfo : ∀ (n : Nat) (a : Loc), a < w.heap.length → ((updateInterrupted n fuel l [s'] w3).heap[a]?).map (fun o => (o.cls, o.uid, o.isInit, o.trace)) =
      (w.heap[a]?).map (fun o => (o.cls, o.uid, o.isInit, o.trace)) := by
    intro n a ha
    have ho : w3.heap[a]? = some w.heap[a] := by rw [pr.old a ha, List.getElem?_eq_getElem ha]
    have hax : a < (updateInterrupted n fuel l [s'] w3).heap.length := by rw [(hm n).same.len]; exact Nat.lt_of_lt_of_le ha pr.len
    have hox := List.getElem?_eq_getElem hax
    obtain ⟨e1, e2, e3, e4⟩ := (hm n).same.obj a _ _ ho hox
    simp only [hox, List.getElem?_eq_getElem ha, Option.map_some, e1, e2, e3, e4]
  have hwr : ∀ n, NodeWrites w (updateInterrupted n fuel l [s'] w3) l := by
    rintro n a k ⟨p, hp⟩
    rcases hattr n a k hp.lt with h | h
    · exact .inl h
    · rw [h]; exact hn a k ⟨p, hp⟩
  refine ⟨s', d', hs3, hp3, hattr, hinfo, fun n => by rw [(hm n).same.len]; exact pr.len, ?_, ?_, fun n => (hm n).wf, hwr, ?_, ?_⟩
  · exact fun n => ⟨(hm n).same.jax.trans hj, (hm n).same.stack.trans hst⟩
  · intro a ha
    simp only [updateInterrupted, hcur, List.take_zero, assignAll]
    exact pr.old a ha
  · rintro n a o ⟨p, hp⟩ ho
    have hp' := ((hwr n).walk (by rw [(hm n).same.len]; exact pr.len) wf.heap ⟨[], .here hl⟩).1 hp
    have hi := hinfo n a hp'.lt
    rw [ho, List.getElem?_eq_getElem hp'.lt] at hi
    simp only [Option.map_some, Option.some.injEq, Prod.mk.injEq] at hi
    have := hv a _ ⟨p, hp'⟩ (List.getElem?_eq_getElem hp'.lt)
    rw [traceValid_eq] at this ⊢
    rw [hi.2.2.2, this]
    simp only [World.curTrace, (hm n).same.jax, (hm n).same.stack, hj, hst]
  · refine ⟨((cur :: [s']).foldl (fun d t => dupdate d t.items) []).length, ?_⟩
    intro n hle
    have : updateInterrupted n fuel l [s'] w3 = w4 := by
      simp only [updateState, hcur, updateModule] at hu
      simp only [updateInterrupted, hcur]
      rw [List.take_of_length_le hle, hu]
    simp only [this]
    exact hag

/-- **C138, during the update.** If a direct call `f(m)` returns and its net effect is node writes, and `nnx.jit(f)(m)` is interrupted when `n` attributes have been assigned, then the
exception comes out, every attribute of every existing Module is as before the call or as after a direct call, and nothing else of the Modules changes. Before the first assignment
nothing has changed; from some number of assignments on, everything is as after a direct call. -/
theorem C138_between {w wd : World α} (wf : WFWorld w) {l : Loc} (hl : l < w.heap.length) (hv : AllValid w l) {f : Prog α β} (hf : f.Good) {out : β}
    (hd : f.call l w = (wd, .ok out)) (hn : NodeWrites w wd l) (j t : Nat) (kbd : Err) :
    ∃ limit, ∀ fuel, limit < fuel → ∃ x : Nat → World α, (∀ n, jitInterrupted kbd n fuel j t l f.call w = (x n, .error kbd)) ∧ Between l w wd x := by
  obtain ⟨s, d, hpart⟩ := partition_budget wf hl
  obtain ⟨_, hdef, hs⟩ := hpart _ (Nat.lt_succ_self _)
  obtain ⟨w3, hr, pr, hj, hst⟩ := run_copy wf hl hv hf.parametric hdef hs (pieces_self (getState_canonical hs)) j (some t)
  refine ⟨w3.heap.length, fun fuel hfuel => ?_⟩
  obtain ⟨hp1, _, _⟩ := hpart fuel (Nat.lt_of_le_of_lt pr.len hfuel)
  obtain ⟨s', d', hs3, _, hb⟩ := copy_between wf hl hv hf.parametric hd hn pr hj hst hfuel
  rw [hd] at hr
  exact ⟨_, fun n => by simp only [jitInterrupted, hp1, hr, Except.map, hs3], hb⟩

/-- **C138, remat.** The same for `nnx.remat(f)(m)`. -/
theorem C138_remat {w wd : World α} (wf : WFWorld w) {l : Loc} (hl : l < w.heap.length) (hv : AllValid w l) {f : Prog α β} (hf : f.Good) {out : β}
    (hd : f.call l w = (wd, .ok out)) (hn : NodeWrites w wd l) (j : Nat) (kbd : Err) :
    ∃ limit, ∀ fuel, limit < fuel → ∃ x : Nat → World α, (∀ n, rematInterrupted kbd n fuel j l f.call w = (x n, .error kbd)) ∧ Between l w wd x := by
  obtain ⟨s, d, hpart⟩ := partition_budget wf hl
  obtain ⟨_, hdef, hs⟩ := hpart _ (Nat.lt_succ_self _)
  obtain ⟨w3, hr, pr, hj, hst⟩ := run_copy wf hl hv hf.parametric hdef hs (pieces_self (getState_canonical hs)) j none
  refine ⟨w3.heap.length, fun fuel hfuel => ?_⟩
  obtain ⟨hp1, _, _⟩ := hpart fuel (Nat.lt_of_le_of_lt pr.len hfuel)
  obtain ⟨s', d', _, hp3, hb⟩ := copy_between wf hl hv hf.parametric hd hn pr hj hst hfuel
  rw [hd] at hr
  exact ⟨_, fun n => by simp only [rematInterrupted, hp1, hr, Except.map, hp3], hb⟩

/-- **C138, gradients.** The same for `nnx.grad(f, wrt)(m)`: no gradient is returned, but attributes that `f` has assigned may already have their new values. -/
theorem C138_grad {L : Type} {w wd : World α} (wf : WFWorld w) {l : Loc} (hl : l < w.heap.length) (hv : AllValid w l) {f : Prog α (L × β)} (hf : f.Good) {wrt : Filter α}
    (hwrt : wrt.WellFormed) {loss : L} {aux : β} (hd : f.call l w = (wd, .ok (loss, aux))) (hn : NodeWrites w wd l) (j t : Nat) (kbd : Err) :
    ∃ limit, ∀ fuel, limit < fuel → ∃ x : Nat → World α, (∀ n, gradInterrupted kbd n fuel j t wrt l f.call w = (x n, .error kbd)) ∧ Between l w wd x := by
  obtain ⟨s, d, hpart⟩ := partition_budget wf hl
  obtain ⟨_, hdef, hs⟩ := hpart _ (Nat.lt_succ_self _)
  obtain ⟨p, diff, nondiff, hp, hsp, _⟩ := grad_partition (getState_obtainable hs) hwrt
  obtain ⟨w3, hr, pr, hj, hst⟩ := run_copy wf hl hv hf.parametric hdef hs (partition_pieces (getState_obtainable hs) hsp) j (some t)
  refine ⟨w3.heap.length, fun fuel hfuel => ?_⟩
  obtain ⟨_, hd', hs'⟩ := hpart fuel (Nat.lt_of_le_of_lt pr.len hfuel)
  have hp1 : partitionModule fuel w.heap l [.pred p, .ellipsis] = .ok ([diff, nondiff], d) := by
    simp only [partitionModule, hd', hs', hsp]
  obtain ⟨s', d', hs3, _, hb⟩ := copy_between wf hl hv hf.parametric hd hn pr hj hst hfuel
  rw [hd] at hr
  exact ⟨_, fun n => by simp only [gradInterrupted, hp, hp1, hr, Except.map, hs3], hb⟩

/-- **C138, during the function, for remat and gradients.** Like C138_before. -/
theorem C138_before_others {L : Type} {w wd : World α} (wf : WFWorld w) {l : Loc} (hl : l < w.heap.length) (hv : AllValid w l) {f : Prog α (L × β)} (hf : f.Good) {wrt : Filter α}
    (hwrt : wrt.WellFormed) {kbd : Err} {n : Nat} (hd : (f.upTo kbd n).call l w = (wd, .error kbd))
    (gradOf : (State (PyVal α) → Option L) → State (PyVal α) → State (PyVal α)) (stateful : Bool) (j t : Nat) {fuel : Nat} (hfuel : w.heap.length < fuel) :
    (∃ wj, rematCall fuel j l (f.upTo kbd n).call w = (wj, .error kbd) ∧ (∀ a : Loc, a < w.heap.length → wj.heap[a]? = w.heap[a]?) ∧
      wj.jaxTrace = w.jaxTrace ∧ wj.nnxStack = w.nnxStack) ∧
    (∃ wj, gradCall fuel stateful j t wrt gradOf l (f.upTo kbd n).call w = (wj, .error kbd) ∧ (∀ a : Loc, a < w.heap.length → wj.heap[a]? = w.heap[a]?) ∧
      wj.jaxTrace = w.jaxTrace ∧ wj.nnxStack = w.nnxStack) := by
  refine ⟨C56_raises wf hl hv (upTo_good kbd f n hf) hd j fuel hfuel, ?_⟩
  obtain ⟨wj, e, h1, h2, h3⟩ := C51_raises wf hl hv (upTo_good kbd f n hf) hd gradOf stateful j t fuel hfuel
  exact ⟨wj, by rw [h1, h2 hwrt], h3⟩

omit [DecidableEq α] in
/-- What has to be shown; the rest follows. -/
theorem SameUpToNodes.of {l : Loc} {w y : World α} (wf : WFWorld w) (hl : l < w.heap.length) (hv : AllValid w l) (wfy : WFWorld y) (hlen : w.heap.length ≤ y.heap.length)
    (hinfo : ∀ a : Loc, a < w.heap.length → (y.heap[a]?).map (fun o => (o.cls, o.uid, o.isInit, o.trace)) = (w.heap[a]?).map (fun o => (o.cls, o.uid, o.isInit, o.trace)))
    (hwr : NodeWrites w y l) (hout : ∀ (a : Loc) (k : Str), a < w.heap.length → ¬ Reaches w.heap l a → attrAt y.heap a k = attrAt w.heap a k)
    (htr : y.jaxTrace = w.jaxTrace ∧ y.nnxStack = w.nnxStack) : SameUpToNodes l w y := by
  have hwalk : ∀ p b, Walk y.heap l p b ↔ Walk w.heap l p b := fun p b => hwr.walk hlen wf.heap ⟨[], .here hl⟩
  refine ⟨wfy, hlen, hinfo, hwr, hout, hwalk, ?_, htr⟩
  rintro a o ⟨p, hp⟩ ho
  have hp' := (hwalk p a).1 hp
  have hi := hinfo a hp'.lt
  rw [ho, List.getElem?_eq_getElem hp'.lt] at hi
  simp only [Option.map_some, Option.some.injEq, Prod.mk.injEq] at hi
  have := hv a _ ⟨p, hp'⟩ (List.getElem?_eq_getElem hp'.lt)
  rw [traceValid_eq] at this ⊢
  rw [hi.2.2.2, this]
  simp only [World.curTrace, htr.1, htr.2]

omit [DecidableEq α] in
theorem SameUpToNodes.refl {l : Loc} {w : World α} (wf : WFWorld w) (hv : AllValid w l) : SameUpToNodes l w w :=
  ⟨wf, Nat.le_refl _, fun _ _ => rfl, fun _ _ _ => .inl rfl, fun _ _ _ _ => rfl, fun _ _ => Iff.rfl, hv, rfl, rfl⟩

omit [DecidableEq α] in
theorem SameUpToNodes.trans {l : Loc} {w x y : World α} (h1 : SameUpToNodes l w x) (h2 : SameUpToNodes l x y) : SameUpToNodes l w y := by
  refine ⟨h2.wf, Nat.le_trans h1.len h2.len, fun a ha => (h2.info a (Nat.lt_of_lt_of_le ha h1.len)).trans (h1.info a ha), ?_, ?_, fun p b => (h2.walks p b).trans (h1.walks p b), h2.valid,
    h2.traces.1.trans h1.traces.1, h2.traces.2.trans h1.traces.2⟩
  · rintro a k ⟨p, hp⟩
    rcases h2.writes a k ⟨p, (h1.walks p a).2 hp⟩ with h | ⟨v, e1, e2, e3, e4⟩
    · rw [h]; exact h1.writes a k ⟨p, hp⟩
    · rcases h1.writes a k ⟨p, hp⟩ with g | ⟨v', g1, g2, g3, g4⟩
      · rw [g] at e3 e4
        exact .inr ⟨v, e1, e2, e3, e4⟩
      · refine .inr ⟨v, e1, e2, g3, ?_⟩
        intro c z m hz
        obtain ⟨z', rfl⟩ := g4 c z m hz
        exact e4 c z' m g1
  · intro a k ha hr
    rw [h2.outside a k (Nat.lt_of_lt_of_le ha h1.len) (fun ⟨p, hp⟩ => hr ⟨p, (h1.walks p a).1 hp⟩), h1.outside a k ha hr]

/-- One interrupted call, with any recursion limit. -/
theorem interrupted_step {x y : World α} (wf : WFWorld x) {l : Loc} (hl : l < x.heap.length) (hv : AllValid x l) {f : Prog α β} (hf : f.Good)
    (hnw : ∀ xd out, f.call l x = (xd, .ok out) → NodeWrites x xd l) {kbd : Err} {n fuel j t : Nat} {r : Except Err β}
    (e : jitInterrupted kbd n fuel j t l f.call x = (y, r)) : SameUpToNodes l x y := by
  obtain ⟨s, d, hpart⟩ := partition_budget wf hl
  obtain ⟨hp0, hdef, hs⟩ := hpart _ (Nat.lt_succ_self _)
  obtain ⟨w3, hr, pr, hj, hst⟩ := run_copy wf hl hv hf.parametric hdef hs (pieces_self (getState_canonical hs)) j (some t)
  have h3 : SameUpToNodes l x w3 := .of wf hl hv pr.wf pr.len (fun a ha => by rw [pr.old a ha]) (by
    rintro a k ⟨p, hp⟩; left; simp only [attrAt, pr.old a hp.lt]) (fun a k ha _ => by simp only [attrAt, pr.old a ha]) ⟨hj, hst⟩
  simp only [jitInterrupted] at e
  cases hp : partitionModule fuel x.heap l [] with
  | error e' => rw [hp] at e; cases e; exact .refl wf hv
  | ok q =>
    have hq : q = ([s], d) := by
      simp only [partitionModule] at hp hp0
      split at hp
      · next hd' hs' =>
        cases hp
        split at hp0
        · next hd0 hs0 =>
          cases hp0
          rw [getState_det wf.heap hl hs' hs0]
          rw [getModuleDef_det wf.heap hl hd' hd0]
        · cases hp0
      · cases hp
    subst hq
    rw [hp] at e
    simp only [hr] at e
    cases hc : f.call l x with
    | mk xd res =>
      rw [hc] at e
      cases res with
      | error e' =>
        simp only [Except.map] at e
        cases e; exact h3
      | ok out =>
        simp only [Except.map] at e
        have hn := hnw xd out hc
        obtain ⟨s', d', hs3, _, hb⟩ := copy_between wf hl hv hf.parametric hc hn pr hj hst (Nat.lt_succ_self _)
        cases hg : getState fuel w3.heap x.heap.length with
        | none => rw [hg] at e; cases e; exact h3
        | some s'' =>
          rw [hg] at e
          obtain rfl := getState_det pr.wf.heap pr.lt hg hs3
          simp only [Prod.mk.injEq] at e
          obtain ⟨rfl, _⟩ := e
          cases hcur : getState fuel w3.heap l with
          | none => simp only [updateInterrupted, hcur]; exact h3
          | some cur =>
            obtain ⟨cur', hcur'⟩ := getState_exists pr.wf.heap (Nat.lt_of_lt_of_le hl pr.len) (Nat.lt_succ_self _)
            obtain rfl := getState_det pr.wf.heap (Nat.lt_of_lt_of_le hl pr.len) hcur hcur'
            have he : updateInterrupted n fuel l [s''] w3 = updateInterrupted n (w3.heap.length + 1) l [s''] w3 := by
              simp only [updateInterrupted, hcur, hcur']
            rw [he]
            refine .of wf hl hv (hb.wf n) (hb.len n) (hb.info n) (hb.writes n) ?_ (hb.traces n)
            intro a k ha hra
            rcases hb.attr n a k ha with h | h
            · exact h
            · have := (hf.parametric.confined (Reaches x.heap l) l x wf (by
                rintro u m v ⟨q, hq⟩ e
                exact ⟨_, hq.snoc e (wf.heap.refs _ _ _ e)⟩) ⟨[], Walk.here hl⟩ hl).same a ha hra
              rw [h]
              rw [hc] at this
              simp only [attrAt, this]

/-- A call that is not interrupted, as one that is interrupted after its last assignment. -/
theorem jitCall_interrupted {x : World α} {l : Loc} {F : Loc → World α → World α × Except Err β} (fuel j t : Nat) :
    ∃ n r, jitInterrupted (.user 0) n fuel j t l F x = ((jitCall fuel true j t l F x).1, r) := by
  simp only [jitCall, jitInterrupted, if_true]
  cases partitionModule fuel x.heap l [] with
  | error e => exact ⟨0, _, rfl⟩
  | ok q =>
    simp only
    cases insideTrace j (some t) (mergeAndRun q.2 q.1 F) x with
    | mk w3 res =>
      cases res with
      | error e => exact ⟨0, _, rfl⟩
      | ok lo =>
        simp only [writeBack]
        cases getState fuel w3.heap lo.1 with
        | none => exact ⟨0, _, rfl⟩
        | some s =>
          simp only [updateState, updateInterrupted]
          cases getState fuel w3.heap l with
          | none => exact ⟨0, _, rfl⟩
          | some cur =>
            refine ⟨((cur :: [s]).foldl (fun d t => dupdate d t.items) []).length, .error (.user 0), ?_⟩
            simp only [updateModule, List.take_length]
            generalize assignAll l _ w3 = r
            obtain ⟨w4, e⟩ := r
            cases e <;> rfl

/-- **C138, histories.** After any number of jitted calls on a Module, which may have returned, raised, or been interrupted at any point, the Module is what it was up to the values of
arrays and Variables: the same Modules linked in the same way, of the same classes, containers with the same classes and metadata, and everything outside of its graph unchanged. It can
be used as before. -/
theorem C138_history {w y : World α} (wf : WFWorld w) {l : Loc} (hl : l < w.heap.length) (hv : AllValid w l) (h : JitHistory l w y) : SameUpToNodes l w y := by
  induction h with
  | start => exact .refl wf hv
  | @called x y _ f fuel j t r _ hf hnw e ih =>
    obtain ⟨n, r', hi⟩ := jitCall_interrupted (x := x) (l := l) (F := f.call) fuel j t
    rw [e] at hi
    exact ih.trans (interrupted_step ih.wf (Nat.lt_of_lt_of_le hl ih.len) ih.valid hf hnw hi)
  | interrupted _ hf hnw e ih => exact ih.trans (interrupted_step ih.wf (Nat.lt_of_lt_of_le hl ih.len) ih.valid hf hnw e)

/-- A step that adds one to the attributes `p` and `q`. -/
def exCountStep : Prog Nat Unit :=
  .get 0 (py! "p") fun x => .set 0 (py! "p") (.data cArray (match x with | some (.value (.data _ n)) => n + 1 | _ => 0)) fun _ =>
  .get 0 (py! "q") fun x => .set 0 (py! "q") (.data cArray (match x with | some (.value (.data _ n)) => n + 1 | _ => 0)) fun _ => .ret ()

/-- A Module with two counters. -/
def exCounters : World Nat := ⟨[⟨exCls (py! "Net"), [(py! "p", .val (.data cArray 0)), (py! "q", .val (.data cArray 0))], 7, false, ⟨0, 0⟩⟩], 9, 0, []⟩

/-- **C138, a mixture.** Two counters that every step, called directly or jitted, advances together are apart after an interrupted step; calling the step again does not repair it. -/
theorem C138_torn : ∃ x y z : World Nat, jitInterrupted (.user 0) 1 9 5 6 0 exCountStep.call exCounters = (x, .error (.user 0)) ∧
    attrAt x.heap 0 (py! "p") = some (.val (.data cArray 1)) ∧ attrAt x.heap 0 (py! "q") = some (.val (.data cArray 0)) ∧
    jitCall 9 true 5 6 0 exCountStep.call x = (y, .ok ()) ∧ attrAt y.heap 0 (py! "p") = some (.val (.data cArray 2)) ∧ attrAt y.heap 0 (py! "q") = some (.val (.data cArray 1)) ∧
    jitCall 9 true 5 6 0 exCountStep.call exCounters = (z, .ok ()) ∧ attrAt z.heap 0 (py! "p") = some (.val (.data cArray 1)) ∧ attrAt z.heap 0 (py! "q") = some (.val (.data cArray 1)) :=
  ⟨_, _, _, rfl, by decide +kernel, by decide +kernel, rfl, by decide +kernel, by decide +kernel, rfl, by decide +kernel, by decide +kernel⟩

/-- The hypotheses of C138_between hold of the program and the graph (with sharing) of C49, and those of C138_before when it is stopped after five of its steps. -/
example : WFWorld exWorld ∧ AllValid exWorld 0 ∧ exProg.Good ∧ (∃ wd, exProg.call 0 exWorld = (wd, .ok true) ∧ NodeWrites exWorld wd 0) ∧
    (∃ wd, (exProg.upTo (.user 0) 5).call 0 exWorld = (wd, .error (.user 0)) ∧ wd ≠ exWorld) := by
  refine ⟨exWorld_wf, exWorld_valid, exProg_good, ⟨_, rfl, nodeWrites_of_check (by decide) (by decide)⟩, ⟨_, rfl, ?_⟩⟩
  intro h
  exact absurd (congrArg (fun w => attrAt w.heap 1 (py! "s")) h) (by decide +kernel)

/-- Those of C138_grad and C138_before_others hold of a function that replaces the array `s` of a block and returns a loss. -/
example : ∃ f : Prog Nat (Nat × Unit), f.Good ∧ Filter.WellFormed (.ofType cParam : Filter Nat) ∧ (∃ wd, f.call 1 exWorld = (wd, .ok (3, ())) ∧ NodeWrites exWorld wd 1 ∧ wd ≠ exWorld) ∧
    ∃ wd, (f.upTo (.user 0) 1).call 1 exWorld = (wd, .error (.user 0)) :=
  ⟨.set 0 (py! "s") (.data cArray 9) fun _ => .ret (3, ()), ⟨⟨by unfold NoSlash; decide, by decide⟩, .inl trivial, fun _ => trivial⟩, trivial,
    ⟨_, rfl, nodeWrites_of_check (by decide) (by decide), fun h => absurd (congrArg (fun w => attrAt w.heap 1 (py! "s")) h) (by decide +kernel)⟩, _, rfl⟩

/-- A history of two interrupted steps and a complete one on the two counters. -/
example : ∃ y : World Nat, JitHistory 0 exCounters y ∧ attrAt y.heap 0 (py! "p") = some (.val (.data cArray 3)) ∧ attrAt y.heap 0 (py! "q") = some (.val (.data cArray 1)) := by
  have hg : exCountStep.Good := by
    intro _ _
    refine ⟨⟨by unfold NoSlash; decide, by decide⟩, .inl trivial, fun _ _ _ => ⟨⟨by unfold NoSlash; decide, by decide⟩, .inl trivial, fun _ => trivial⟩⟩
  have key : ∀ x : World Nat, (∃ xd, exCountStep.call 0 x = (xd, .ok ()) ∧ NodeWrites x xd 0) → ∀ xd out, exCountStep.call 0 x = (xd, .ok out) → NodeWrites x xd 0 := by
    rintro x ⟨xd, h1, h2⟩ xd' out h
    rw [h1] at h; cases h; exact h2
  refine ⟨_, .called (fuel := 9) (j := 5) (t := 6) (.interrupted (kbd := .user 0) (n := 1) (fuel := 9) (j := 5) (t := 6)
    (.interrupted (kbd := .user 0) (n := 1) (fuel := 9) (j := 5) (t := 6) .start hg (key _ ?_) rfl) hg (key _ ?_) rfl) hg (key _ ?_) rfl, ?_, ?_⟩
  · exact ⟨_, rfl, nodeWrites_of_check (by decide +kernel) (by decide +kernel)⟩
  · exact ⟨_, rfl, nodeWrites_of_check (by decide +kernel) (by decide +kernel)⟩
  · exact ⟨_, rfl, nodeWrites_of_check (by decide +kernel) (by decide +kernel)⟩
  · decide +kernel
  · decide +kernel

end Nnx
