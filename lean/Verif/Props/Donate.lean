import Verif.Proofs.Donate
import Mathlib.Data.List.Pairwise
/-
C128: `nnx.jit(f, donate_argnums=0)` hands the buffers of the Module's arrays over to the compiled program.
-/
namespace Nnx
variable {α β : Type} [DecidableEq α]

/-- A donating call on a Module that is ready, up to the point where the function has been traced. -/
theorem donating_traced {w : World (α × Nat)} (wf : WFWorld w) {l : Loc} (hl : l < w.heap.length) (hv : AllValid w l)
    {f : Prog (α × Nat) β} (hf : f.Good) {mem : Memory} (hr : Ready w l mem) (j t : Nat) :
    ∃ w3 s d given, PureRun w l f.call w3 w.heap.length ∧ w3.jaxTrace = w.jaxTrace ∧ w3.nnxStack = w.nnxStack ∧
      (∀ b, b ∈ given ↔ Uses w l b) ∧
      (given.Nodup ∧ (∀ b ∈ given, b ∉ mem.gone)) ∧
      insideTrace j (some t) (mergeAndRun d [s] f.call) w = (w3, (f.call l w).2.map fun out => (w.heap.length, out)) ∧
      ∀ fuel, w.heap.length < fuel → partitionModule fuel w.heap l [] = .ok ([s], d) ∧
        buffersM ([s].flatMap (·.items)) = some given := by
  obtain ⟨s, d, hpart⟩ := partition_budget wf hl
  obtain ⟨_, hdef, hs⟩ := hpart _ (Nat.lt_succ_self _)
  obtain ⟨w3, hrun, pr, hj, hst⟩ := run_copy wf hl hv hf.parametric hdef hs (pieces_self (getState_canonical hs)) j (some t)
  obtain ⟨given, hb, hu⟩ := state_buffers wf hl hs (fun a n v h => by
    obtain ⟨bs, e, _⟩ := hr.arrays a n v h
    exact ⟨bs, e⟩)
  refine ⟨w3, s, d, given, pr, hj, hst, hu, ⟨state_once wf hl hs hr hb, fun b hb => hr.alive b ((hu b).1 hb)⟩, hrun, ?_⟩
  intro fuel hfuel
  refine ⟨(hpart fuel hfuel).1, ?_⟩
  simpa using hb

/-- **C128, a stateful call.** Let the Module be ready to be donated, and let a direct call `f(m)` return `out`, with node writes as its net
effect. Then `nnx.jit(f, donate_argnums=0)(m)` returns `out`; exactly the buffers the Module used are gone; the Module holds new
arrays with the contents a direct call gives it, none of them gone, and is ready to be donated again; and Modules that cannot be reached
from it are not changed. -/
theorem C128_donated {w wd : World (α × Nat)} (wf : WFWorld w) {l : Loc} (hl : l < w.heap.length) (hv : AllValid w l)
    {f : Prog (α × Nat) β} (hf : f.Good) {out : β} (hd : f.call l w = (wd, .ok out)) (hn : NodeWrites w wd l)
    {mem : Memory} (hr : Ready w l mem) (harr : ∀ a n v, NodeAt wd l a n v → ∃ bs, v.buffers = some bs) (j t : Nat) :
    ∃ limit wj mem', (∀ fuel, limit < fuel → jitDonating fuel true j t l f.call mem w = (wj, mem', .ok out)) ∧
      (∀ b, b ∈ mem'.gone ↔ b ∈ mem.gone ∨ Uses w l b) ∧
      (∀ b, Uses wj l b → mem.next ≤ b) ∧ Ready wj l mem' ∧
      (∀ a : Loc, a < w.heap.length → ∀ n, SameAttr (attrAt wd.heap a n) (attrAt wj.heap a n)) ∧
      (∀ a : Loc, a < w.heap.length → ¬ Reaches w.heap l a → ∀ n, attrAt wj.heap a n = attrAt w.heap a n) ∧
      (∀ a, Reaches wj.heap l a ↔ Reaches w.heap l a) ∧
      WFWorld wj ∧ w.heap.length ≤ wj.heap.length ∧ AllValid wj l := by
  obtain ⟨w3, s, d, given, pr, hj, hst, hu, hok, hrun, hpart⟩ := donating_traced wf hl hv hf hr j t
  have hwd : (f.call l w).1 = wd := by rw [hd]
  have wfd : WFWorld wd := hwd ▸ pr.wfd
  have hld : l < wd.heap.length := by have := pr.ltd; rwa [hwd] at this
  have hkeep := hf.parametric.keeps l w wf hl
  rw [hwd] at hkeep
  obtain ⟨hwalk, hn3⟩ := hn.transfer wf.heap hl pr.len pr.old
  have hl3 : l < w3.heap.length := Nat.lt_of_lt_of_le hl pr.len
  -- the state of the direct call, which is the state of the copy
  obtain ⟨sd, dd, _, _, hsd, hs3⟩ := pr.part _ _ (Nat.lt_succ_self _) (Nat.lt_succ_self _)
  rw [hwd] at hsd
  obtain ⟨bsd, hbd, _⟩ := state_buffers wfd hld hsd harr
  obtain ⟨items, ho, hbo, _⟩ := outputM_exists sd.items bsd hbd mem.next
  obtain ⟨hkeys, ho1, ho2⟩ := outputM_entries hbd ho
  have hcan : (⟨items⟩ : State (PyVal (α × Nat))).Canonical := outputM_canonical hkeys (getState_canonical hsd)
  have hv3 : AllValid w3 l := by
    rintro a o ⟨q, hq⟩ ho
    have hq' := (hwalk q a).1 hq
    rw [pr.old a hq'.lt] at ho
    have := hv a o ⟨q, hq'⟩ ho
    rw [traceValid_eq] at this ⊢
    rw [this]
    simp only [World.curTrace, hj, hst]
  have hwd3 : ∀ q b, Walk wd.heap l q b ↔ Walk w3.heap l q b := fun q b =>
    (hn.walk hkeep.len wf.heap ⟨[], .here hl⟩).trans (hwalk q b).symm
  obtain ⟨wj, hup, wfj, so, hwj, hset, hframe⟩ := update_output pr.wf wfd hl3 hld hwd3 hv3 hn3 hsd hcan ho2 (Nat.lt_succ_self _)
  obtain ⟨p1, p2, p3⟩ := state_paths wfd.heap hld hsd
  have hadr : ∀ key a n, Addresses wd.heap l key a n ↔ Addresses w3.heap l key a n := by
    intro key a n
    constructor
    · rintro ⟨p, e, hp⟩; exact ⟨p, e, (hwd3 p a).1 hp⟩
    · rintro ⟨p, e, hp⟩; exact ⟨p, e, (hwd3 p a).2 hp⟩
  have hreach : ∀ a, Reaches wj.heap l a ↔ Reaches w.heap l a := by
    intro a
    constructor
    · rintro ⟨q, hq⟩; exact ⟨q, (hwalk q a).1 ((hwj l q a).1 hq)⟩
    · rintro ⟨q, hq⟩; exact ⟨q, (hwj l q a).2 ((hwalk q a).2 hq)⟩
  have hlt : ∀ a, Reaches w.heap l a → a < w.heap.length := fun a ⟨q, hq⟩ => hq.lt
  -- attributes that are no nodes after the direct call
  have hother : ∀ (a : Loc) n, Reaches w.heap l a → (∀ v, attrAt wd.heap a n = some (.val v) → v.isNode = false) →
      attrAt wj.heap a n = attrAt wd.heap a n := by
    intro a n hra hnot
    have h1 : attrAt wj.heap a n = attrAt w3.heap a n := by
      apply hframe
      intro key v' hk ha
      obtain ⟨v, hkv, _⟩ := ho2 key v' hk
      obtain ⟨a', n', ha', e1, e2⟩ := p1 key v hkv
      obtain ⟨rfl, rfl⟩ := ha'.functional ((hadr _ _ _).2 ha)
      rw [hnot v e1] at e2
      cases e2
    have h2 : attrAt w3.heap a n = attrAt w.heap a n := by simp only [attrAt, pr.old a (hlt a hra)]
    rcases hn a n hra with h | ⟨v, e1, e2, _⟩
    · rw [h1, h2, h]
    · rw [hnot v e1] at e2; cases e2
  -- the nodes
  have hnode : ∀ (a : Loc) n v, Reaches w.heap l a → attrAt wd.heap a n = some (.val v) → v.isNode = true →
      ∃ key v', (⟨items⟩ : State (PyVal (α × Nat))).get key = some v' ∧ Addresses wd.heap l key a n ∧ Output v v' ∧
        attrAt wj.heap a n = some (.val v') := by
    rintro a n v ⟨q, hq⟩ e1 e2
    obtain ⟨key, hk, ha⟩ := p3 a n v ⟨q, (hwd3 q a).2 ((hwalk q a).2 hq)⟩ e1 e2
    obtain ⟨v', hk', hov⟩ := ho1 key v hk
    exact ⟨key, v', hk', ha, hov, hset key v' a n hk' ((hadr _ _ _).1 ha)⟩
  have hnodej : ∀ a n v', NodeAt wj l a n v' → ∃ key, (⟨items⟩ : State (PyVal (α × Nat))).get key = some v' ∧
      Addresses wd.heap l key a n := by
    rintro a n v' ⟨h1, h2, h3⟩
    have hra := (hreach a).1 h1
    by_cases hd' : ∃ v, attrAt wd.heap a n = some (.val v) ∧ v.isNode = true
    · obtain ⟨v, e1, e2⟩ := hd'
      obtain ⟨key, v2, hk, ha, _, e⟩ := hnode a n v hra e1 e2
      rw [h2] at e
      cases e
      exact ⟨key, hk, ha⟩
    · have := hother a n hra (fun v e => by
        cases hb : v.isNode with
        | false => rfl
        | true => exact absurd ⟨v, e, hb⟩ hd')
      rw [h2] at this
      exact absurd ⟨v', this.symm, h3⟩ hd'
  have hnd : DNodup items := hcan.nodup
  have hbo' := buffersM_eq (buffersM_some hbo)
  rw [hbo] at hbo'
  have hrange : ∀ kv ∈ items, ∀ bs, kv.2.buffers = some bs → ∀ b ∈ bs, b ∈ List.range' mem.next bsd.length := by
    intro kv hkv bs hbs b hb
    have : List.range' mem.next bsd.length = items.flatMap fun kv => kv.2.buffers.getD [] := Option.some.inj hbo'
    rw [this, List.mem_flatMap]
    exact ⟨kv, hkv, by rw [hbs]; exact hb⟩
  have hnodup : (items.flatMap fun kv => kv.2.buffers.getD []).Nodup := by
    rw [← Option.some.inj hbo']
    exact List.nodup_range'
  rw [List.nodup_flatMap] at hnodup
  obtain ⟨hnd1, hnd2⟩ := hnodup
  have hnew : ∀ b, Uses wj l b → mem.next ≤ b ∧ b < mem.next + bsd.length := by
    rintro b ⟨a, n, v', bs, hnv, hbs, hb⟩
    obtain ⟨key, hk, _⟩ := hnodej a n v' hnv
    have := hrange (key, v') (dget_mem hk) bs hbs b hb
    rwa [List.mem_range'_1] at this
  refine ⟨w3.heap.length, wj, ⟨given ++ mem.gone, mem.next + bsd.length⟩, ?_, ?_, fun b hb => (hnew b hb).1, ?_, ?_, ?_, hreach,
    wfj, ?_, ?_⟩
  · intro fuel hfuel
    obtain ⟨h1, h2⟩ := hpart fuel (Nat.lt_of_le_of_lt pr.len hfuel)
    rw [hd] at hrun
    rw [updateState_budget pr.wf hl3 (Nat.lt_succ_self _) hfuel] at hup
    rw [getState_budget pr.wf pr.lt (Nat.lt_succ_self _) hfuel] at hs3
    simp only [jitDonating, h1, h2]
    rw [if_pos hok]
    simp only [hrun, Except.map, hs3, ho, hup, if_true]
  · intro b
    rw [List.mem_append, hu]
    exact Or.comm
  · refine ⟨?_, ?_, ?_, fun b hb => (hnew b hb).2, ?_⟩
    · intro a n v' hnv
      obtain ⟨key, hk, _⟩ := hnodej a n v' hnv
      obtain ⟨bs, hbs⟩ := buffersM_some hbo (key, v') (dget_mem hk)
      refine ⟨bs, hbs, ?_⟩
      have := hnd1 (key, v') (dget_mem hk)
      have hbs' : v'.buffers = some bs := hbs
      simpa only [hbs', Option.getD_some] using this
    · intro a n v bs a' n' v' bs' b hnv hnv' hb hb' hm hm'
      obtain ⟨key, hk, ha⟩ := hnodej a n v hnv
      obtain ⟨key', hk', ha'⟩ := hnodej a' n' v' hnv'
      have hkk : key = key' := by
        by_contra hne
        have hpw : items.Pairwise (fun x y => List.Disjoint (x.2.buffers.getD []) (y.2.buffers.getD [])) := hnd2
        have : Std.Symm (fun x y : Str × PyVal (α × Nat) => List.Disjoint (x.2.buffers.getD []) (y.2.buffers.getD [])) :=
          ⟨fun _ _ h => h.symm⟩
        have := hpw.forall (dget_mem hk) (dget_mem hk') (fun e => hne (congrArg Prod.fst e))
        simp only [hb, hb', Option.getD_some] at this
        exact this hm hm'
      subst hkk
      obtain ⟨rfl, rfl⟩ := ha.functional ha'
      exact ⟨rfl, rfl⟩
    · intro b hb hg
      rcases List.mem_append.1 hg with h | h
      · exact absurd (hr.old b ((hu b).1 h)) (Nat.not_lt.2 (hnew b hb).1)
      · exact absurd (hr.goneOld b h) (Nat.not_lt.2 (hnew b hb).1)
    · intro b hg
      refine Nat.lt_of_lt_of_le ?_ (Nat.le_add_right _ _)
      rcases List.mem_append.1 hg with h | h
      · exact hr.old b ((hu b).1 h)
      · exact hr.goneOld b h
  · intro a ha n
    by_cases hra : Reaches w.heap l a
    · by_cases hd' : ∃ v, attrAt wd.heap a n = some (.val v) ∧ v.isNode = true
      · obtain ⟨v, e1, e2⟩ := hd'
        obtain ⟨key, v2, _, _, hov, e⟩ := hnode a n v hra e1 e2
        rw [e1, e]
        exact .inr ⟨e2, hov.contents⟩
      · rw [hother a n hra (fun v e => by
          cases hb : v.isNode with
          | false => rfl
          | true => exact absurd ⟨v, e, hb⟩ hd')]
        exact sameAttr_refl _
    · have h1 : attrAt wj.heap a n = attrAt w3.heap a n := by
        apply hframe
        rintro key v' _ ⟨q, _, hq⟩
        exact hra ⟨q, (hwalk q a).1 hq⟩
      have h2 : attrAt w3.heap a n = attrAt w.heap a n := by simp only [attrAt, pr.old a ha]
      have h3 := (hf.parametric.confined (Reaches w.heap l) l w wf (by
        rintro x n y ⟨q, hq⟩ e
        exact ⟨_, hq.snoc e (wf.heap.refs _ _ _ e)⟩) ⟨[], Walk.here hl⟩ hl).same a ha hra
      rw [hwd] at h3
      have h4 : attrAt wd.heap a n = attrAt w.heap a n := by simp only [attrAt, h3]
      rw [h1, h2, h4]
      exact sameAttr_refl _
  · intro a ha hra n
    have h1 : attrAt wj.heap a n = attrAt w3.heap a n := by
      apply hframe
      rintro key v' _ ⟨q, _, hq⟩
      exact hra ⟨q, (hwalk q a).1 hq⟩
    rw [h1]
    simp only [attrAt, pr.old a ha]
  · rw [so.len]; exact pr.len
  · intro a o hra ho
    have hra' := (hreach a).1 hra
    have ha3 : a < w3.heap.length := Nat.lt_of_lt_of_le (hlt a hra') pr.len
    have ho3 : w3.heap[a]? = some w3.heap[a] := List.getElem?_eq_getElem ha3
    obtain ⟨_, _, _, e4⟩ := so.obj a _ _ ho3 ho
    obtain ⟨q, hq⟩ := hra'
    have := hv3 a _ ⟨q, (hwalk q a).2 hq⟩ ho3
    rw [traceValid_eq] at this ⊢
    rw [e4, this]
    simp only [World.curTrace, so.jax, so.stack]

/-- **C128, exceptions.** If a direct call raises `e`, so does the donating call, nothing is donated, and every Module that existed is as it
was. -/
theorem C128_raises {w wd : World (α × Nat)} (wf : WFWorld w) {l : Loc} (hl : l < w.heap.length) (hv : AllValid w l)
    {f : Prog (α × Nat) β} (hf : f.Good) {e : Err} (hd : f.call l w = (wd, .error e)) {mem : Memory} (hr : Ready w l mem)
    (stateful : Bool) (j t : Nat) :
    ∃ wj, (∀ fuel, w.heap.length < fuel → jitDonating fuel stateful j t l f.call mem w = (wj, mem, .error e)) ∧
      (∀ a : Loc, a < w.heap.length → wj.heap[a]? = w.heap[a]?) := by
  obtain ⟨w3, s, d, given, pr, hj, hst, hu, hok, hrun, hpart⟩ := donating_traced wf hl hv hf hr j t
  refine ⟨w3, ?_, pr.old⟩
  intro fuel hfuel
  obtain ⟨h1, h2⟩ := hpart fuel hfuel
  rw [hd] at hrun
  simp only [jitDonating, h1, h2]
  rw [if_pos hok]
  simp only [hrun, Except.map]

/-- **C128, a stateless call.** With `stateful=False` every Module that existed is left exactly as it was, but the buffers of all arrays of the
Module are gone. -/
theorem C128_stateless {w wd : World (α × Nat)} (wf : WFWorld w) {l : Loc} (hl : l < w.heap.length) (hv : AllValid w l)
    {f : Prog (α × Nat) β} (hf : f.Good) {out : β} (hd : f.call l w = (wd, .ok out)) {mem : Memory} (hr : Ready w l mem) (j t : Nat) :
    ∃ wj mem', (∀ fuel, w.heap.length < fuel → jitDonating fuel false j t l f.call mem w = (wj, mem', .ok out)) ∧
      (∀ a : Loc, a < w.heap.length → wj.heap[a]? = w.heap[a]?) ∧
      (∀ b, b ∈ mem'.gone ↔ b ∈ mem.gone ∨ Uses w l b) ∧ (∀ b, Uses wj l b ↔ Uses w l b) ∧ WFWorld wj ∧
      w.heap.length ≤ wj.heap.length := by
  obtain ⟨w3, s, d, given, pr, hj, hst, hu, hok, hrun, hpart⟩ := donating_traced wf hl hv hf hr j t
  refine ⟨w3, ⟨given ++ mem.gone, mem.next⟩, ?_, pr.old, ?_, ?_, pr.wf, pr.len⟩
  · intro fuel hfuel
    obtain ⟨h1, h2⟩ := hpart fuel hfuel
    rw [hd] at hrun
    simp only [jitDonating, h1, h2]
    rw [if_pos hok]
    simp only [hrun, Except.map, Bool.false_eq_true, if_false]
  · intro b
    rw [List.mem_append, hu]
    exact Or.comm
  · exact uses_same wf hl pr.len pr.old

/-- **C128, gone is gone.** A donating call on a Module one of whose arrays is gone is rejected, whatever the function: nothing is
run or donated, and no Module is changed. -/
theorem C128_gone {w : World (α × Nat)} (wf : WFWorld w) {l : Loc} (hl : l < w.heap.length) {mem : Memory}
    (harr : ∀ a n v, NodeAt w l a n v → ∃ bs, v.buffers = some bs) {b : Nat} (hb : Uses w l b) (hg : b ∈ mem.gone)
    (stateful : Bool) (j t : Nat) (F : Loc → World (α × Nat) → World (α × Nat) × Except Err β) {fuel : Nat} (hf : w.heap.length < fuel) :
    jitDonating fuel stateful j t l F mem w = (w, mem, .error .valueError) := by
  obtain ⟨s, d, hpart⟩ := partition_budget wf hl
  obtain ⟨h1, _, hs⟩ := hpart _ hf
  obtain ⟨bs, hbs, hu⟩ := state_buffers wf hl hs harr
  have h2 : buffersM ([s].flatMap (·.items)) = some bs := by simpa using hbs
  simp only [jitDonating, h1, h2]
  rw [if_neg]
  rintro ⟨_, h⟩
  exact h b ((hu b).2 hb) hg

/-- **C128, tied arrays.** So is a call on a Module that holds the same array in two attributes. -/
theorem C128_twice {w : World (α × Nat)} (wf : WFWorld w) {l : Loc} (hl : l < w.heap.length) {mem : Memory}
    (harr : ∀ a n v, NodeAt w l a n v → ∃ bs, v.buffers = some bs) {a a' : Loc} {n n' : Str} {v v' : PyVal (α × Nat)} {bs bs' : List Nat} {b : Nat}
    (hv : NodeAt w l a n v) (hv' : NodeAt w l a' n' v') (hne : (a, n) ≠ (a', n')) (hb : v.buffers = some bs) (hb' : v'.buffers = some bs')
    (hm : b ∈ bs) (hm' : b ∈ bs')
    (stateful : Bool) (j t : Nat) (F : Loc → World (α × Nat) → World (α × Nat) × Except Err β) {fuel : Nat} (hf : w.heap.length < fuel) :
    jitDonating fuel stateful j t l F mem w = (w, mem, .error .valueError) := by
  obtain ⟨s, d, hpart⟩ := partition_budget wf hl
  obtain ⟨h1, _, hs⟩ := hpart _ hf
  obtain ⟨all, hbs, hu⟩ := state_buffers wf hl hs harr
  have h2 : buffersM ([s].flatMap (·.items)) = some all := by simpa using hbs
  simp only [jitDonating, h1, h2]
  rw [if_neg]
  rintro ⟨hnd, _⟩
  obtain ⟨_, _, p3⟩ := state_paths wf.heap hl hs
  obtain ⟨key, hk, ha⟩ := p3 a n v hv.below hv.attr hv.node
  obtain ⟨key', hk', ha'⟩ := p3 a' n' v' hv'.below hv'.attr hv'.node
  have e := buffersM_eq (buffersM_some hbs)
  rw [hbs] at e
  cases e
  rw [List.nodup_flatMap] at hnd
  have hpw : s.items.Pairwise (fun x y => List.Disjoint (x.2.buffers.getD []) (y.2.buffers.getD [])) := hnd.2
  have : Std.Symm (fun x y : Str × PyVal (α × Nat) => List.Disjoint (x.2.buffers.getD []) (y.2.buffers.getD [])) :=
    ⟨fun _ _ h => h.symm⟩
  have hd := hpw.forall (dget_mem hk) (dget_mem hk') (by
    intro e
    have e1 : key = key' := congrArg Prod.fst e
    subst e1
    obtain ⟨rfl, rfl⟩ := ha.functional ha'
    exact hne rfl)
  simp only [hb, hb', Option.getD_some] at hd
  exact hd hm hm'

/-- **C128, clones.** A clone shares the arrays of the original: when the original is donated, every array of the clone is gone, although
the clone and the original have no Module in common and the clone is not changed. -/
theorem C128_clone {w w1 wd : World (α × Nat)} (wf : WFWorld w) {m c : Loc} (hm : m < w.heap.length) {fuel : Nat} (hfu : w.heap.length < fuel)
    (hc : cloneModule fuel m w = (w1, .ok c)) (hv : AllValid w1 m) {f : Prog (α × Nat) β} (hf : f.Good) {out : β}
    (hd : f.call m w1 = (wd, .ok out)) (hn : NodeWrites w1 wd m) {mem : Memory} (hr : Ready w1 m mem)
    (harr : ∀ a n v, NodeAt wd m a n v → ∃ bs, v.buffers = some bs) (j t : Nat) :
    ∃ limit wj mem', (∀ fuel, limit < fuel → jitDonating fuel true j t m f.call mem w1 = (wj, mem', .ok out)) ∧
      (∀ b, Uses wj c b ↔ Uses w1 m b) ∧ (∀ b, Uses wj c b → b ∈ mem'.gone) ∧ (∀ b, Uses wj m b → b ∉ mem'.gone) := by
  obtain ⟨wf1, hm1, hc1, hap⟩ := clone_apart wf hm hc
  obtain ⟨limit, wj, mem', hcall, hgone, hnew, hready, _, hsame, _, wfj, hlen, _⟩ := C128_donated wf1 hm1 hv hf hd hn hr harr j t
  obtain ⟨w1', c', hc', _, hsg, hold, _⟩ := C12_clone_fresh wf hm hfu
  rw [hc] at hc'
  cases hc'
  have hsg1 : SameGraph w1.heap m w1.heap c := by
    have h0 := sameGraph_of_unchanged wf.heap hm (h' := w1.heap) (fun l ⟨q, hq⟩ => hold l hq.lt)
    exact h0.symm.trans hsg
  have harr1 : ∀ a n v, NodeAt w1 m a n v → ∃ bs, v.buffers = some bs := fun a n v h => by
    obtain ⟨bs, e, _⟩ := hr.arrays a n v h
    exact ⟨bs, e⟩
  have hmc := uses_graph wf1 hm1 hc1 hsg1 harr1
  have hcc : ∀ b, Uses wj c b ↔ Uses w1 c b := by
    refine uses_frame wf1 hc1 hlen ?_
    intro a n hra
    refine hsame a ?_ ?_ n
    · obtain ⟨q, hq⟩ := hra; exact hq.lt
    · intro hra'
      exact hap m (by simp) c (by simp) a hra' hra
  refine ⟨limit, wj, mem', hcall, fun b => (hcc b).trans (hmc b), ?_, fun b hb => hready.alive b hb⟩
  intro b hb
  exact (hgone b).2 (.inr ((hmc b).1 ((hcc b).1 hb)))

/-- **C128, training loops.** If each function would return when called directly at its turn, then a loop of donating calls on one Module runs
to its end, however long it is: no call is given an array that an earlier one has taken. -/
theorem C128_loop {j t : Nat} {l : Loc} {fs : List (Prog (α × Nat) β)} {mem : Memory} {w : World (α × Nat)}
    (hfine : FineSteps j t l fs mem w) (wf : WFWorld w) (hl : l < w.heap.length) (hv : AllValid w l) (hr : Ready w l mem) :
    ∃ outs mem' w', Trains j t l fs mem w outs mem' w' ∧ outs.length = fs.length ∧ Ready w' l mem' ∧
      (∀ b ∈ mem.gone, b ∈ mem'.gone) := by
  induction hfine with
  | nil => exact ⟨[], _, _, .nil, rfl, hr, fun _ h => h⟩
  | cons hf hd hn harr _ ih =>
    obtain ⟨limit, wj, mem', hcall, hgone, _, hready, _, _, _, wfj, hlen, hvj⟩ := C128_donated wf hl hv hf hd hn hr harr j t
    have hdon : Donates j t l _ _ _ _ mem' wj := ⟨limit, hcall⟩
    obtain ⟨outs, mem2, w2, h1, h2, h3, h4⟩ := ih _ mem' wj hdon wfj (Nat.lt_of_lt_of_le hl hlen) hvj hready
    exact ⟨_ :: outs, mem2, w2, .cons hdon h1, by simp [h2], h3, fun b hb => h4 b ((hgone b).2 (.inl hb))⟩

/-! ### Examples -/

/-- The nodes of all Modules, with their buffers. -/
def nodeEntries (h : Heap (α × Nat)) : List ((Loc × Str) × Option (List Nat)) :=
  h.zipIdx.flatMap fun oa => oa.1.attrs.filterMap fun nx =>
    match nx.2 with
    | .val v => if v.isNode then some ((oa.2, nx.1), v.buffers) else none
    | .ref _ => none

omit [DecidableEq α] in
theorem nodeEntries_mem {w : World (α × Nat)} {l a : Loc} {n : Str} {v : PyVal (α × Nat)} (h : NodeAt w l a n v) :
    ((a, n), v.buffers) ∈ nodeEntries w.heap := by
  have ha := h.attr
  obtain ⟨o, ho, hx⟩ : ∃ o, w.heap[a]? = some o ∧ dget o.attrs n = some (.val v) := by
    simp only [attrAt] at ha
    split at ha
    · next o ho => exact ⟨o, ho, ha⟩
    · cases ha
  rw [nodeEntries, List.mem_flatMap]
  refine ⟨(o, a), List.mem_zipIdx_iff_getElem?.2 ho, ?_⟩
  rw [List.mem_filterMap]
  exact ⟨(n, .val v), dget_mem hx, by simp only [h.node, if_true]⟩

omit [DecidableEq α] in
theorem ready_of_check {w : World (α × Nat)} {l : Loc} {mem : Memory}
    (h1 : ∀ e ∈ nodeEntries w.heap, e.2.isSome = true) (h2 : ((nodeEntries w.heap).flatMap fun e => e.2.getD []).Nodup)
    (h3 : ∀ b ∈ (nodeEntries w.heap).flatMap fun e => e.2.getD [], b ∉ mem.gone ∧ b < mem.next)
    (h4 : ∀ b ∈ mem.gone, b < mem.next) : Ready w l mem := by
  rw [List.nodup_flatMap] at h2
  have hin : ∀ b, Uses w l b → b ∈ (nodeEntries w.heap).flatMap fun e => e.2.getD [] := by
    rintro b ⟨a, n, v, bs, h, e, hb⟩
    exact List.mem_flatMap.2 ⟨_, nodeEntries_mem h, by simpa only [e, Option.getD_some] using hb⟩
  refine ⟨?_, ?_, fun b hb => (h3 b (hin b hb)).1, fun b hb => (h3 b (hin b hb)).2, h4⟩
  · intro a n v h
    obtain ⟨bs, e⟩ := Option.isSome_iff_exists.1 (h1 _ (nodeEntries_mem h))
    have e' : v.buffers = some bs := e
    have := h2.1 _ (nodeEntries_mem h)
    simp only [e', Option.getD_some] at this
    exact ⟨bs, e', this⟩
  · intro a n v bs a' n' v' bs' b h h' e e' hb hb'
    by_contra hne
    have hpw : (nodeEntries w.heap).Pairwise (fun x y => List.Disjoint (x.2.getD []) (y.2.getD [])) := h2.2
    have : Std.Symm (fun x y : (Loc × Str) × Option (List Nat) => List.Disjoint (x.2.getD []) (y.2.getD [])) :=
      ⟨fun _ _ h => h.symm⟩
    have hd := hpw.forall (nodeEntries_mem h) (nodeEntries_mem h') (by
      intro e
      have := congrArg Prod.fst e
      simp only [Prod.mk.injEq] at this
      exact hne this)
    simp only [e, e', Option.getD_some] at hd
    exact hd hb hb'

/-- A Param whose array has content `x` and buffer `b`. -/
def exBuf (x b : Nat) : PyVal (Nat × Nat) := .cont cParam (.data cArray (x, b)) [(py! "sharding", .none)]

/-- A `Net` with a Param, a shared `Block` with a pair of arrays in a Param, a cycle and a static attribute. -/
def exBufHeap : Heap (Nat × Nat) :=
  [ ⟨exCls (py! "Net"), [(py! "w", .val (exBuf 1 0)), (py! "b", .ref 1), (py! "a", .ref 1), (py! "name", .val (.str (py! "net")))], 7, false, ⟨0, 0⟩⟩,
    ⟨exCls (py! "Block"), [(py! "up", .ref 0), (py! "w", .val (.cont cParam (.tup [.data cArray (5, 1), .data cArray (6, 2)]) [(py! "sharding", .none)]))],
      3, true, ⟨0, 0⟩⟩ ]

def exBufWorld : World (Nat × Nat) := ⟨exBufHeap, 9, 0, []⟩

theorem exBufWorld_wf : WFWorld exBufWorld := by
  have hc : ∀ x : PyVal (Nat × Nat), x.Plain → WFContainer (.cont cParam x [(py! "sharding", .none)]) := fun x hx =>
    .mk hx (by simp [DNodup, dkeys]) (by decide) (by decide) (fun _ _ => ⟨_, _, rfl⟩)
  refine ⟨?_, ?_⟩
  · apply wfHeap_of_forall (by decide)
    intro o ho
    simp only [exBufWorld, exBufHeap, List.mem_cons, List.not_mem_nil, or_false] at ho
    rcases ho with rfl | rfl
    · refine ⟨by decide, ?_⟩
      intro na hna
      simp only [List.mem_cons, List.not_mem_nil, or_false] at hna
      rcases hna with rfl | rfl | rfl | rfl <;> refine ⟨by unfold NoSlash; decide, by decide, ?_, ?_⟩ <;>
        intros <;> rename_i h <;> try cases h
      · exact hc _ trivial
      all_goals (simp [exBufWorld, exBufHeap])
    · refine ⟨by decide, ?_⟩
      intro na hna
      simp only [List.mem_cons, List.not_mem_nil, or_false] at hna
      rcases hna with rfl | rfl <;> refine ⟨by unfold NoSlash; decide, by decide, ?_, ?_⟩ <;>
        intros <;> rename_i h <;> try cases h
      · simp [exBufWorld, exBufHeap]
      · exact hc _ trivial
  · intro l o ho
    have := List.mem_of_getElem? ho
    simp only [exBufWorld, exBufHeap, List.mem_cons, List.not_mem_nil, or_false] at this ⊢
    rcases this with rfl | rfl <;> simp

theorem exBufWorld_valid : AllValid exBufWorld 0 := by
  rintro l o ⟨p, hp⟩ ho
  have := List.mem_of_getElem? ho
  simp only [exBufWorld, exBufHeap, List.mem_cons, List.not_mem_nil, or_false] at this
  rcases this with rfl | rfl <;> decide

theorem exBufWorld_ready : Ready exBufWorld 0 ⟨[], 3⟩ :=
  ready_of_check (by decide) (by decide) (by decide) (by decide)

/-- Gives `m.w` the value of a new array with content 9; the number of its buffer does not matter. -/
def exDonee : Prog (Nat × Nat) Bool := .set 0 (py! "w") (.data cArray (9, 77)) fun _ => .ret true

theorem exDonee_good : exDonee.Good := ⟨⟨by unfold NoSlash; decide, by decide⟩, .inl trivial, fun _ => trivial⟩

/-- The hypotheses of `C128_donated` hold, and the second of two calls finds the arrays of the first. -/
example : ∃ wd, exDonee.call 0 exBufWorld = (wd, .ok true) ∧ NodeWrites exBufWorld wd 0 ∧
    (∀ a n v, NodeAt wd 0 a n v → ∃ bs, v.buffers = some bs) ∧
    ∃ wj, jitDonating 6 true 5 6 0 exDonee.call ⟨[], 3⟩ exBufWorld = (wj, ⟨[1, 2, 0], 6⟩, .ok true) ∧
      observe wj.heap 0 [py! "w"] = some (.value (exBuf 9 5)) ∧
      ∃ wj2, jitDonating 9 true 5 6 0 exDonee.call ⟨[1, 2, 0], 6⟩ wj = (wj2, ⟨[3, 4, 5, 1, 2, 0], 9⟩, .ok true) ∧
        observe wj2.heap 0 [py! "w"] = some (.value (exBuf 9 8)) := by
  refine ⟨_, rfl, nodeWrites_of_check (by decide) (by decide), ?_, _, rfl, by decide, _, rfl, by decide⟩
  intro a n v h
  exact Option.isSome_iff_exists.1 ((by decide : ∀ e ∈ nodeEntries (exDonee.call 0 exBufWorld).1.heap, e.2.isSome = true) _ (nodeEntries_mem h))

/-- What holds at every turn of the example loop. -/
structure ExTurn (mem : Memory) (w : World (Nat × Nat)) : Prop where
  wf : WFWorld w
  lt : 0 < w.heap.length
  valid : AllValid w 0
  ready : Ready w 0 mem
  param : ∃ x b, attrAt w.heap 0 (py! "w") = some (.val (exBuf x b))

theorem exDonee_call {mem : Memory} {w : World (Nat × Nat)} (h : ExTurn mem w) : ∃ wd, exDonee.call 0 w = (wd, .ok true) ∧ NodeWrites w wd 0 ∧
    (∀ a n v, NodeAt wd 0 a n v → ∃ bs, v.buffers = some bs) ∧ attrAt wd.heap 0 (py! "w") = some (.val (exBuf 9 77)) := by
  obtain ⟨x, b, hp⟩ := h.param
  have hl := h.lt
  have ho : w.heap[0]? = some w.heap[0] := List.getElem?_eq_getElem hl
  have hst : storedAttr (attrAt w.heap 0 (py! "w")) (.val (.data cArray (9, 77))) = .ok (.val (exBuf 9 77)) := by
    have h1 : WFVal (PyVal.data cArray (9, 77)) := .inl trivial
    have h2 : Compatible (attrAt w.heap 0 (py! "w")) (PyVal.data cArray (9, 77)) := by intro _ _ _ _ _ _ _ e; cases e
    rw [storedAttr_ok (fun c x m e => h.wf.heap.conts _ _ _ _ _ e) h1 h2, hp]
    rfl
  have hset := setAttr_ok_iff.2 ⟨w.heap[0], .val (exBuf 9 77), ho, h.valid 0 _ ⟨[], .here hl⟩ ho, by decide, hst, rfl⟩
  have hattr := attrAt_setAttrs ho (py! "w") (.val (exBuf 9 77))
  refine ⟨w.setAttrs 0 w.heap[0] (dset w.heap[0].attrs (py! "w") (.val (exBuf 9 77))), ?_, ?_, ?_, ?_⟩
  · simp only [exDonee, Prog.call, Prog.run, List.getElem?_cons_zero]
    rw [hset]
  · intro a n _
    rw [hattr]
    by_cases e : a = 0 ∧ n = py! "w"
    · obtain ⟨rfl, rfl⟩ := e
      rw [if_pos ⟨rfl, rfl⟩, hp]
      refine .inr ⟨_, rfl, by decide, nofun, ?_⟩
      intro c x m e
      cases e
      exact ⟨_, rfl⟩
    · exact .inl (if_neg e)
  · rintro a n v ⟨⟨q, hq⟩, h2, h3⟩
    rw [hattr] at h2
    split at h2
    · cases h2; exact ⟨[77], rfl⟩
    · have hq' : Walk w.heap 0 q a := by
        refine hq.congr ?_ ?_
        · simp [World.setAttrs]
        · intro l n b e
          rw [hattr] at e
          split at e
          · cases e
          · exact e
      obtain ⟨bs, e, _⟩ := h.ready.arrays a n v ⟨⟨q, hq'⟩, h2, h3⟩
      exact ⟨bs, e⟩
  · rw [hattr, if_pos ⟨rfl, rfl⟩]

theorem exBuf_contents {v : PyVal (Nat × Nat)} (h : SameContents (exBuf 9 77) v) : ∃ b, v = exBuf 9 b := by
  obtain ⟨x, h1, h2⟩ := h
  simp only [exBuf, PyVal.mapLeaves, Option.map_some, Option.some.injEq] at h1
  subst h1
  cases v with
  | cont c u m =>
    simp only [PyVal.mapLeaves, Option.map_eq_some_iff] at h2
    obtain ⟨y, h2, e⟩ := h2
    cases e
    cases u with
    | data c a =>
      simp only [PyVal.mapLeaves, Option.map_some, Option.some.injEq, PyVal.data.injEq, Prod.mk.injEq] at h2
      obtain ⟨rfl, h2, _⟩ := h2
      exact ⟨a.2, by rw [exBuf, ← h2]⟩
    | none => simp [PyVal.mapLeaves] at h2
    | str _ => simp [PyVal.mapLeaves] at h2
    | tup _ => simp [PyVal.mapLeaves] at h2
    | cont _ _ _ => simp [PyVal.mapLeaves] at h2
    | cmeta _ _ => simp [PyVal.mapLeaves] at h2
    | tree _ _ => simp [PyVal.mapLeaves] at h2
    | dict _ => simp [PyVal.mapLeaves] at h2
  | none => simp [PyVal.mapLeaves] at h2
  | str _ => simp [PyVal.mapLeaves] at h2
  | tup _ => simp [PyVal.mapLeaves] at h2
  | data _ _ => simp [PyVal.mapLeaves] at h2
  | cmeta _ _ => simp [PyVal.mapLeaves] at h2
  | tree _ _ => simp [PyVal.mapLeaves] at h2
  | dict _ => simp [PyVal.mapLeaves] at h2

/-- The hypotheses of `C128_loop` hold for a loop of any length. -/
theorem exDonee_fine (k : Nat) {mem : Memory} {w : World (Nat × Nat)} (h : ExTurn mem w) :
    FineSteps 5 6 0 (List.replicate k exDonee) mem w := by
  induction k generalizing mem w with
  | zero => exact .nil
  | succ k ih =>
    obtain ⟨wd, hd, hn, harr, hw⟩ := exDonee_call h
    refine .cons exDonee_good hd hn harr ?_
    rintro out mem' w' ⟨limit', hcall'⟩
    obtain ⟨limit, wj, mem'', hcall, _, _, hready, hsame, _, _, wfj, hlen, hv⟩ :=
      C128_donated h.wf h.lt h.valid exDonee_good hd hn h.ready harr 5 6
    have e := hcall (max limit limit' + 1) (by omega)
    rw [hcall' (max limit limit' + 1) (by omega)] at e
    obtain ⟨rfl, rfl, _⟩ : w' = wj ∧ mem' = mem'' ∧ _ := by simpa only [Prod.mk.injEq] using e
    refine ih ⟨wfj, Nat.lt_of_lt_of_le h.lt hlen, hv, hready, ?_⟩
    have hs := hsame 0 h.lt (py! "w")
    rw [hw] at hs
    cases hj : attrAt w'.heap 0 (py! "w") with
    | none => rw [hj] at hs; cases hs
    | some y =>
      cases y with
      | ref b => rw [hj] at hs; cases hs
      | val v =>
        rw [hj] at hs
        rcases hs with rfl | ⟨_, hs⟩
        · exact ⟨9, 77, rfl⟩
        · obtain ⟨b, rfl⟩ := exBuf_contents hs
          exact ⟨9, b, rfl⟩

example (k : Nat) : ∃ outs mem' w', Trains 5 6 0 (List.replicate k exDonee) ⟨[], 3⟩ exBufWorld outs mem' w' ∧ outs.length = k ∧
    Ready w' 0 mem' := by
  obtain ⟨outs, mem', w', h1, h2, h3, _⟩ := C128_loop (exDonee_fine k ⟨exBufWorld_wf, by decide, exBufWorld_valid, exBufWorld_ready, ⟨1, 0, by decide⟩⟩)
    exBufWorld_wf (by decide) exBufWorld_valid exBufWorld_ready
  exact ⟨outs, mem', w', h1, by simpa using h2, h3⟩

/-- **C128, deletions.** If the function deletes an attribute, the Module keeps it, with an array that is gone, and the next call is
rejected. -/
theorem C128_deleted : ∃ (f : Prog (Nat × Nat) Unit) (wj : World (Nat × Nat)) (mem : Memory), f.Good ∧ Ready exBufWorld 0 ⟨[], 3⟩ ∧
    jitDonating 6 true 5 6 0 f.call ⟨[], 3⟩ exBufWorld = (wj, mem, .ok ()) ∧
    observe wj.heap 0 [py! "w"] = some (.value (exBuf 1 0)) ∧ 0 ∈ mem.gone ∧
    jitDonating 9 true 5 6 0 f.call mem wj = (wj, mem, .error .valueError) :=
  ⟨.del 0 (py! "w") fun _ => .ret (), _, _, fun _ => trivial, exBufWorld_ready, rfl, by decide, by decide, rfl⟩

/-- A stateless call, after which the Module cannot be used. -/
example : ∃ wj, jitDonating 6 false 5 6 0 exDonee.call ⟨[], 3⟩ exBufWorld = (wj, ⟨[1, 2, 0], 3⟩, .ok true) ∧
    jitDonating 9 true 5 6 0 exDonee.call ⟨[1, 2, 0], 3⟩ wj = (wj, ⟨[1, 2, 0], 3⟩, .error .valueError) := ⟨_, rfl, rfl⟩

/-- A clone of a Module that is donated. -/
example : ∃ w1 c wj, cloneModule 3 0 exBufWorld = (w1, .ok c) ∧
    jitDonating 9 true 5 6 0 exDonee.call ⟨[], 3⟩ w1 = (wj, ⟨[1, 2, 0], 6⟩, .ok true) ∧
    observe wj.heap c [py! "w"] = some (.value (exBuf 1 0)) ∧
    jitDonating 12 true 5 6 c exDonee.call ⟨[1, 2, 0], 6⟩ wj = (wj, ⟨[1, 2, 0], 6⟩, .error .valueError) :=
  ⟨_, _, _, rfl, rfl, by decide, rfl⟩

end Nnx
