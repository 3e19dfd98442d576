import Verif.Model.Load
import Verif.Proofs.Like
import Verif.Props.Grad
import Verif.Props.ModuleDef
/-
C98: loading the state of one model into another model of the same definition (examples/08_save_load_checkpoints.py).
-/
namespace Nnx
variable {α : Type}

theorem partition_parts' {h : Heap α} {l : Loc} {fs : List (Filter α)} {f : Nat} {ss : List (State (PyVal α))} {d : ModuleDef α}
    (h1 : partitionModule f h l fs = .ok (ss, d)) : getModuleDef f h l = some d ∧ ∃ s, getState f h l = some s ∧
      (fs = [] ∧ ss = [s] ∨ fs ≠ [] ∧ s.partition fs = .ok ss) := by
  unfold partitionModule at h1
  split at h1
  · next hd hs =>
    split at h1
    · cases h1; exact ⟨hd, _, hs, .inl ⟨rfl, rfl⟩⟩
    · split at h1
      · cases h1
      · next hp => cases h1; exact ⟨hd, _, hs, .inr ⟨‹fs = [] → False›, hp⟩⟩
  · cases h1

variable [DecidableEq α]

omit [DecidableEq α] in
theorem Pieces.perm {s : State (PyVal α)} {ss ss' : List (State (PyVal α))} (hp : Pieces s ss) (h : ss'.Perm ss) : Pieces s ss' :=
  ⟨fun t ht => hp.1 t (h.mem_iff.1 ht), fun t ht => hp.2.1 t (h.mem_iff.1 ht), fun k v hk => by
    obtain ⟨t, ht, htv⟩ := hp.2.2 k v hk
    exact ⟨t, h.mem_iff.2 ht, htv⟩⟩

theorem keeps_setValueAtPath {w w' : World α} (ps : List Str) (v : PyVal α) : ∀ a : Attr α, setValueAtPath w a ps v = .ok w' → Keeps w w' := by
  induction ps with
  | nil => intro a e; cases a <;> simp [setValueAtPath] at e
  | cons p ps ih =>
    intro a e
    cases a with
    | val v => simp [setValueAtPath] at e
    | ref l =>
      cases ps with
      | nil => simp only [setValueAtPath] at e; exact .setAttr e
      | cons q ps =>
        simp only [setValueAtPath] at e
        split at e
        · cases e
        · exact ih _ e

theorem keeps_assignAll (root : Loc) (es : List (Str × PyVal α)) : ∀ w : World α, Keeps w (assignAll root es w).1 := by
  induction es with
  | nil => exact fun w => .refl w
  | cons e es ih =>
    intro w
    obtain ⟨k, v⟩ := e
    simp only [assignAll]
    split
    · exact .refl w
    · next w1 h1 => exact (keeps_setValueAtPath _ _ _ h1).trans (ih w1)

omit [DecidableEq α] in
theorem noFlags_attrAt (w : World α) (l : Loc) (n : Str) : attrAt w.noFlags.heap l n = attrAt w.heap l n := by
  simp only [attrAt, noFlags_get]; cases w.heap[l]? <;> rfl

omit [DecidableEq α] in
theorem Walk.of_attrs {h h' : Heap α} (hlen : h.length = h'.length) (he : ∀ l n, attrAt h l n = attrAt h' l n) {a b : Loc} {p : List Str}
    (w : Walk h a p b) : Walk h' a p b := by
  induction w with
  | here h => exact .here (hlen ▸ h)
  | step e _ ih => exact .step ((he _ _) ▸ e) ih

/-- **C98, merging.** `A.partition(*filters)` gave the States `ss`, which are stored; later, in any world `w` (another process, say), they are merged in any order into
the definition `e` of some model `B` that compares equal to the definition of `A`. The result is a model that is indistinguishable from `A` up to `is_initializing` flags,
that consists of new Modules, and nothing else is changed. -/
theorem C98_merge_loads {wA : World α} (wf : WFWorld wA) {A : Loc} (hA : A < wA.heap.length) {f : Nat} {fs : List (Filter α)}
    {ss ss' : List (State (PyVal α))} {d : ModuleDef α} (hp : partitionModule f wA.heap A fs = .ok (ss, d)) (hperm : ss'.Perm ss)
    {wB : World α} (wfB : WFWorld wB) {f' : Nat} {B : Loc} (hB : B < wB.heap.length) {e : ModuleDef α}
    (he : getModuleDef f' wB.heap B = some e) (heq : d.eqv e = true) {w : World α} (wfw : WFWorld w) :
    ∃ w' r, mergeDef e ss' w = (w', .ok r) ∧ SameGraph wA.noFlags.heap A w'.noFlags.heap r ∧
      (∀ l : Loc, l < w.heap.length → w'.heap[l]? = w.heap[l]?) ∧ ∀ l, Reaches w'.heap r l → w.heap.length ≤ l := by
  obtain ⟨hd, s, hs, hss⟩ := partition_parts' hp
  have hpc : Pieces s ss' := by
    refine Pieces.perm ?_ hperm
    rcases hss with ⟨_, rfl⟩ | ⟨_, hss⟩
    · exact pieces_self (getState_canonical hs)
    · exact partition_pieces (getState_obtainable hs) hss
  obtain ⟨w1, φ, m1, sp⟩ := mergeDef_spec wf.heap hA hd hs hpc (w := w) wfw.heap.conts
  have hm := C23_equal_defs_merge_equal hd he heq ss' w
  rw [m1] at hm
  have hme : mergeDef e ss' w = ((mergeDef e ss' w).1, .ok w.heap.length) := Prod.ext rfl hm.1.symm
  obtain ⟨w2, ψ, hb, hbs⟩ := getModuleDef_build wfB.heap hB he w
  have hkeep : Keeps w2 (mergeDef e ss' w).1 := by
    have hk := keeps_assignAll w.heap.length (((State.new [] : State (PyVal α)) :: ss').foldl (fun d s => dupdate d s.items) []) w2
    simp only [mergeDef, hb, updateModule]
    split <;> next h => rw [h] at hk; exact hk
  generalize hw' : (mergeDef e ss' w).1 = w' at *
  have hnf : w1.noFlags = w'.noFlags := hm.2
  have hget : ∀ l : Loc, (w'.heap[l]?).map (fun o => { o with isInit := false }) = (w1.heap[l]?).map (fun o => { o with isInit := false }) := by
    intro l; rw [← noFlags_get, ← noFlags_get, hnf]
  have hlen : w'.heap.length = w1.heap.length := by
    have := congrArg (fun w => w.heap.length) hnf
    simpa [World.noFlags] using this.symm
  have hat : ∀ l n, attrAt w'.heap l n = attrAt w1.heap l n := by
    intro l n; rw [← noFlags_attrAt w', ← noFlags_attrAt w1, hnf]
  refine ⟨w', _, hme, ?_, ?_, ?_⟩
  · rw [← hnf]
    exact (sp.iso.sameGraph wf.heap hA).noFlags
  · intro l hl
    have h1 := hget l
    have h2 : objInfo w' l = objInfo w l := by
      rw [hkeep.info l (Nat.lt_of_lt_of_le hl hbs.len)]
      simp only [objInfo, hbs.old l hl]
    rw [sp.old l hl] at h1
    simp only [objInfo] at h2
    cases hx : w'.heap[l]? with
    | none => rw [hx] at h1; cases hy : w.heap[l]? with
      | none => rfl
      | some o => rw [hy] at h1; cases h1
    | some o =>
      rw [hx] at h1 h2
      cases hy : w.heap[l]? with
      | none => rw [hy] at h1; cases h1
      | some o' =>
        rw [hy] at h1 h2
        obtain ⟨c, as, u, i, t⟩ := o
        obtain ⟨c', as', u', i', t'⟩ := o'
        simp only [Option.map_some, Option.some.injEq, ModObj.mk.injEq, Prod.mk.injEq] at h1 h2
        obtain ⟨rfl, rfl, rfl, _, rfl⟩ := h1
        obtain ⟨_, _, rfl, _⟩ := h2
        rfl
  · rintro l ⟨p, hw⟩
    have hw := hw.of_attrs hlen hat
    rw [← sp.iso.root] at hw
    obtain ⟨b, rfl, _⟩ := sp.iso.walk_back wf.heap ⟨[], .here hA⟩ hw
    exact sp.ge b

/-- **C98, updating with States.** `B.update_state(*states of A)`, for models whose definitions compare equal and whose States have the same paths and kinds of containers:
`B` becomes indistinguishable from what `A` was, up to `is_initializing` flags; its Modules remain the same objects, and no other Module is changed. -/
theorem C98_update_loads {wA : World α} (wf : WFWorld wA) {A : Loc} (hA : A < wA.heap.length) {f : Nat} {s : State (PyVal α)} {d : ModuleDef α}
    (hp : partitionModule f wA.heap A [] = .ok ([s], d))
    {w : World α} (wfw : WFWorld w) {B : Loc} (hB : B < w.heap.length) (hv : AllValid w B) {f' : Nat} {t : State (PyVal α)} {e : ModuleDef α}
    (he : partitionModule f' w.heap B [] = .ok ([t], e)) (heq : d.eqv e = true) (hlike : LikeState t s) {fuel : Nat} (hf : w.heap.length < fuel) :
    ∃ w', updateState fuel B [s] w = (w', none) ∧ SameGraph wA.noFlags.heap A w'.noFlags.heap B ∧
      (∀ a p b, Walk w'.heap a p b ↔ Walk w.heap a p b) ∧ (∀ l : Loc, ¬ Reaches w.heap B l → w'.heap[l]? = w.heap[l]?) := by
  obtain ⟨hd, s0, hs, hss⟩ := partition_parts' hp
  obtain ⟨hee, t0, ht, htt⟩ := partition_parts' he
  have e1 : s0 = s := by
    rcases hss with ⟨_, h⟩ | h
    · cases h; rfl
    · exact absurd rfl h.1
  have e2 : t0 = t := by
    rcases htt with ⟨_, h⟩ | h
    · cases h; rfl
    · exact absurd rfl h.1
  subst e1 e2
  obtain ⟨w', h1, wf', so, _, _, hwalk, hold, hstate⟩ := update_like wfw hB hv ht (getState_canonical hs) (by
    intro k v hk
    have hsome := hlike.2.1 k
    rw [hk] at hsome
    obtain ⟨u, hu⟩ := Option.isSome_iff_exists.1 hsome.symm
    exact ⟨u, hu, hlike.2.2 k u v hu hk⟩) hf
  refine ⟨w', h1, ?_, hwalk, hold⟩
  obtain ⟨d', s', g1, g2, g3, g4⟩ := hstate fuel fuel hf hf
  have e3 : d' = e := getModuleDef_det wfw.heap hB g1 hee
  have e4 : s' = s0 := by
    refine State.Canonical.ext (getState_canonical g3) (getState_canonical hs) ?_
    intro k
    rw [g4]
    have := hlike.2.1 k
    cases hk : s0.get k with
    | some v => rfl
    | none =>
      rw [hk] at this
      cases hk' : t0.get k with
      | none => rfl
      | some v => rw [hk'] at this; cases this
  subst e3 e4
  refine C23_equal_defs_same_structure wf wf' hA (by rw [so.len]; exact hB) hp (f' := fuel) (e := d') ?_ heq
  simp only [partitionModule, g2, g3]

omit [DecidableEq α] in
theorem moduleDef_cls {h : Heap α} {l : Loc} {f : Nat} {d : ModuleDef α} (hd : getModuleDef f h l = some d) : ∃ o, h[l]? = some o ∧ o.cls = d.cls := by
  unfold getModuleDef at hd
  split at hd
  · next d' idx' he =>
    cases hd
    cases f with
    | zero => cases he
    | succ f =>
      simp only [makeDefRec] at he
      split at he
      · cases he
      · next o ho =>
        refine ⟨o, ho, ?_⟩
        split at he
        · cases he
        · split at he
          · cases he
          · cases he; rfl
  · cases hd

/-- **C98, updating with a Module.** `B.update_state(A)` for models `A` and `B` whose definitions compare equal and whose States have the same paths and kinds of
containers: `B` becomes indistinguishable from what `A` was, up to `is_initializing` flags; its Modules remain the same objects, and no other Module is changed, so `A` is
not changed if the two share no Module. -/
theorem C98_update_from {w : World α} (wf : WFWorld w) {A B : Loc} (hA : A < w.heap.length) (hB : B < w.heap.length) (hv : AllValid w B)
    {f f' : Nat} {s t : State (PyVal α)} {d e : ModuleDef α} (hp : partitionModule f w.heap A [] = .ok ([s], d))
    (he : partitionModule f' w.heap B [] = .ok ([t], e)) (heq : d.eqv e = true) (hlike : LikeState t s) {fuel : Nat} (hf : w.heap.length < fuel) :
    ∃ w', updateFrom fuel B A w = (w', none) ∧ SameGraph w.noFlags.heap A w'.noFlags.heap B ∧
      (∀ a p b, Walk w'.heap a p b ↔ Walk w.heap a p b) ∧ (∀ l : Loc, ¬ Reaches w.heap B l → w'.heap[l]? = w.heap[l]?) ∧
      ((∀ l, Reaches w.heap A l → ¬ Reaches w.heap B l) → SameGraph w.heap A w'.heap A) := by
  obtain ⟨w', h1, h2, h3, h4⟩ := C98_update_loads wf hA hp wf hB hv he heq hlike hf
  obtain ⟨hd, s0, hs, hss⟩ := partition_parts' hp
  have e1 : s0 = s := by
    rcases hss with ⟨_, h⟩ | h
    · cases h; rfl
    · exact absurd rfl h.1
  subst e1
  obtain ⟨o, ho, hc⟩ := moduleDef_cls hd
  obtain ⟨o', ho', hc'⟩ := moduleDef_cls (partition_parts' he).1
  have hcls : o'.cls = o.cls := by
    simp only [ModuleDef.eqv, Bool.and_eq_true, decide_eq_true_eq] at heq
    rw [hc, hc', heq.1.1]
  obtain ⟨sf, hsf⟩ := getState_exists wf.heap hA hf
  cases getState_det wf.heap hA hs hsf
  obtain ⟨tf, htf⟩ := getState_exists wf.heap hB hf
  refine ⟨w', ?_, h2, h3, h4, fun hap => sameGraph_of_unchanged wf.heap hA fun l hl => h4 l (hap l hl)⟩
  simp only [updateState, htf] at h1
  simp only [updateFrom, htf, ho, ho', hcls, if_true, hsf, h1]

/-- **C98, other types.** `B.update_state(A)` for a Module `A` of another type raises AssertionError, and changes nothing. -/
theorem C98_update_from_other_type {w : World α} (wf : WFWorld w) {A B : Loc} {a b : ModObj α} (hA : w.heap[A]? = some a) (hB : w.heap[B]? = some b)
    (hne : b.cls ≠ a.cls) {fuel : Nat} (hf : w.heap.length < fuel) : updateFrom fuel B A w = (w, some .assertionError) := by
  obtain ⟨t, ht⟩ := getState_exists wf.heap (List.getElem?_eq_some_iff.1 hB).1 hf
  simp only [updateFrom, ht, hA, hB, hne, if_false]

/-- A model and another one of the same structure, with other values and flags. -/
def exTwoWorld : World Nat := ⟨exHeap ++
  [ ⟨exCls (py! "Net"), [(py! "a", .ref 3), (py! "w", .val (exParam 10)), (py! "b", .ref 3), (py! "me", .ref 2),
      (py! "name", .val (.str (py! "net")))], 8, true, ⟨0, 0⟩⟩,
    ⟨exCls (py! "Block"), [(py! "w", .val (exParam 50)), (py! "s", .val (exStat 60)), (py! "up", .ref 2),
      (py! "k", .val (.data cTuple 3))], 4, false, ⟨0, 0⟩⟩ ], 9, 0, []⟩

theorem exTwoWorld_wf : WFWorld exTwoWorld := by
  refine ⟨?_, ?_⟩
  · apply wfHeap_of_forall (by decide)
    intro o ho
    simp only [exTwoWorld, exHeap, List.cons_append, List.nil_append, List.mem_cons, List.not_mem_nil, or_false] at ho
    rcases ho with rfl | rfl | rfl | rfl <;> refine ⟨by decide, ?_⟩ <;> intro na hna <;>
      simp only [List.mem_cons, List.not_mem_nil, or_false] at hna
    all_goals
      rcases hna with rfl | rfl | rfl | rfl | rfl <;> refine ⟨by unfold NoSlash; decide, by decide, ?_, ?_⟩ <;>
        intros <;> rename_i h <;> cases h <;> first | exact exParam_wf _ | exact exStat_wf _ | simp [exTwoWorld, exHeap]
  · intro l o ho
    have := List.mem_of_getElem? ho
    simp only [exTwoWorld, exHeap, List.cons_append, List.nil_append, List.mem_cons, List.not_mem_nil, or_false] at this ⊢
    rcases this with rfl | rfl | rfl | rfl <;> simp

/-- The hypotheses of the theorems hold of the two models, ... -/
example : ∃ s t d e, partitionModule 5 exTwoWorld.heap 0 [] = .ok ([s], d) ∧ partitionModule 5 exTwoWorld.heap 2 [] = .ok ([t], e) ∧
    d.eqv e = true ∧ d ≠ e ∧ s ≠ t ∧ LikeState t s ∧ AllValid exTwoWorld 2 := by
  refine ⟨⟨[(py! "a/s", exStat 6), (py! "a/w", exParam 5), (py! "w", exParam 1)]⟩, ⟨[(py! "a/s", exStat 60), (py! "a/w", exParam 50), (py! "w", exParam 10)]⟩, _, _,
    rfl, rfl, by decide, by decide, by decide, ⟨?_, ?_, ?_⟩, ?_⟩
  · simp only [StrictSorted]; decide
  · intro k
    simp only [State.get, dget]
    split <;> [rfl; (split <;> [rfl; (split <;> rfl)])]
  · intro k u v hu hv
    simp only [State.get, dget] at hu hv
    split at hu
    · next h =>
      rw [if_pos h] at hv; cases hu; cases hv
      exact ⟨.inr (exStat_wf 6), rfl, fun c x m hc => by cases hc; exact ⟨_, rfl⟩⟩
    · next h =>
      rw [if_neg h] at hv
      split at hu
      · next h =>
        rw [if_pos h] at hv; cases hu; cases hv
        exact ⟨.inr (exParam_wf 5), rfl, fun c x m hc => by cases hc; exact ⟨_, rfl⟩⟩
      · next h =>
        rw [if_neg h] at hv
        split at hu
        · next h =>
          rw [if_pos h] at hv; cases hu; cases hv
          exact ⟨.inr (exParam_wf 1), rfl, fun c x m hc => by cases hc; exact ⟨_, rfl⟩⟩
        · cases hu
  · intro l o _ ho
    have := List.mem_of_getElem? ho
    simp only [exTwoWorld, exHeap, List.cons_append, List.nil_append, List.mem_cons, List.not_mem_nil, or_false] at this
    rcases this with rfl | rfl | rfl | rfl <;> rfl

/-- ... and this is what they say of them. -/
example : ∃ w', updateFrom 5 2 0 exTwoWorld = (w', none) ∧ observe w'.heap 2 [py! "b", py! "w"] = some (.value (exParam 5)) ∧
    SameModule w'.heap 2 [py! "a"] [py! "b"] := ⟨_, rfl, by decide, ⟨3, by decide⟩⟩
example : updateFrom 5 2 1 exTwoWorld = (exTwoWorld, some .assertionError) :=
  C98_update_from_other_type exTwoWorld_wf rfl rfl (by decide) (by decide)
example : ∃ s d e w', partitionModule 5 exTwoWorld.heap 0 [.ofType cParam, .ellipsis] = .ok (s, d) ∧ getModuleDef 5 exTwoWorld.heap 2 = some e ∧ d.eqv e = true ∧
    mergeDef e s.reverse (World.initial Nat) = (w', .ok 0) ∧ observe w'.heap 0 [py! "b", py! "w"] = some (.value (exParam 5)) :=
  ⟨_, _, _, _, rfl, rfl, by decide, rfl, by decide⟩

end Nnx
