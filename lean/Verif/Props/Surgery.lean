import Verif.Proofs.Surgery
import Verif.Props.ModuleUpdate
/-
C105: the state of a model is made of the states of its submodules (parameter surgery).
-/
namespace Nnx
variable {α : Type} [DecidableEq α]

omit [DecidableEq α] in
/-- **C105, the state of a submodule.** Let the attribute `n` of the Module `r` be a Module `m` that shares nothing with the rest of `r`. The entries of `r.get_state()` below `n` are the
entries of `m.get_state()`: same paths behind "n/", same values. Sharing and cycles within `m` are allowed. -/
theorem C105_submodule_state {h : Heap α} (wf : WFHeap h) {r m : Loc} (hr : r < h.length) {n : Str} (hat : attrAt h r n = some (.ref m)) (ho : OnlyThrough h r n m)
    {f f' : Nat} {s t : State (PyVal α)} (hs : getState f h r = some s) (ht : getState f' h m = some t) (k : Str) (v : PyVal α) :
    s.get (below n k) = some v ↔ t.get k = some v := state_below wf hr hat ho hs ht k v

omit [DecidableEq α] in
/-- **C105, selection by prefix.** `r.partition(nnx.All(T, lambda path, node: path.startswith("n/")), ...)` succeeds. The first State has the entries of `m.get_state()` that are instances
of `T`, behind "n/"; the second State has all other entries of `r.get_state()`. -/
theorem C105_select {h : Heap α} (wf : WFHeap h) {r m : Loc} (hr : r < h.length) {n : Str} (hat : attrAt h r n = some (.ref m)) (ho : OnlyThrough h r n m)
    (c : Cls) {f f' : Nat} {s t : State (PyVal α)} {d : ModuleDef α} (hs : getState f h r = some s) (hd : getModuleDef f h r = some d) (ht : getState f' h m = some t) :
    ∃ sel rest, partitionModule f h r [.all [.ofType c, .pred fun path _ => (below n []).isPrefixOf path], .ellipsis] = .ok ([sel, rest], d) ∧
      (∀ k v, sel.get k = some v ↔ ∃ k', k = below n k' ∧ t.get k' = some v ∧ v.isInstance c = true) ∧
      (∀ k v, rest.get k = some v ↔ s.get k = some v ∧ sel.get k = none) := by
  have hob := getState_obtainable hs
  generalize hfs : ([.all [.ofType c, .pred fun path _ => (below n []).isPrefixOf path], .ellipsis] : List (Filter α)) = fs
  have hwf : ∀ f ∈ fs, f.WellFormed := by
    subst hfs
    intro f hf
    simp only [List.mem_cons, List.not_mem_nil, or_false] at hf
    rcases hf with rfl | rfl
    · exact ⟨trivial, trivial, trivial⟩
    · exact trivial
  have hell : ¬ MisplacedEllipsis fs := by
    subst hfs
    rintro ⟨i, hi, he⟩
    simp only [List.length_cons, List.length_nil] at hi
    have : i = 0 := by omega
    subst this
    simp at he
  obtain ⟨h1, h2, h3⟩ := C02_partition_fails_iff hob hwf hell
  cases hp : s.partition fs with
  | error e =>
    have := h2 e hp
    subst this
    obtain ⟨k, v, _, hno⟩ := h1.1 hp
    exact absurd trivial (hno .ellipsis (by subst hfs; simp))
  | ok ss =>
    obtain ⟨hlen, hfm⟩ := C01_partition_first_match hob hp
    obtain ⟨sel, rest, rfl⟩ : ∃ a b, ss = [a, b] := by
      subst hfs
      match ss, hlen with
      | [a, b], _ => exact ⟨a, b, rfl⟩
    have hmatch : ∀ k v, FirstMatch fs k v 0 ↔ v.isInstance c = true ∧ ∃ k', k = below n k' := by
      intro k v
      subst hfs
      simp only [FirstMatch, List.getElem?_cons_zero, Option.some.injEq, exists_eq_left', Nat.not_lt_zero, false_implies, implies_true, and_true,
        Filter.Matches, AllMatch, List.isPrefixOf_iff_prefix]
      refine and_congr_right fun _ => ?_
      constructor
      · rintro ⟨k', rfl⟩; exact ⟨k', by simp [below]⟩
      · rintro ⟨k', rfl⟩; exact ⟨k', by simp [below]⟩
    have hsel : ∀ k v, sel.get k = some v ↔ s.get k = some v ∧ v.isInstance c = true ∧ ∃ k', k = below n k' := by
      intro k v; rw [hfm 0 sel rfl, hmatch]
    have hrest : ∀ k v, rest.get k = some v ↔ s.get k = some v ∧ ¬ (v.isInstance c = true ∧ ∃ k', k = below n k') := by
      intro k v
      rw [hfm 1 rest rfl, ← hmatch]
      refine and_congr_right fun _ => ?_
      subst hfs
      simp only [FirstMatch]
      constructor
      · rintro ⟨_, h⟩ ⟨⟨g, hg, hm⟩, _⟩
        exact h 0 (by omega) g hg hm
      · intro h
        refine ⟨⟨.ellipsis, rfl, trivial⟩, fun j hj g hg hm => h ⟨⟨g, ?_, hm⟩, fun j hj => by omega⟩⟩
        have : j = 0 := by omega
        rw [this] at hg; exact hg
    refine ⟨sel, rest, ?_, ?_, ?_⟩
    · subst hfs
      simp only [partitionModule, hs, hd, hp]
    · intro k v
      rw [hsel]
      constructor
      · rintro ⟨h1, h2, k', rfl⟩
        exact ⟨k', rfl, (state_below wf hr hat ho hs ht k' v).1 h1, h2⟩
      · rintro ⟨k', rfl, h1, h2⟩
        exact ⟨(state_below wf hr hat ho hs ht k' v).2 h1, h2, k', rfl⟩
    · intro k v
      rw [hrest]
      refine and_congr_right fun hk => ?_
      constructor
      · intro h
        cases hg : sel.get k with
        | none => rfl
        | some v' =>
          obtain ⟨h1, h2⟩ := (hsel k v').1 hg
          rw [hk] at h1; cases h1
          exact absurd h2 h
      · intro hg h
        rw [(hsel k v).2 ⟨hk, h⟩] at hg; cases hg

/-- **C105, replacing a submodule.** `r.n = m'`, where what `r` had at `n` shares nothing with the rest of `r`, and neither does `m'` afterwards. Then `r.get_state()` has the entries of
`m'.get_state()` below "n/", nothing at "n" itself, and its other entries are what they were. -/
theorem C105_replace {w w' : World α} (wf : WFWorld w) {r m' : Loc} (hr : r < w.heap.length) (hm' : m' < w.heap.length) {n : Str} (hn : GoodName n)
    (hold : ∀ m, attrAt w.heap r n = some (.ref m) → OnlyThrough w.heap r n m) (hset : setAttr w r n (.ref m') = .ok w') (hnew : OnlyThrough w'.heap r n m')
    {f f1 f2 : Nat} {s s' t : State (PyVal α)} (hs : getState f w.heap r = some s) (ht : getState f1 w.heap m' = some t) (hs' : getState f2 w'.heap r = some s') :
    (∀ k v, s'.get (below n k) = some v ↔ t.get k = some v) ∧ s'.get n = none ∧
    ∀ k, k ≠ n → (∀ k', k ≠ below n k') → s'.get k = s.get k := by
  obtain ⟨cf, hlen⟩ := confined_setAttr_ref (A := fun _ => True) wf (fun _ _ _ _ _ => trivial) trivial hn trivial hm' hset
  have wf' := cf.wf
  obtain ⟨o, a, ho, _, _, hst, rfl⟩ := setAttr_ok_iff.1 hset
  have ha : a = .ref m' := by
    revert hst
    cases attrAt w.heap r n with
    | none => intro h; cases h; rfl
    | some x =>
      cases x with
      | ref _ => intro h; cases h; rfl
      | val v => cases v <;> intro h <;> cases h <;> rfl
  subst ha
  generalize hw' : w.setAttrs r o (dset o.attrs n (.ref m')) = w' at *
  have hr' : r < w'.heap.length := hlen ▸ hr
  have hlt' : m' < w'.heap.length := hlen ▸ hm'
  have hob : w'.heap[r]? = some { o with attrs := dset o.attrs n (.ref m') } := by
    rw [← hw']; exact List.getElem?_set_self hr
  have hother : ∀ b : Loc, b ≠ r → w'.heap[b]? = w.heap[b]? := by
    intro b hb; rw [← hw']; exact List.getElem?_set_ne (Ne.symm hb)
  have hattr : ∀ c, attrAt w'.heap r c = if n = c then some (.ref m') else attrAt w.heap r c := by
    intro c
    simp only [attrAt, hob, ho, dget_dset]
  have hat : attrAt w'.heap r n = some (.ref m') := by rw [hattr, if_pos rfl]
  have hnr := hnew.not_root hr'
  obtain ⟨t', ht'⟩ := getState_exists wf'.heap hlt' (Nat.lt_succ_self _)
  -- the state of the new submodule is what it was
  have htt : t' = t := by
    obtain ⟨vs, S1, d, hc, hg⟩ := getState_spec wf'.heap hlt' ht'
    obtain ⟨vs0, S0, d0, hc0, hg0⟩ := getState_spec wf.heap hm' ht
    obtain ⟨T', d1, _⟩ := d.frame (h' := w.heap) (Q := Reaches w'.heap m') (fun a c b ha e => ha.step wf'.heap e)
      (fun a ha => (hother a fun e => hnr (e ▸ ha)).symm) isOrder_sort wf'.heap (.refl hlt') [] (fun _ _ _ _ => Iff.rfl)
    obtain ⟨rfl, _⟩ := d0.functional d1
    refine State.Canonical.ext hc hc0 fun k => Option.ext fun v => ?_
    rw [hg, hg0]
    refine exists_congr fun x => and_congr_right fun hx => exists_congr fun c => ?_
    have : x.1 ≠ r := fun e => hnr ⟨_, e ▸ d.walk wf'.heap isOrder_sort (.here hlt') x hx⟩
    simp only [attrAt, hother _ this]
  subst htt
  refine ⟨state_below wf'.heap hr' hat hnew hs' ht', ?_, ?_⟩
  · cases hg : s'.get n with
    | none => rfl
    | some v =>
      exfalso
      obtain ⟨l, c, ⟨p, hp, hwk⟩, hc, _⟩ := (state_paths wf'.heap hr' hs').1 n v hg
      rw [splitSlash_noslash hn.1] at hp
      have hp0 : p = [] ∧ c = n := by
        cases p with
        | nil => simp at hp; exact ⟨rfl, hp.symm⟩
        | cons _ q => simp at hp
      obtain ⟨rfl, rfl⟩ := hp0
      cases hwk
      rw [hat] at hc; cases hc
  · intro k hk hkb
    have hnroot : ¬ Beside w'.heap r n r := by
      rintro ⟨b, l, p, hb, e, wk⟩
      obtain ⟨q, hq⟩ := hnew m' (.refl hlt') _ ((Walk.step e wk).snoc hat hlt')
      exact hb (List.cons.inj hq).1
    obtain ⟨g0, ws, T0, d0, _, hg0⟩ := state_beside wf.heap hr hold hs ho
    obtain ⟨g1, ws1, T1, d1, hb1, hg1⟩ := state_beside wf'.heap hr' (fun m e => by rw [hat] at e; cases e; exact hnew) hs' hob
    rw [dset_filter] at d1
    obtain ⟨T', d2, _⟩ := d1.frame (h' := w.heap) (Q := Beside w'.heap r n) (Beside.closed wf'.heap)
      (fun a ha => (hother a fun e => hnroot (e ▸ ha)).symm) isOrder_sort wf'.heap (by
        intro b l hb
        have hb := (sortItems_perm _).mem_iff.1 hb
        obtain ⟨hb1, hb2⟩ := List.mem_filter.1 hb
        have hbn : b ≠ n := by simpa using hb2
        have e : attrAt w'.heap r b = some (.ref l) := by
          rw [hattr, if_neg (Ne.symm hbn)]
          exact attrAt_of_mem wf.heap ho hb1
        exact ⟨b, l, [], hbn, e, .here (wf'.heap.refs _ _ _ e)⟩) [o.uid] (fun _ _ _ _ => Iff.rfl)
    obtain ⟨rfl, _⟩ := d2.functional d0
    apply Option.ext
    intro v
    rw [hg0 k hk hkb, hg1 k hk hkb]
    refine exists_congr fun x => and_congr_right fun hx => exists_congr fun c => ?_
    rcases List.mem_cons.1 hx with rfl | hx
    · rw [hattr]
      split
      · next h => subst h; constructor
                  · rintro ⟨h, _⟩; cases h
                  · rintro ⟨_, _, h⟩; exact absurd h hk
      · exact Iff.rfl
    · have : x.1 ≠ r := fun e => hnroot (e ▸ hb1 x hx)
      simp only [attrAt, hother _ this]

omit [DecidableEq α] in
theorem addresses_below {h : Heap α} {r m : Loc} {n : Str} (hn : NoSlash n) (hat : attrAt h r n = some (.ref m)) {k : Str} {l : Loc} {c : Str} :
    Addresses h r (below n k) l c ↔ Addresses h m k l c := by
  constructor
  · rintro ⟨p, hp, wk⟩
    rw [split_below hn] at hp
    cases p with
    | nil =>
      simp only [List.nil_append, List.cons.injEq] at hp
      exact absurd hp.2 (splitSlash_ne_nil k)
    | cons b p =>
      simp only [List.cons_append, List.cons.injEq] at hp
      obtain ⟨rfl, hp⟩ := hp
      cases wk with
      | step e wk => rw [hat] at e; cases e; exact ⟨p, hp, wk⟩
  · rintro ⟨p, hp, wk⟩
    exact ⟨n :: p, by rw [split_below hn, hp]; rfl, .step hat wk⟩

omit [DecidableEq α] in
theorem given_one {u : State (PyVal α)} {k : Str} : given [u] k = u.get k := by
  simp only [given, List.reverse_cons, List.reverse_nil, List.nil_append, List.findSome?_cons, List.findSome?_nil]
  cases u.get k <;> rfl

/-- **C105, updating a submodule through the model.** `r.update_state(u)`, where all paths of `u` are below "n/", does the same as `r.n.update_state(t)`, where `t` is `u` without the
"n/" in front: all attributes of all Modules are the same afterwards. The submodule may share anything with the rest. -/
theorem C105_update {w : World α} (wf : WFWorld w) {r m : Loc} (hr : r < w.heap.length) {n : Str} (hat : attrAt w.heap r n = some (.ref m))
    {t u : State (PyVal α)} (htu : IsBelow n t u) (hct : t.Canonical) (hcu : u.Canonical) (hg : GoodUpdates [t]) (hleaf : LeafPaths w.heap m [t]) (hnc : NoConflict w.heap m [t])
    {f f' : Nat} {w1 w2 : World α} (h1 : updateState f r [u] w = (w1, none)) (h2 : updateState f' m [t] w = (w2, none)) :
    SameObjects w w1 ∧ SameObjects w w2 ∧ ∀ l c, attrAt w1.heap l c = attrAt w2.heap l c := by
  have hns : NoSlash n := wf.heap.slash _ _ _ hat
  have hm : m < w.heap.length := wf.heap.refs _ _ _ hat
  have hgiven : ∀ k v, given [u] k = some v ↔ ∃ k', k = below n k' ∧ given [t] k' = some v := by
    intro k v; simp only [given_one]; exact htu k v
  have hgu : GoodUpdates [u] := by
    intro x hx k v hk
    rw [List.mem_singleton.1 hx] at hk
    obtain ⟨k', rfl, hk'⟩ := (htu k v).1 (mem_dget hcu.nodup hk)
    obtain ⟨g1, g2⟩ := hg t (by simp) k' v (dget_mem hk')
    refine ⟨g1, ?_⟩
    rw [split_below hns]
    cases e : splitSlash k' with
    | nil => exact absurd e (splitSlash_ne_nil k')
    | cons x xs => rw [e] at g2; simpa using g2
  have hleafu : LeafPaths w.heap r [u] := by
    intro k v hk l c ha b
    obtain ⟨k', rfl, hk'⟩ := (hgiven k v).1 hk
    exact hleaf k' v hk' l c ((addresses_below hns hat).1 ha) b
  have hncu : NoConflict w.heap r [u] := by
    intro k v k2 v2 hk hk2 l c ha ha2
    obtain ⟨k', rfl, hk'⟩ := (hgiven k v).1 hk
    obtain ⟨k2', rfl, hk2'⟩ := (hgiven k2 v2).1 hk2
    exact hnc k' v k2' v2 hk' hk2' l c ((addresses_below hns hat).1 ha) ((addresses_below hns hat).1 ha2)
  have hcu' : ∀ x ∈ [u], x.Canonical := fun x hx => by rw [List.mem_singleton.1 hx]; exact hcu
  have hct' : ∀ x ∈ [t], x.Canonical := fun x hx => by rw [List.mem_singleton.1 hx]; exact hct
  obtain ⟨a1, _, _, a4⟩ := C14_addressed_updated wf hr hcu' hgu hleafu hncu h1
  obtain ⟨b1, _, _, b4⟩ := C14_addressed_updated wf hm hct' hg hleaf hnc h2
  refine ⟨a1, b1, fun l c => ?_⟩
  by_cases hx : ∃ k v, given [t] k = some v ∧ Addresses w.heap m k l c
  · obtain ⟨k, v, hk, ha⟩ := hx
    rw [b4 k v l c hk ha, a4 (below n k) v l c ((hgiven _ _).2 ⟨k, rfl, hk⟩) ((addresses_below hns hat).2 ha)]
  · rw [C14_frame wf hm hct' hg hleaf h2 fun k v hk ha => hx ⟨k, v, hk, ha⟩,
      C14_frame wf hr hcu' hgu hleafu h1 fun k v hk ha => by
        obtain ⟨k', rfl, hk'⟩ := (hgiven k v).1 hk
        exact hx ⟨k', v, hk', (addresses_below hns hat).1 ha⟩]

/-- **C105, when both succeed.** Under the conditions of C14 for the update of the submodule, and if all Modules of `r` belong to the current trace, both updates succeed. -/
theorem C105_update_succeeds {w : World α} (wf : WFWorld w) {r m : Loc} (hr : r < w.heap.length) {n : Str} (hat : attrAt w.heap r n = some (.ref m))
    {t u : State (PyVal α)} (htu : IsBelow n t u) (hct : t.Canonical) (hcu : u.Canonical) (hg : GoodUpdates [t]) (hleaf : LeafPaths w.heap m [t]) (hnc : NoConflict w.heap m [t])
    (htr : ∀ (l : Loc) (o : ModObj α), Reaches w.heap r l → w.heap[l]? = some o → w.traceValid o.trace = true)
    (hpaths : ∀ k v, t.get k = some v → ∃ l c, Addresses w.heap m k l c ∧ Compatible (attrAt w.heap l c) v) {f f' : Nat} (hf : w.heap.length < f) (hf' : w.heap.length < f') :
    ∃ w1 w2, updateState f r [u] w = (w1, none) ∧ updateState f' m [t] w = (w2, none) := by
  have hns : NoSlash n := wf.heap.slash _ _ _ hat
  have hm : m < w.heap.length := wf.heap.refs _ _ _ hat
  have hgiven : ∀ k v, given [u] k = some v ↔ ∃ k', k = below n k' ∧ given [t] k' = some v := by
    intro k v; simp only [given_one]; exact htu k v
  have hcu' : ∀ x ∈ [u], x.Canonical := fun x hx => by rw [List.mem_singleton.1 hx]; exact hcu
  have hct' : ∀ x ∈ [t], x.Canonical := fun x hx => by rw [List.mem_singleton.1 hx]; exact hct
  obtain ⟨w2, h2⟩ := C14_succeeds wf hm hf' hct' hg hleaf hnc (fun l o hl => htr l o (.head hat hl)) (fun k v hk => hpaths k v (by rwa [given_one] at hk))
  obtain ⟨w1, h1⟩ := C14_succeeds wf hr hf hcu' (us := [u]) (by
      intro x hx k v hk
      rw [List.mem_singleton.1 hx] at hk
      obtain ⟨k', rfl, hk'⟩ := (htu k v).1 (mem_dget hcu.nodup hk)
      obtain ⟨g1, g2⟩ := hg t (by simp) k' v (dget_mem hk')
      refine ⟨g1, ?_⟩
      rw [split_below hns]
      cases e : splitSlash k' with
      | nil => exact absurd e (splitSlash_ne_nil k')
      | cons x xs => rw [e] at g2; simpa using g2) (by
      intro k v hk l c ha b
      obtain ⟨k', rfl, hk'⟩ := (hgiven k v).1 hk
      exact hleaf k' v hk' l c ((addresses_below hns hat).1 ha) b) (by
      intro k v k2 v2 hk hk2 l c ha ha2
      obtain ⟨k', rfl, hk'⟩ := (hgiven k v).1 hk
      obtain ⟨k2', rfl, hk2'⟩ := (hgiven k2 v2).1 hk2
      exact hnc k' v k2' v2 hk' hk2' l c ((addresses_below hns hat).1 ha) ((addresses_below hns hat).1 ha2)) htr (by
      intro k v hk
      obtain ⟨k', rfl, hk'⟩ := (hgiven k v).1 hk
      obtain ⟨l, c, ha, hc⟩ := hpaths k' v (by rwa [given_one] at hk')
      exact ⟨l, c, (addresses_below hns hat).2 ha, hc⟩)
  exact ⟨w1, w2, h1, h2⟩


/-! ### Parameter surgery, examples/09_parameter_surgery.py -/

/-- A classifier with a backbone and a head, as in examples/09_parameter_surgery.py, and one more part whose name begins with "backbone"; a pretrained backbone beside it. The backbone
uses its layer twice and has a cycle. -/
def exClassifier : World Nat :=
  ⟨[⟨exCls (py! "Classifier"), [(py! "head", .ref 2), (py! "backbone_norm", .ref 3), (py! "backbone", .ref 1), (py! "scale", .val (exParam 4))], 1, false, ⟨0, 0⟩⟩,
    ⟨exCls (py! "Net"), [(py! "kernel", .val (exParam 1)), (py! "l1", .ref 4), (py! "l2", .ref 4)], 2, false, ⟨0, 0⟩⟩,
    ⟨exCls (py! "Linear"), [(py! "kernel", .val (exParam 2)), (py! "mean", .val (exStat 7))], 3, false, ⟨0, 0⟩⟩,
    ⟨exCls (py! "Norm"), [(py! "bias", .val (exParam 3))], 4, false, ⟨0, 0⟩⟩,
    ⟨exCls (py! "Layer"), [(py! "w", .val (exParam 5)), (py! "s", .val (exStat 6)), (py! "up", .ref 1)], 5, false, ⟨0, 0⟩⟩,
    ⟨exCls (py! "Linear"), [(py! "kernel", .val (exParam 8))], 6, false, ⟨0, 0⟩⟩], 6, 0, []⟩

omit [DecidableEq α] in
theorem edge_mem {h : Heap α} {l : Loc} {n : Str} {b : Loc} (e : attrAt h l n = some (.ref b)) : ∃ o, h[l]? = some o ∧ (n, Attr.ref b) ∈ o.attrs := by
  simp only [attrAt] at e
  split at e
  · next o ho => exact ⟨o, ho, dget_mem e⟩
  · cases e

theorem exClassifier_wf : WFWorld exClassifier := by
  refine ⟨wfHeap_of_forall (by decide) ?_, ?_⟩
  · intro o ho
    simp only [exClassifier, List.mem_cons, List.not_mem_nil, or_false] at ho
    rcases ho with rfl | rfl | rfl | rfl | rfl | rfl <;> refine ⟨by decide, ?_⟩ <;> intro na hna <;>
      simp only [List.mem_cons, List.not_mem_nil, or_false] at hna
    · rcases hna with rfl | rfl | rfl | rfl <;> refine ⟨by unfold NoSlash; decide, by decide, ?_, ?_⟩ <;> intros <;> rename_i h <;> cases h
      all_goals first | exact exParam_wf _ | simp [exClassifier]
    · rcases hna with rfl | rfl | rfl <;> refine ⟨by unfold NoSlash; decide, by decide, ?_, ?_⟩ <;> intros <;> rename_i h <;> cases h
      all_goals first | exact exParam_wf _ | simp [exClassifier]
    · rcases hna with rfl | rfl <;> refine ⟨by unfold NoSlash; decide, by decide, ?_, ?_⟩ <;> intros <;> rename_i h <;> cases h
      all_goals first | exact exParam_wf _ | exact exStat_wf _
    · subst hna; refine ⟨by unfold NoSlash; decide, by decide, ?_, ?_⟩ <;> intros <;> rename_i h <;> cases h
      exact exParam_wf _
    · rcases hna with rfl | rfl | rfl <;> refine ⟨by unfold NoSlash; decide, by decide, ?_, ?_⟩ <;> intros <;> rename_i h <;> cases h
      all_goals first | exact exParam_wf _ | exact exStat_wf _ | simp [exClassifier]
    · subst hna; refine ⟨by unfold NoSlash; decide, by decide, ?_, ?_⟩ <;> intros <;> rename_i h <;> cases h
      exact exParam_wf _
  · intro l o ho
    have := List.mem_of_getElem? ho
    simp only [exClassifier, List.mem_cons, List.not_mem_nil, or_false] at this ⊢
    rcases this with rfl | rfl | rfl | rfl | rfl | rfl <;> simp

/-- Which Modules the backbone reaches. -/
theorem exClassifier_backbone {a : Loc} (h : Reaches exClassifier.heap 1 a) : a = 1 ∨ a = 4 := by
  have key : ∀ b p, Walk exClassifier.heap b p a → b = 1 ∨ b = 4 → a = 1 ∨ a = 4 := by
    intro b p wk
    induction wk with
    | here _ => exact id
    | step e _ ih =>
      intro hb
      refine ih h ?_
      obtain ⟨o, ho, hm⟩ := edge_mem e
      rcases hb with rfl | rfl
      · cases ho
        simp only [List.mem_cons, Prod.mk.injEq, Attr.ref.injEq, reduceCtorEq, and_false, List.not_mem_nil, or_false, false_or] at hm
        rcases hm with ⟨_, h⟩ | ⟨_, h⟩ <;> exact .inr h
      · cases ho
        simp only [List.mem_cons, Prod.mk.injEq, Attr.ref.injEq, reduceCtorEq, and_false, List.not_mem_nil, or_false, false_or] at hm
        exact .inl hm.2
  obtain ⟨p, wk⟩ := h
  exact key 1 p wk (.inl rfl)

theorem exClassifier_others {b a : Loc} {p : List Str} (wk : Walk exClassifier.heap b p a) (hb : b = 2 ∨ b = 3 ∨ b = 5) : a = b := by
  cases wk with
  | here _ => rfl
  | step e _ =>
    obtain ⟨o, ho, hm⟩ := edge_mem e
    rcases hb with rfl | rfl | rfl <;> cases ho <;> simp at hm

theorem exClassifier_only : OnlyThrough exClassifier.heap 0 (py! "backbone") 1 := by
  intro a ha p wk
  have ha := exClassifier_backbone ha
  cases wk with
  | here _ => rcases ha with h | h <;> cases h
  | @step _ b _ c q e wk =>
    obtain ⟨o, ho, hm⟩ := edge_mem e
    cases ho
    simp only [List.mem_cons, Prod.mk.injEq, Attr.ref.injEq, reduceCtorEq, and_false, List.not_mem_nil, or_false] at hm
    rcases hm with ⟨rfl, rfl⟩ | ⟨rfl, rfl⟩ | ⟨rfl, rfl⟩
    · have := exClassifier_others wk (.inl rfl); rcases ha with h | h <;> rw [h] at this <;> cases this
    · have := exClassifier_others wk (.inr (.inl rfl)); rcases ha with h | h <;> rw [h] at this <;> cases this
    · exact ⟨q, rfl⟩

/-- The hypotheses of C105_submodule_state and C105_select are met, and what they say: the state of the backbone. -/
example : WFHeap exClassifier.heap ∧ attrAt exClassifier.heap 0 (py! "backbone") = some (.ref 1) ∧ OnlyThrough exClassifier.heap 0 (py! "backbone") 1 ∧
    getState 9 exClassifier.heap 1 = some ⟨[(py! "kernel", exParam 1), (py! "l1/s", exStat 6), (py! "l1/w", exParam 5)]⟩ ∧
    (getState 9 exClassifier.heap 0).map State.items = some [(py! "backbone/kernel", exParam 1), (py! "backbone/l1/s", exStat 6), (py! "backbone/l1/w", exParam 5),
      (py! "backbone_norm/bias", exParam 3), (py! "head/kernel", exParam 2), (py! "head/mean", exStat 7), (py! "scale", exParam 4)] :=
  ⟨exClassifier_wf.heap, rfl, exClassifier_only, by decide, by decide⟩

/-- The classifier after `model.backbone = pretrained`. -/
def exOperated : World Nat :=
  ⟨[⟨exCls (py! "Classifier"), [(py! "head", .ref 2), (py! "backbone_norm", .ref 3), (py! "backbone", .ref 5), (py! "scale", .val (exParam 4))], 1, false, ⟨0, 0⟩⟩] ++
    exClassifier.heap.tail, 6, 0, []⟩

/-- C105_replace applies to it. -/
example : setAttr exClassifier 0 (py! "backbone") (.ref 5) = .ok exOperated ∧ OnlyThrough exOperated.heap 0 (py! "backbone") 5 ∧
    (getState 9 exOperated.heap 0).map State.items = some [(py! "backbone/kernel", exParam 8),
      (py! "backbone_norm/bias", exParam 3), (py! "head/kernel", exParam 2), (py! "head/mean", exStat 7), (py! "scale", exParam 4)] := by
  refine ⟨by decide, ?_, by decide⟩
  have ends : ∀ {b a : Loc} {p : List Str}, Walk exOperated.heap b p a → b = 2 ∨ b = 3 ∨ b = 5 → a = b := by
    intro b a p wk hb
    cases wk with
    | here _ => rfl
    | step e _ =>
      obtain ⟨o, ho, hm⟩ := edge_mem e
      rcases hb with rfl | rfl | rfl <;> cases ho <;> simp at hm
  intro a ha p wk
  obtain ⟨q0, ha⟩ := ha
  have ha : a = 5 := ends ha (.inr (.inr rfl))
  subst ha
  cases wk with
  | @step _ b _ c q e wk =>
    obtain ⟨o, ho, hm⟩ := edge_mem e
    cases ho
    simp only [List.mem_cons, Prod.mk.injEq, Attr.ref.injEq, reduceCtorEq, and_false, List.not_mem_nil, or_false] at hm
    rcases hm with ⟨rfl, rfl⟩ | ⟨rfl, rfl⟩ | ⟨rfl, rfl⟩
    · have := ends wk (.inl rfl); cases this
    · have := ends wk (.inr (.inl rfl)); cases this
    · exact ⟨q, rfl⟩

/-- An update of the backbone through the model, and directly. -/
example : ∃ w1, updateState 9 0 [.new [(py! "backbone/l2/w", exParam 40), (py! "backbone/kernel", exParam 41)]] exClassifier = (w1, none) ∧
    updateState 9 1 [.new [(py! "l2/w", exParam 40), (py! "kernel", exParam 41)]] exClassifier = (w1, none) ∧ w1 ≠ exClassifier :=
  ⟨_, rfl, by decide, by decide⟩

/-- **C105, the filter of the example.** examples/09_parameter_surgery.py announces a filter that selects "all the parameters that are not part of the backbone" and writes
`nnx.All(nnx.Param, lambda path, node: path.startswith("backbone"))`. It selects the opposite, and in addition every Param of attributes whose name begins with "backbone": the head, which
is to be trained, is among the rest. -/
theorem C105_example_filter : ∃ (sel rest : State (PyVal Nat)) (d : ModuleDef Nat),
    partitionModule 9 exClassifier.heap 0 [.all [.ofType cParam, .pred fun path _ => (py! "backbone").isPrefixOf path], .ellipsis] = .ok ([sel, rest], d) ∧
      sel.items = [(py! "backbone/kernel", exParam 1), (py! "backbone/l1/w", exParam 5), (py! "backbone_norm/bias", exParam 3)] ∧
      rest.get (py! "head/kernel") = some (exParam 2) :=
  ⟨_, _, _, rfl, by decide, by decide⟩

/-- **C105, why nothing may be shared.** If the head uses the layer of the backbone and comes first in the order of names, the entries of the layer are listed under the head only. -/
theorem C105_shared_submodule : ∃ (h : Heap Nat) (s t : State (PyVal Nat)), WFHeap h ∧ attrAt h 0 (py! "backbone") = some (.ref 1) ∧
    getState 3 h 0 = some s ∧ getState 3 h 1 = some t ∧ t.get (py! "w") = some (exParam 1) ∧ s.get (py! "backbone/w") = none ∧ s.get (py! "b/w") = some (exParam 1) := by
  refine ⟨[⟨exCls (py! "Net"), [(py! "backbone", .ref 1), (py! "b", .ref 1)], 1, false, ⟨0, 0⟩⟩, ⟨exCls (py! "Layer"), [(py! "w", .val (exParam 1))], 2, false, ⟨0, 0⟩⟩],
    _, _, ?_, rfl, rfl, rfl, by decide, by decide, by decide⟩
  refine wfHeap_of_forall (by decide) ?_
  intro o ho
  simp only [List.mem_cons, List.not_mem_nil, or_false] at ho
  rcases ho with rfl | rfl <;> refine ⟨by decide, ?_⟩ <;> intro na hna <;> simp only [List.mem_cons, List.not_mem_nil, or_false] at hna
  · rcases hna with rfl | rfl <;> refine ⟨by unfold NoSlash; decide, by decide, ?_, ?_⟩ <;> intros <;> rename_i h <;> cases h <;> simp
  · subst hna; refine ⟨by unfold NoSlash; decide, by decide, ?_, ?_⟩ <;> intros <;> rename_i h <;> cases h
    exact exParam_wf _

end Nnx
