import Verif.Proofs.Dfs
/-
Building a module from the ModuleDef of another one gives an isomorphic graph of submodules and statics.
-/
namespace Nnx
variable {α : Type} [DecidableEq α]

omit [DecidableEq α] in
/-- The static fields among a list of attributes (nnx/module.py:800-801). -/
def staticsOf (as : List (Str × Attr α)) : List (Str × PyVal α) :=
  as.filterMap (fun na => match na.2 with
    | .val v => if !v.isNode && !isReserved na.1 then some (na.1, v) else none
    | .ref _ => none)

omit [DecidableEq α] in
/-- The submodules among a list of attributes, at their new addresses. -/
def refsOf (f : Loc → Loc) (as : List (Str × Attr α)) : List (Str × Loc) :=
  as.filterMap (fun na => match na.2 with
    | .val _ => none
    | .ref l => some (na.1, f l))

omit [DecidableEq α] in
/-- The address given to the module at `l` when the ids in `F` are built in order from address `base`. -/
def newLoc (base : Nat) (F : List Nat) (h : Heap α) (l : Loc) : Loc := base + F.findIdx (· == uidAt h l)

omit [DecidableEq α] in
/-- The object built for `o`. -/
def rebuilt (f : Loc → Loc) (o : ModObj α) (u : Nat) (tr : Trace) : ModObj α :=
  ⟨o.cls, dupdate (dupdate [] ((staticsOf (sortItems o.attrs)).map (fun kv => (kv.1, .val kv.2))))
      (dofList ((refsOf f (sortItems o.attrs)).map (fun kv => (kv.1, .ref kv.2)))), u, o.isInit, tr⟩

omit [DecidableEq α] in
/-- `im` and the heap represent the ids in `idx`, built from address `base`. -/
structure Rep (base : Nat) (idx : List Nat) (w : World α) (im : Dict Nat Loc) : Prop where
  len : w.heap.length = base + idx.length
  get : ∀ i, dget im i = if i < idx.length then some (base + i) else none

omit [DecidableEq α] in
/-- The effect of building the modules with ids in `idx'` but not in `idx`. -/
structure Grow (h : Heap α) (f : Loc → Loc) (base : Nat) (idx idx' : List Nat) (w w' : World α) : Prop where
  jax : w'.jaxTrace = w.jaxTrace
  stack : w'.nnxStack = w.nnxStack
  ids : w.nextId ≤ w'.nextId
  old : ∀ j : Nat, j < base + idx.length → w'.heap[j]? = w.heap[j]?
  new : ∀ j : Nat, idx.length ≤ j → j < idx'.length → ∃ (l : Loc) (o : ModObj α) (u : Nat), h[l]? = some o ∧ idx'[j]? = some o.uid ∧
    w.nextId < u ∧ u ≤ w'.nextId ∧ w'.heap[base + j]? = some (rebuilt f o u w.curTrace)
  uniq : ∀ (j j' : Nat) (o o' : ModObj α), idx.length ≤ j → j < idx'.length → idx.length ≤ j' → j' < idx'.length →
    w'.heap[base + j]? = some o → w'.heap[base + j']? = some o' → o.uid = o'.uid → j = j'

omit [DecidableEq α] in
theorem Grow.cur {h : Heap α} {f base idx idx'} {w w' : World α} (g : Grow h f base idx idx' w w') :
    w'.curTrace = w.curTrace := by simp [World.curTrace, g.jax, g.stack]

omit [DecidableEq α] in
theorem Grow.refl {h : Heap α} {f base idx} {w : World α} : Grow h f base idx idx w w :=
  ⟨rfl, rfl, Nat.le_refl _, fun _ _ => rfl, fun j h1 h2 => by omega, fun j j' _ _ h1 h2 => by omega⟩

omit [DecidableEq α] in
theorem Grow.trans {h : Heap α} {f base idx idx1 idx2} {w w1 w2 : World α} (h01 : idx <+: idx1) (h12 : idx1 <+: idx2)
    (g1 : Grow h f base idx idx1 w w1)
    (g2 : Grow h f base idx1 idx2 w1 w2) : Grow h f base idx idx2 w w2 := by
  have hl01 := h01.length_le
  have hl12 := h12.length_le
  have c1 := g1.cur
  refine ⟨g2.jax.trans g1.jax, g2.stack.trans g1.stack, Nat.le_trans g1.ids g2.ids, ?_, ?_, ?_⟩
  · intro j hj
    rw [g2.old j (by omega), g1.old j hj]
  · intro j h1 h2
    by_cases hj : j < idx1.length
    · obtain ⟨l, o, u, e, hi, hu1, hu2, hw⟩ := g1.new j h1 hj
      refine ⟨l, o, u, e, ?_, hu1, Nat.le_trans hu2 g2.ids, ?_⟩
      · obtain ⟨t, rfl⟩ := h12
        rw [List.getElem?_append_left hj]; exact hi
      · rw [g2.old _ (by omega)]; exact hw
    · obtain ⟨l, o, u, e, hi, hu1, hu2, hw⟩ := g2.new j (by omega) h2
      exact ⟨l, o, u, e, hi, Nat.lt_of_le_of_lt g1.ids hu1, hu2, by rw [c1] at hw; exact hw⟩
  · intro j j' o o' h1 h2 h1' h2' ho ho' hu
    have low : ∀ j o, idx.length ≤ j → j < idx1.length → w2.heap[base + j]? = some o → o.uid ≤ w1.nextId ∧
        w1.heap[base + j]? = some o := by
      intro j o h1 h2 ho
      rw [g2.old _ (by omega)] at ho
      obtain ⟨l, o2, u, e, hi, hu1, hu2, hw⟩ := g1.new j h1 h2
      rw [hw] at ho
      cases ho
      exact ⟨hu2, hw⟩
    have high : ∀ j o, idx1.length ≤ j → j < idx2.length → w2.heap[base + j]? = some o → w1.nextId < o.uid := by
      intro j o h1 h2 ho
      obtain ⟨l, o2, u, e, hi, hu1, hu2, hw⟩ := g2.new j h1 h2
      rw [hw] at ho
      cases ho
      exact hu1
    by_cases hj : j < idx1.length
    · by_cases hj' : j' < idx1.length
      · exact g1.uniq j j' o o' h1 hj h1' hj' (low j o h1 hj ho).2 (low j' o' h1' hj' ho').2 hu
      · have := (low j o h1 hj ho).1
        have := high j' o' (by omega) h2' ho'
        omega
    · by_cases hj' : j' < idx1.length
      · have := (low j' o' h1' hj' ho').1
        have := high j o (by omega) h2 ho
        omega
      · exact g2.uniq j j' o o' (by omega) h2 (by omega) h2' ho ho' hu

/-- Building one submodule entry. -/
def buildOne (d : Nat ⊕ ModuleDef α) (w : World α) (im : Dict Nat Loc) : Except Err (Loc × World α × Dict Nat Loc) :=
  match d with
  | .inl i =>
    match dget im i with
    | none => .error .keyError
    | some l => .ok (l, w, im)
  | .inr d =>
    if dhas im d.index then .error .assertionError
    else
      match buildSubs d.subs (w.allocDummy d.cls) (dset im d.index w.heap.length) with
      | .error e => .error e
      | .ok (children, w', im') => .ok (w.heap.length, w'.finish w.heap.length d.cls d.statics children d.isInit, im')

omit [DecidableEq α] in
theorem buildSubs_cons (name : Str) (d : Nat ⊕ ModuleDef α) (rest : Subs α) (w : World α) (im : Dict Nat Loc) :
    buildSubs (Subs.cons name d rest) w im =
      match buildOne d w im with
      | .error e => .error e
      | .ok (l, w, im) =>
        match buildSubs rest w im with
        | .error e => .error e
        | .ok (ls, w, im) => .ok ((name, l) :: ls, w, im) := by
  cases d with
  | inl i =>
    simp only [Subs.cons, buildSubs, buildOne]
    cases dget im i <;> rfl
  | inr d =>
    simp only [Subs.cons, buildSubs, buildOne]
    split
    · rfl
    · cases buildSubs d.subs (w.allocDummy d.cls) (dset im d.index w.heap.length) <;> rfl

omit [DecidableEq α] in
theorem buildModule_eq (d : ModuleDef α) (w : World α) :
    buildModule d w = match buildOne (.inr d) w [] with
      | .error e => .error e
      | .ok (l, w, _) => .ok (l, w) := by
  simp only [buildModule, buildOne, dhas, dget]
  cases buildSubs d.subs (w.allocDummy d.cls) (dset [] d.index w.heap.length) <;> rfl

omit [DecidableEq α] in
theorem findIdx_prefix {A : List Nat} {u : Nat} (hu : u ∈ A) {F : List Nat} (hp : A <+: F) :
    F.findIdx (· == u) = A.findIdx (· == u) := by
  obtain ⟨t, rfl⟩ := hp
  rw [List.findIdx_append]
  rw [if_pos]
  exact List.findIdx_lt_length_of_exists ⟨u, hu, by simp⟩

omit [DecidableEq α] in
theorem findIdx_nodup {A : List Nat} (hn : A.Nodup) {i : Nat} (hi : i < A.length) :
    A.findIdx (· == A[i]) = i := by
  rw [List.findIdx_eq hi]
  refine ⟨by simp, ?_⟩
  intro j hj
  simp only [beq_eq_false_iff_ne, ne_eq]
  intro e
  have := (List.getElem_inj hn).1 e
  omega

omit [DecidableEq α] in
theorem findIdx_append_single {A : List Nat} {u : Nat} (hu : u ∉ A) : (A ++ [u]).findIdx (· == u) = A.length := by
  rw [List.findIdx_append]
  have : A.findIdx (· == u) = A.length := by
    rw [List.findIdx_eq_length]
    intro x hx
    simp only [beq_eq_false_iff_ne, ne_eq]
    rintro rfl
    exact hu hx
  simp [this]

theorem getElem?_set_ne' {A : Type _} {l : List A} {i j : Nat} {a : A} (h : i ≠ j) : (l.set i a)[j]? = l[j]? := by
  rw [List.getElem?_set]
  simp [h]

omit [DecidableEq α] in
theorem makeDef_build (h : Heap α) (fuel : Nat) : ∀ l idx d idx', makeDefRec h fuel l idx = some (d, idx') →
    (∀ p, ∃ vs, Dfs h sortItems fuel (.visit l p) idx vs idx') ∧
    ∀ base F w im, idx' <+: F → F.Nodup → Rep base idx w im →
      ∃ w' im', buildOne d w im = .ok (newLoc base F h l, w', im') ∧ Rep base idx' w' im' ∧
        Grow h (newLoc base F h) base idx idx' w w' := by
  induction fuel with
  | zero => intro l idx d idx' e; simp [makeDefRec] at e
  | succ fuel ih =>
    intro l idx d idx' e
    rw [makeDefRec] at e
    split at e
    · cases e
    · next o ho =>
      split at e
      · next hu =>
        simp only [Option.some.injEq, Prod.mk.injEq] at e
        obtain ⟨rfl, rfl⟩ := e
        refine ⟨fun p => ⟨[], .seen ho hu⟩, ?_⟩
        intro base F w im hF hn hrep
        refine ⟨w, im, ?_, hrep, .refl⟩
        have hlt : idx.findIdx (· == o.uid) < idx.length :=
          List.findIdx_lt_length_of_exists ⟨o.uid, hu, by simp⟩
        simp only [buildOne, hrep.get, hlt, if_true, newLoc, uidAt_of ho]
        rw [findIdx_prefix hu hF]
      · next hu =>
        split at e
        · cases e
        · next subs statics idx1 he =>
          simp only [Option.some.injEq, Prod.mk.injEq] at e
          obtain ⟨rfl, rfl⟩ := e
          have inner : ∀ (as : List (Str × Attr α)) (idx : List Nat) (subs) (statics) (idx'),
              makeDefAttrs (makeDefRec h fuel) as idx = some (subs, statics, idx') →
              (∀ p, ∃ vs, Dfs h sortItems fuel (.attrs as p) idx vs idx') ∧ statics = staticsOf as ∧
              ∀ base F w im, idx' <+: F → F.Nodup → Rep base idx w im →
                ∃ w' im', buildSubs subs w im = .ok (refsOf (newLoc base F h) as, w', im') ∧
                  Rep base idx' w' im' ∧ Grow h (newLoc base F h) base idx idx' w w' := by
            intro as
            induction as with
            | nil =>
              intro idx subs statics idx' e
              simp only [makeDefAttrs, Option.some.injEq, Prod.mk.injEq] at e
              obtain ⟨rfl, rfl, rfl⟩ := e
              refine ⟨fun p => ⟨[], .nil⟩, rfl, ?_⟩
              intro base F w im hF hn hrep
              exact ⟨w, im, rfl, hrep, .refl⟩
            | cons a as iha =>
              intro idx subs statics idx' e
              obtain ⟨n, a⟩ := a
              cases a with
              | val v =>
                rw [makeDefAttrs] at e
                split at e
                · cases e
                · next subs1 statics1 idx1 he =>
                  obtain ⟨hd, hs, hb⟩ := iha _ _ _ _ he
                  split at e
                  · next hv =>
                    simp only [Option.some.injEq, Prod.mk.injEq] at e
                    obtain ⟨rfl, rfl, rfl⟩ := e
                    refine ⟨fun p => ?_, ?_, ?_⟩
                    · obtain ⟨vs, d⟩ := hd p; exact ⟨vs, .val d⟩
                    · rw [hs]; simp only [staticsOf, List.filterMap_cons, hv, if_true]
                    · intro base F w im hF hn hrep
                      have : refsOf (newLoc base F h) ((n, Attr.val v) :: as) = refsOf (newLoc base F h) as := by
                        simp [refsOf]
                      rw [this]
                      exact hb base F w im hF hn hrep
                  · next hv =>
                    simp only [Option.some.injEq, Prod.mk.injEq] at e
                    obtain ⟨rfl, rfl, rfl⟩ := e
                    refine ⟨fun p => ?_, ?_, ?_⟩
                    · obtain ⟨vs, d⟩ := hd p; exact ⟨vs, .val d⟩
                    · rw [hs]; simp only [staticsOf, List.filterMap_cons]; rw [if_neg hv]
                    · intro base F w im hF hn hrep
                      have : refsOf (newLoc base F h) ((n, Attr.val v) :: as) = refsOf (newLoc base F h) as := by
                        simp [refsOf]
                      rw [this]
                      exact hb base F w im hF hn hrep
              | ref l' =>
                rw [makeDefAttrs] at e
                split at e
                · cases e
                · next d1 idx1 he1 =>
                  obtain ⟨hd1, hb1⟩ := ih _ _ _ _ he1
                  split at e
                  · cases e
                  · next subs2 statics2 idx2 he2 =>
                    obtain ⟨hd2, hs2, hb2⟩ := iha _ _ _ _ he2
                    simp only [Option.some.injEq, Prod.mk.injEq] at e
                    obtain ⟨rfl, rfl, rfl⟩ := e
                    have hp12 : idx1 <+: idx2 := by
                      obtain ⟨vs, d⟩ := hd2 []
                      rw [d.seen_eq]; exact List.prefix_append _ _
                    have hp01 : idx <+: idx1 := by
                      obtain ⟨vs, d⟩ := hd1 []
                      rw [d.seen_eq]; exact List.prefix_append _ _
                    refine ⟨fun p => ?_, ?_, ?_⟩
                    · obtain ⟨vs, d⟩ := hd1 (p ++ [n])
                      obtain ⟨ws, d'⟩ := hd2 p
                      exact ⟨_, .ref d d'⟩
                    · rw [hs2]; simp [staticsOf]
                    · intro base F w im hF hn hrep
                      obtain ⟨w1, im1, e1, r1, g1⟩ := hb1 base F w im (hp12.trans hF) hn hrep
                      obtain ⟨w2, im2, e2, r2, g2⟩ := hb2 base F w1 im1 hF hn r1
                      refine ⟨w2, im2, ?_, r2, g1.trans hp01 hp12 g2⟩
                      rw [buildSubs_cons, e1]
                      simp only [e2]
                      simp [refsOf]
          obtain ⟨hd, hs, hb⟩ := inner _ _ _ _ _ he
          have hp1 : idx ++ [o.uid] <+: idx1 := by
            obtain ⟨vs, d⟩ := hd []
            rw [d.seen_eq]; exact List.prefix_append _ _
          refine ⟨fun p => ?_, ?_⟩
          · obtain ⟨vs, d⟩ := hd p
            exact ⟨_, .visit ho hu d⟩
          · intro base F w im hF hn hrep
            have hlen := hrep.len
            have hrep1 : Rep base (idx ++ [o.uid]) (w.allocDummy o.cls) (dset im idx.length w.heap.length) := by
              refine ⟨by simp [World.allocDummy, hlen]; omega, ?_⟩
              intro i
              rw [dget_dset, hrep.get, hlen]
              simp only [List.length_append, List.length_cons, List.length_nil]
              by_cases hi : idx.length = i
              · subst hi; simp
              · rw [if_neg hi]
                by_cases hi2 : i < idx.length
                · rw [if_pos hi2, if_pos (by omega)]
                · rw [if_neg hi2, if_neg (by omega)]
            obtain ⟨w2, im2, e2, r2, g2⟩ := hb base F _ _ hF hn hrep1
            have hcur : (w.allocDummy o.cls).curTrace = w.curTrace := rfl
            have hloc : newLoc base F h l = w.heap.length := by
              rw [newLoc, uidAt_of ho, hlen, findIdx_prefix (A := idx ++ [o.uid]) (by simp) (hp1.trans hF),
                findIdx_append_single hu]
            have hidx1 : idx1[idx.length]? = some o.uid := by
              obtain ⟨t, rfl⟩ := hp1
              simp
            have hl1 : idx.length < idx1.length := by
              have := hp1.length_le
              simp at this; omega
            have hfin : (w2.finish w.heap.length o.cls statics (refsOf (newLoc base F h) (sortItems o.attrs)) o.isInit).heap
                = w2.heap.set w.heap.length (rebuilt (newLoc base F h) o (w2.nextId + 1) w.curTrace) := by
              simp only [World.finish, rebuilt, hs, g2.cur, hcur]
            have hself : (w2.heap.set w.heap.length (rebuilt (newLoc base F h) o (w2.nextId + 1) w.curTrace))[w.heap.length]?
                = some (rebuilt (newLoc base F h) o (w2.nextId + 1) w.curTrace) := by
              rw [List.getElem?_set_self]
              rw [r2.len]; omega
            refine ⟨w2.finish w.heap.length o.cls statics (refsOf (newLoc base F h) (sortItems o.attrs)) o.isInit,
              im2, ?_, ?_, ?_⟩
            · simp only [buildOne, dhas, hrep.get, Nat.lt_irrefl, if_false, Option.isSome_none, e2, hloc]
              rfl
            · refine ⟨?_, r2.get⟩
              rw [hfin, List.length_set]
              exact r2.len
            · refine ⟨g2.jax, g2.stack, ?_, ?_, ?_, ?_⟩
              · have := g2.ids
                simp only [World.finish, World.allocDummy] at this ⊢
                omega
              · intro j hj
                rw [hfin, getElem?_set_ne' (by omega), g2.old j (by simp; omega)]
                simp only [World.allocDummy]
                rw [List.getElem?_append_left (by omega)]
              · intro j h1 h2
                by_cases hj : j = idx.length
                · subst hj
                  refine ⟨l, o, w2.nextId + 1, ho, hidx1, ?_, ?_, ?_⟩
                  · have := g2.ids
                    simp only [World.allocDummy] at this
                    omega
                  · simp [World.finish]
                  · rw [hfin, ← hlen]; exact hself
                · obtain ⟨l2, o2, u, e, hi, hu1, hu2, hw⟩ := g2.new j (by simp; omega) h2
                  refine ⟨l2, o2, u, e, hi, hu1, by simp [World.finish]; omega, ?_⟩
                  rw [hfin, getElem?_set_ne' (by omega), hw, hcur]
              · intro j j' a a' h1 h2 h1' h2' ha ha' hua
                have ids2 : ∀ j a, idx.length ≤ j → j < idx1.length → j ≠ idx.length → w2.heap[base + j]? = some a →
                    a.uid ≤ w2.nextId := by
                  intro j a h1 h2 hj ha
                  obtain ⟨l2, o2, u, e, hi, hu1, hu2, hw⟩ := g2.new j (by simp; omega) h2
                  rw [hw] at ha
                  cases ha
                  exact hu2
                rw [hfin] at ha ha'
                by_cases hj : j = idx.length
                · by_cases hj' : j' = idx.length
                  · omega
                  · rw [getElem?_set_ne' (by omega)] at ha'
                    subst hj
                    rw [← hlen, hself] at ha
                    have := ids2 j' a' h1' h2' hj' ha'
                    cases ha
                    simp only [rebuilt] at hua
                    omega
                · rw [getElem?_set_ne' (by omega)] at ha
                  by_cases hj' : j' = idx.length
                  · subst hj'
                    rw [← hlen, hself] at ha'
                    have := ids2 j a h1 h2 hj ha
                    cases ha'
                    simp only [rebuilt] at hua
                    omega
                  · rw [getElem?_set_ne' (by omega)] at ha'
                    exact g2.uniq j j' a a' (by simp; omega) h2 (by simp; omega) h2' ha ha' hua

end Nnx
