import Verif.Model.Copy
import Verif.Proofs.Graph
/-
The deep copy of a Module: the Modules reachable from it are copied once each.
-/
namespace Nnx
variable {α : Type}

/-- Where a memo sends a Module. -/
def memoTo (n : Nat) (memo : Dict Loc Loc) (l : Loc) : Loc := (dget memo l).getD n

/-- What holds while `deepcopy` runs: `opened` are the Modules whose attributes are being copied. -/
structure DeepInv (fresh : Nat → Nat) (w0 : World α) (root : Loc) (w : World α) (memo : Dict Loc Loc)
    (opened : Loc → Prop) : Prop where
  len : w0.heap.length ≤ w.heap.length
  old : ∀ j : Nat, j < w0.heap.length → w.heap[j]? = w0.heap[j]?
  jax : w.jaxTrace = w0.jaxTrace
  stack : w.nnxStack = w0.nnxStack
  ids : w.nextId = w0.nextId + (w.heap.length - w0.heap.length)
  range : ∀ l l', dget memo l = some l' → w0.heap.length ≤ l' ∧ l' < w.heap.length
  reach : ∀ l l', dget memo l = some l' → Reaches w0.heap root l
  inj : ∀ a b c, dget memo a = some c → dget memo b = some c → a = b
  surj : ∀ j : Nat, w0.heap.length ≤ j → j < w.heap.length → ∃ l, dget memo l = some j
  obj : ∀ (l l' : Loc) (o : ModObj α), dget memo l = some l' → w0.heap[l]? = some o → ∃ as,
    w.heap[l']? = some ⟨o.cls, as, w0.nextId + 1 + (l' - w0.heap.length), o.isInit, copyTrace fresh o.trace⟩ ∧
    (¬ opened l → as = o.attrs.map (fun x => (x.1, x.2.redirect (memoTo w0.heap.length memo))) ∧
      ∀ n b, (n, Attr.ref b) ∈ o.attrs → (dget memo b).isSome)

/-- A memo that knows at least as much. -/
def MemoExt (memo memo' : Dict Loc Loc) : Prop := ∀ a b, dget memo a = some b → dget memo' a = some b

theorem MemoExt.refl (m : Dict Loc Loc) : MemoExt m m := fun _ _ h => h
theorem MemoExt.trans {m m1 m2 : Dict Loc Loc} (a : MemoExt m m1) (b : MemoExt m1 m2) : MemoExt m m2 :=
  fun x y h => b x y (a x y h)

/-- The copied attributes do not change when the memo grows. -/
theorem redirect_ext {n : Nat} {m m' : Dict Loc Loc} (e : MemoExt m m') {as : List (Str × Attr α)}
    (h : ∀ k b, (k, Attr.ref b) ∈ as → (dget m b).isSome) :
    as.map (fun x => (x.1, x.2.redirect (memoTo n m'))) = as.map (fun x => (x.1, x.2.redirect (memoTo n m))) := by
  apply List.map_congr_left
  rintro ⟨k, a⟩ hx
  cases a with
  | val v => rfl
  | ref b =>
    have := h k b hx
    cases hb : dget m b with
    | none => rw [hb] at this; cases this
    | some c => simp only [Attr.redirect, memoTo, hb, e b c hb, Option.getD_some]

/-- The number of Modules not copied yet. -/
def uncopied (n : Nat) (memo : Dict Loc Loc) : Nat := (List.range n).countP (fun a => (dget memo a).isNone)

theorem countP_strict {X : Type} {p q : X → Bool} {L : List X} (h : ∀ x, q x = true → p x = true) {a : X} (ha : a ∈ L)
    (hp : p a = true) (hq : q a = false) : L.countP q < L.countP p := by
  induction L with
  | nil => cases ha
  | cons x L ih =>
    rw [List.countP_cons, List.countP_cons]
    rcases List.mem_cons.1 ha with rfl | ha
    · have : L.countP q ≤ L.countP p := List.countP_mono_left (fun x _ hx => h x hx)
      simp only [hp, hq, if_true, Bool.false_eq_true, if_false]
      omega
    · have := ih ha
      by_cases hx : q x = true
      · simp only [hx, h x hx, if_true]; omega
      · rw [if_neg hx]; split <;> omega

theorem uncopied_mono {n : Nat} {m m' : Dict Loc Loc} (e : MemoExt m m') : uncopied n m' ≤ uncopied n m := by
  refine List.countP_mono_left (fun x _ hx => ?_)
  cases h : dget m x with
  | none => rfl
  | some y => rw [e x y h] at hx; cases hx

theorem uncopied_lt {n : Nat} {m : Dict Loc Loc} {l l' : Loc} (hl : l < n) (hm : dget m l = none) :
    uncopied n (dset m l l') < uncopied n m := by
  refine countP_strict (a := l) ?_ (List.mem_range.2 hl) (by simp [hm]) (by simp [dget_dset_self])
  intro x hx
  rw [dget_dset] at hx
  split at hx
  · cases hx
  · exact hx

variable [DecidableEq α] {fresh : Nat → Nat} {w0 : World α} {root : Loc}

omit [DecidableEq α] in
/-- A new object is made and put in the memo. -/
theorem DeepInv.enter {w : World α} {memo : Dict Loc Loc} {opened : Loc → Prop} (I : DeepInv fresh w0 root w memo opened)
    {l : Loc} (hr : Reaches w0.heap root l) (hm : dget memo l = none) {o : ModObj α} (ho : w0.heap[l]? = some o) :
    DeepInv fresh w0 root { w with heap := w.heap ++ [⟨o.cls, [], w.nextId + 1, o.isInit, copyTrace fresh o.trace⟩],
                                   nextId := w.nextId + 1 }
      (dset memo l w.heap.length) (fun a => opened a ∨ a = l) := by
  have hlen := I.len
  have hext : MemoExt memo (dset memo l w.heap.length) := by
    intro a b hab
    rw [dget_dset]
    split
    · next e => subst e; rw [hm] at hab; cases hab
    · exact hab
  constructor
  · simp only [List.length_append, List.length_singleton]; omega
  · intro j hj
    simp only
    rw [List.getElem?_append_left (by omega), I.old j hj]
  · exact I.jax
  · exact I.stack
  · simp only [List.length_append, List.length_singleton, I.ids]; omega
  · intro a b hab
    simp only [List.length_append, List.length_singleton]
    rw [dget_dset] at hab
    split at hab
    · cases hab; exact ⟨hlen, Nat.lt_succ_self _⟩
    · exact ⟨(I.range a b hab).1, Nat.lt_succ_of_lt (I.range a b hab).2⟩
  · intro a b hab
    rw [dget_dset] at hab
    split at hab
    · next e => subst e; exact hr
    · exact I.reach a b hab
  · intro a b c ha hb
    rw [dget_dset] at ha hb
    split at ha <;> split at hb
    · next e1 e2 => exact e1.symm.trans e2
    · cases ha; exact absurd (I.range b _ hb).2 (Nat.lt_irrefl _)
    · cases hb; exact absurd (I.range a _ ha).2 (Nat.lt_irrefl _)
    · exact I.inj a b c ha hb
  · intro j hj hj'
    simp only [List.length_append, List.length_singleton] at hj'
    by_cases e : j = w.heap.length
    · exact ⟨l, by rw [dget_dset_self, e]⟩
    · obtain ⟨a, ha⟩ := I.surj j hj (by omega)
      exact ⟨a, hext a j ha⟩
  · intro a b p hab hp
    rw [dget_dset] at hab
    split at hab
    · next e =>
      subst e
      cases hab
      rw [ho] at hp; cases hp
      refine ⟨[], ?_, fun h => absurd (.inr rfl) h⟩
      simp only [List.getElem?_concat_length, I.ids]
      congr 2
      omega
    · obtain ⟨as, h1, h2⟩ := I.obj a b p hab hp
      refine ⟨as, ?_, ?_⟩
      · simp only
        rw [List.getElem?_append_left (I.range a b hab).2, h1]
      · intro hn
        obtain ⟨h3, h4⟩ := h2 (fun h => hn (.inl h))
        refine ⟨h3.trans (redirect_ext hext h4).symm, ?_⟩
        intro n c hc
        have := h4 n c hc
        cases hd : dget memo c with
        | none => rw [hd] at this; cases this
        | some d => rw [hext c d hd]; rfl

omit [DecidableEq α] in
/-- The copied attributes are stored in the new object. -/
theorem DeepInv.leave {w : World α} {memo : Dict Loc Loc} {opened : Loc → Prop} {l l' : Loc} {o o' : ModObj α}
    (I : DeepInv fresh w0 root w memo (fun a => opened a ∨ a = l)) (hl : dget memo l = some l')
    (ho : w0.heap[l]? = some o) (ho' : ∃ as, o' = ⟨o.cls, as, w0.nextId + 1 + (l' - w0.heap.length), o.isInit, copyTrace fresh o.trace⟩)
    (hrefs : ∀ n b, (n, Attr.ref b) ∈ o.attrs → (dget memo b).isSome) :
    DeepInv fresh w0 root (w.setAttrs l' o' (o.attrs.map (fun x => (x.1, x.2.redirect (memoTo w0.heap.length memo)))))
      memo opened := by
  obtain ⟨as, rfl⟩ := ho'
  have hlr := I.range l l' hl
  have hlen : (w.setAttrs l' ⟨o.cls, as, w0.nextId + 1 + (l' - w0.heap.length), o.isInit, copyTrace fresh o.trace⟩ (o.attrs.map (fun x => (x.1, x.2.redirect (memoTo w0.heap.length memo))))).heap.length =
      w.heap.length := by simp [World.setAttrs]
  refine ⟨by rw [hlen]; exact I.len, ?_, I.jax, I.stack, by rw [hlen]; exact I.ids, by rw [hlen]; exact I.range, I.reach,
    I.inj, by rw [hlen]; exact I.surj, ?_⟩
  · intro j hj
    simp only [World.setAttrs]
    rw [List.getElem?_set_ne (by omega), I.old j hj]
  · intro a b p hab hp
    by_cases e : b = l'
    · subst e
      have e := I.inj a l b hab hl
      subst e
      rw [ho] at hp; cases hp
      refine ⟨_, ?_, fun _ => ⟨rfl, hrefs⟩⟩
      simp only [World.setAttrs]
      rw [List.getElem?_set_self hlr.2]
    · obtain ⟨as, h1, h2⟩ := I.obj a b p hab hp
      refine ⟨as, ?_, fun hn => h2 ?_⟩
      · simp only [World.setAttrs]
        rw [List.getElem?_set_ne (fun h => e h.symm), h1]
      · rintro (h | rfl)
        · exact hn h
        · rw [hl] at hab; cases hab; exact e rfl

omit [DecidableEq α] in
/-- Copying the attributes one after the other. -/
theorem deepCopyAttrs_spec {rec : Loc → World α → Dict Loc Loc → Option (Loc × World α × Dict Loc Loc)} {k : Nat}
    {opened : Loc → Prop}
    (hrec : ∀ (l : Loc) (w : World α) (memo : Dict Loc Loc), DeepInv fresh w0 root w memo opened → Reaches w0.heap root l →
      uncopied w0.heap.length memo < k → ∃ l' w' memo', rec l w memo = some (l', w', memo') ∧
        DeepInv fresh w0 root w' memo' opened ∧ MemoExt memo memo' ∧ dget memo' l = some l') :
    ∀ (as : List (Str × Attr α)) (w : World α) (memo : Dict Loc Loc), DeepInv fresh w0 root w memo opened →
      (∀ n b, (n, Attr.ref b) ∈ as → Reaches w0.heap root b) → uncopied w0.heap.length memo < k →
      ∃ w' memo', deepCopyAttrs rec as w memo =
          some (as.map (fun x => (x.1, x.2.redirect (memoTo w0.heap.length memo'))), w', memo') ∧
        DeepInv fresh w0 root w' memo' opened ∧ MemoExt memo memo' ∧
        ∀ n b, (n, Attr.ref b) ∈ as → (dget memo' b).isSome := by
  intro as
  induction as with
  | nil => exact fun w memo I _ _ => ⟨w, memo, rfl, I, .refl _, by simp⟩
  | cons x as ih =>
    obtain ⟨n, a⟩ := x
    intro w memo I hr hk
    cases a with
    | val v =>
      obtain ⟨w', memo', h1, h2, h3, h4⟩ := ih w memo I (fun n b h => hr n b (List.mem_cons_of_mem _ h)) hk
      refine ⟨w', memo', by simp only [deepCopyAttrs, h1]; rfl, h2, h3, ?_⟩
      intro m b hb
      rcases List.mem_cons.1 hb with h | h
      · cases h
      · exact h4 m b h
    | ref l =>
      obtain ⟨l', w1, memo1, e1, I1, x1, hl⟩ := hrec l w memo I (hr n l (by simp)) hk
      obtain ⟨w', memo', h1, h2, h3, h4⟩ := ih w1 memo1 I1 (fun n b h => hr n b (List.mem_cons_of_mem _ h))
        (Nat.lt_of_le_of_lt (uncopied_mono x1) hk)
      refine ⟨w', memo', ?_, h2, x1.trans h3, ?_⟩
      · simp only [deepCopyAttrs, e1, h1, List.map_cons, Attr.redirect, memoTo, h3 l l' hl, Option.getD_some]
      · intro m b hb
        rcases List.mem_cons.1 hb with h | h
        · cases h; rw [h3 l l' hl]; rfl
        · exact h4 m b h

omit [DecidableEq α] in
theorem deepCopyRec_spec (wf : WFHeap w0.heap) (fuel : Nat) : ∀ (opened : Loc → Prop) (l : Loc) (w : World α) (memo : Dict Loc Loc),
    DeepInv fresh w0 root w memo opened → Reaches w0.heap root l → uncopied w0.heap.length memo < fuel →
    ∃ l' w' memo', deepCopyRec fresh fuel l w memo = some (l', w', memo') ∧ DeepInv fresh w0 root w' memo' opened ∧
      MemoExt memo memo' ∧ dget memo' l = some l' := by
  induction fuel with
  | zero => intro _ l w memo _ _ h; cases h
  | succ fuel ih =>
    intro opened l w memo I hr hf
    cases hm : dget memo l with
    | some l' => exact ⟨l', w, memo, by simp only [deepCopyRec, hm], I, .refl _, hm⟩
    | none =>
      obtain ⟨p, hp⟩ := hr
      have hlt := hp.lt
      have ho := List.getElem?_eq_getElem hlt
      generalize w0.heap[l] = o at ho
      have hw : w.heap[l]? = some o := (I.old l hlt).trans ho
      have I1 := I.enter ⟨p, hp⟩ hm ho
      have hu : uncopied w0.heap.length (dset memo l w.heap.length) < fuel := by
        have := uncopied_lt (l' := w.heap.length) hlt hm
        omega
      obtain ⟨w2, memo2, h1, h2, h3, h4⟩ := deepCopyAttrs_spec (rec := deepCopyRec fresh fuel) (k := fuel)
        (fun a u m => ih (fun a => opened a ∨ a = l) a u m) o.attrs _ _ I1
        (fun n b hb => ⟨p ++ [n], hp.snoc (attrAt_of_mem wf ho hb) (wf.refs _ _ _ (attrAt_of_mem wf ho hb))⟩) hu
      have hl2 : dget memo2 l = some w.heap.length := h3 _ _ (dget_dset_self _ _ _)
      refine ⟨w.heap.length, w2.setAttrs w.heap.length ⟨o.cls, [], w.nextId + 1, o.isInit, copyTrace fresh o.trace⟩
        (o.attrs.map (fun x => (x.1, x.2.redirect (memoTo w0.heap.length memo2)))), memo2,
        by simp only [deepCopyRec, hm, hw, h1], ?_, ?_, hl2⟩
      · refine h2.leave hl2 ho ⟨[], ?_⟩ h4
        rw [I.ids]
        congr 1
        omega
      · intro a b hab
        refine h3 a b ?_
        rw [dget_dset]
        split
        · next e => subst e; rw [hm] at hab; cases hab
        · exact hab

omit [DecidableEq α] in
/-- `deepcopy` returns a copy of everything that can be reached. -/
theorem deepCopy_spec {w : World α} (wf : WFHeap w.heap) {l : Loc} (hl : l < w.heap.length) {fuel : Nat}
    (hf : w.heap.length < fuel) :
    ∃ w' f, deepCopy fresh fuel l w = (w', .ok w.heap.length) ∧ CopySpec w.heap l w w' f ∧ w'.jaxTrace = w.jaxTrace ∧
      w'.nnxStack = w.nnxStack ∧ w.nextId ≤ w'.nextId ∧
      (∀ a o, Reaches w.heap l a → w.heap[a]? = some o → ∃ o', w'.heap[f a]? = some o' ∧ o'.trace = copyTrace fresh o.trace) := by
  have I0 : DeepInv fresh w l w [] (fun _ => False) := by
    refine ⟨Nat.le_refl _, fun _ _ => rfl, rfl, rfl, by omega, ?_, ?_, ?_, ?_, ?_⟩
    · intro a b h; cases h
    · intro a b h; cases h
    · intro a b c h; cases h
    · intro j h h'; omega
    · intro a b o h; cases h
  have hu : uncopied w.heap.length [] < fuel := by
    refine Nat.lt_of_le_of_lt List.countP_le_length ?_
    rw [List.length_range]; exact hf
  obtain ⟨l', w', memo, e, I, _, hl'⟩ := deepCopyRec_spec wf fuel (fun _ => False) l w [] I0 ⟨[], .here hl⟩ hu
  have hroot : l' = w.heap.length := by
    cases fuel with
    | zero => cases hf
    | succ fuel =>
      simp only [deepCopyRec, dget, List.getElem?_eq_getElem hl] at e
      split at e
      · cases e
      · cases e; rfl
  subst hroot
  have hall : ∀ a, Reaches w.heap l a → ∃ b, dget memo a = some b := by
    rintro a ⟨p, hp⟩
    have : ∀ x, Walk w.heap x p a → (∃ b, dget memo x = some b) → ∃ b, dget memo a = some b := by
      clear hp
      induction p with
      | nil => intro x hx hb; cases hx; exact hb
      | cons n p ih =>
        intro x hx hb
        cases hx with
        | step ha hw =>
          refine ih _ hw ?_
          obtain ⟨b, hb⟩ := hb
          have hxl := attrAt_some_lt ha
          have ho := List.getElem?_eq_getElem hxl
          obtain ⟨as, _, h2⟩ := I.obj x b _ hb ho
          simp only [attrAt, ho] at ha
          have := (h2 id).2 n _ (dget_mem ha)
          exact Option.isSome_iff_exists.1 this
    exact this l hp ⟨_, hl'⟩
  refine ⟨w', memoTo w.heap.length memo, by simp only [deepCopy, e], ?_, I.jax, I.stack, by rw [I.ids]; omega, ?_⟩
  · constructor
    · constructor
      · simp only [memoTo, hl', Option.getD_some]
      · intro a b ha hb hab
        obtain ⟨c, hc⟩ := hall a ha
        obtain ⟨d, hd⟩ := hall b hb
        simp only [memoTo, hc, hd, Option.getD_some] at hab
        subst hab
        exact I.inj a b c hc hd
      · intro a o ha ho
        obtain ⟨c, hc⟩ := hall a ha
        obtain ⟨as, h1, _⟩ := I.obj a c o hc ho
        have hto : memoTo w.heap.length memo a = c := by simp only [memoTo, hc, Option.getD_some]
        rw [hto]
        exact ⟨_, h1, rfl, rfl⟩
      · intro a ha n
        obtain ⟨c, hc⟩ := hall a ha
        obtain ⟨p, hp⟩ := ha
        have ho := List.getElem?_eq_getElem hp.lt
        obtain ⟨as, h1, h2⟩ := I.obj a c _ hc ho
        have hto : memoTo w.heap.length memo a = c := by simp only [memoTo, hc, Option.getD_some]
        rw [hto]
        simp only [attrAt, ho, h1, (h2 id).1]
        exact dget_map_val (fun _ (x : Attr α) => x.redirect (memoTo w.heap.length memo)) _ n
    · exact I.len
    · exact I.old
    · intro a
      simp only [memoTo]
      cases ha : dget memo a with
      | none => exact Nat.le_refl _
      | some b => exact (I.range a b ha).1
    · intro j h1 h2
      obtain ⟨a, ha⟩ := I.surj j h1 h2
      exact ⟨a, I.reach a j ha, by simp only [memoTo, ha, Option.getD_some]⟩
    · intro j o hj ho
      have hjl := (List.getElem?_eq_some_iff.1 ho).1
      obtain ⟨a, ha⟩ := I.surj j hj hjl
      obtain ⟨p, hp⟩ := I.reach a j ha
      obtain ⟨as, h1, _⟩ := I.obj a j _ ha (List.getElem?_eq_getElem hp.lt)
      rw [ho] at h1; cases h1
      have := I.ids
      simp only
      omega
    · intro j j' o o' hj hj' ho ho' hu
      obtain ⟨a, ha⟩ := I.surj j hj (List.getElem?_eq_some_iff.1 ho).1
      obtain ⟨p, hp⟩ := I.reach a j ha
      obtain ⟨as, h1, _⟩ := I.obj a j _ ha (List.getElem?_eq_getElem hp.lt)
      rw [ho] at h1; cases h1
      obtain ⟨a', ha'⟩ := I.surj j' hj' (List.getElem?_eq_some_iff.1 ho').1
      obtain ⟨p', hp'⟩ := I.reach a' j' ha'
      obtain ⟨as', h1', _⟩ := I.obj a' j' _ ha' (List.getElem?_eq_getElem hp'.lt)
      rw [ho'] at h1'; cases h1'
      simp only at hu
      omega
    · intro j o hj ho
      obtain ⟨a, ha⟩ := I.surj j hj (List.getElem?_eq_some_iff.1 ho).1
      obtain ⟨p, hp⟩ := I.reach a j ha
      obtain ⟨as, h1, h2⟩ := I.obj a j _ ha (List.getElem?_eq_getElem hp.lt)
      rw [ho] at h1; cases h1
      simp only [(h2 id).1, DNodup, dkeys, List.map_map]
      exact wf.nodup a _ (List.getElem?_eq_getElem hp.lt)
  · intro a o ha ho
    obtain ⟨c, hc⟩ := hall a ha
    obtain ⟨as, h1, _⟩ := I.obj a c o hc ho
    have hto : memoTo w.heap.length memo a = c := by simp only [memoTo, hc, Option.getD_some]
    exact ⟨_, hto.symm ▸ h1, rfl⟩

end Nnx
