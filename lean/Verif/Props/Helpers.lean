import Verif.Proofs.Helpers
/-
C66: a Sequence applies its layers in order. C67: Sequence and Dict hold what they were given.
-/
namespace Nnx
variable {α : Type} [DecidableEq α]

/-! ### C67 -/

/-- The result of building a Sequence. -/
theorem sequenceNew_eq (I : PyInts α) {xs : List (Attr α)} (hx : ∀ x ∈ xs, GoodAttr x) (w : World α) :
    sequenceNew I xs w = ({ (newModule cSequence w).1 with
      heap := w.heap ++ [⟨cSequence, sequenceSteps I xs, w.nextId + 1, false, w.curTrace⟩] }, .ok w.heap.length) := by
  simp only [sequenceNew]
  rw [new_setAttrAll cSequence w (sequenceSteps_nodup I xs) (sequenceSteps_good I hx)]
  rfl

omit [DecidableEq α] in
theorem sequenceLen_of {I : PyInts α} {xs : List (Attr α)} {w : World α} {l : Loc} {o : ModObj α}
    (hl : w.heap[l]? = some o) (ho : o.attrs = sequenceSteps I xs) :
    sequenceLen I w l = .ok ((xs.length - 1) + 1) := by
  have := dget_sequenceSteps_length I xs
  rw [← ho] at this
  rw [sequenceLen, getAttr_new hl this (by decide) (by decide)]
  simp only [seen, I.toNat_ofNat]

omit [DecidableEq α] in
theorem sequenceItem_of {I : PyInts α} {xs : List (Attr α)} {w : World α} {l : Loc} {o : ModObj α}
    (hl : w.heap[l]? = some o) (ho : o.attrs = sequenceSteps I xs) {i : Nat} {x : Attr α} (hi : xs[i]? = some x) :
    getAttr w l (natStr i) = .ok (seen x) := by
  have := dget_sequenceSteps I hi
  rw [← ho] at this
  exact getAttr_new hl this (natStr_not_property i) (natStr_ne_cons (by decide))

/-- C67 (Sequence). For every non-empty list of Modules, plain values and containers, `Sequence(xs)` succeeds and makes
one new object, leaving every other object as it was. Its length is `len(xs)`, `seq[i]` is the `i`-th item (the value of
a container) for every `0 ≤ i < len(xs)`, `seq[i]` is an IndexError for every `i ≥ len(xs)`, and iterating gives the
items in order. -/
theorem C67_sequence (I : PyInts α) {xs : List (Attr α)} (hne : xs ≠ []) (hx : ∀ x ∈ xs, GoodAttr x) (w : World α) :
    ∃ w' l, sequenceNew I xs w = (w', .ok l) ∧ w.heap[l]? = none ∧ w'.heap.length = w.heap.length + 1 ∧
      (∀ k, k ≠ l → w'.heap[k]? = w.heap[k]?) ∧
      sequenceLen I w' l = .ok xs.length ∧
      (∀ (i : Nat) (x : Attr α), xs[i]? = some x → sequenceGet I w' l i = .ok (seen x)) ∧
      (∀ i : Int, i ≥ xs.length → sequenceGet I w' l i = .error .indexError) ∧
      sequenceIter I w' l = .ok (xs.map seen) := by
  refine ⟨_, _, sequenceNew_eq I hx w, by simp, by simp, ?_, ?_⟩
  · intro k hk
    simp only
    by_cases h : k < w.heap.length
    · rw [List.getElem?_append_left h]
    · have : w.heap.length < k := Nat.lt_of_le_of_ne (Nat.le_of_not_lt h) (Ne.symm hk)
      rw [List.getElem?_eq_none (by simp; omega), List.getElem?_eq_none (by omega)]
  · generalize hw : ({ (newModule cSequence w).1 with
      heap := w.heap ++ [⟨cSequence, sequenceSteps I xs, w.nextId + 1, false, w.curTrace⟩] } : World α) = w'
    have hl : w'.heap[w.heap.length]? = some ⟨cSequence, sequenceSteps I xs, w.nextId + 1, false, w.curTrace⟩ := by
      rw [← hw]; simp
    have hlen : sequenceLen I w' w.heap.length = .ok xs.length := by
      rw [sequenceLen_of hl rfl]
      have : xs.length ≠ 0 := by simpa using hne
      congr 1; omega
    refine ⟨hlen, ?_, ?_, ?_⟩
    · intro i x hi
      have hlt := (List.getElem?_eq_some_iff.1 hi).1
      rw [sequenceGet, hlen]
      simp only
      rw [if_neg (by omega)]
      exact sequenceItem_of hl rfl hi
    · intro i hi
      rw [sequenceGet, hlen]
      simp only
      rw [if_pos hi]
    · rw [sequenceIter, hlen]
      simp only
      have hmap : ∀ i ∈ List.range xs.length, getAttr w' w.heap.length (natStr i) =
          .ok (seen (xs.getD i (.ref 0))) := by
        intro i hi
        have hlt := List.mem_range.1 hi
        exact sequenceItem_of hl rfl (by simp [hlt])
      rw [mapE_ok hmap]
      congr 1
      apply List.ext_getElem
      · simp
      · intro i h1 h2
        have : i < xs.length := by simpa using h2
        simp [this]

/-- C67, the negative indices: not counted from the end, they are an AttributeError. -/
theorem C67_negative (I : PyInts α) {xs : List (Attr α)} (hx : ∀ x ∈ xs, GoodAttr x) (w : World α) (n : Nat) :
    ∃ w' l, sequenceNew I xs w = (w', .ok l) ∧ sequenceGet I w' l (.negSucc n) = .error .attributeError := by
  refine ⟨_, _, sequenceNew_eq I hx w, ?_⟩
  rw [sequenceGet, sequenceLen_of (xs := xs) (o := ⟨cSequence, sequenceSteps I xs, w.nextId + 1, false, w.curTrace⟩)
    (by simp) rfl]
  simp only
  rw [if_neg (by omega)]
  apply getAttr_missing (o := ⟨cSequence, sequenceSteps I xs, w.nextId + 1, false, w.curTrace⟩) (by simp)
  · apply dget_sequenceSteps_none
    · intro h; cases h
    · intro i _ h
      exact natStr_ne_cons (by decide) h.symm
  · intro h; simp [moduleProperties, intStr] at h
  · intro h; cases h
  · intro h; cases h
  · simp [intStr]

omit [DecidableEq α] in
/-- C67, keys below the length: `seq[key]` reads the attribute whose name is the decimal notation of the key, so a negative key finds
what the program assigned under that name, as with `setattr(seq, "-1", x)`. -/
theorem C67_key_name (I : PyInts α) (w : World α) (l : Loc) (n : Nat) (hn : sequenceLen I w l = .ok n) (key : Int) (h : key < n) :
    sequenceGet I w l key = getAttr w l (toString key).toList := by
  have he : intStr key = (toString key).toList := by
    cases key with
    | ofNat m =>
      simp only [intStr, natStr]
      rw [show toString (Int.ofNat m) = toString m from rfl, Nat.toString_eq_repr, Nat.repr_eq_ofList_toDigits]
      simp
    | negSucc m =>
      simp only [intStr, natStr]
      rw [show toString (Int.negSucc m) = "-" ++ toString (m + 1) from rfl, Nat.toString_eq_repr, Nat.repr_eq_ofList_toDigits]
      simp
  rw [sequenceGet, hn, he]
  simp only
  rw [if_neg (by omega)]

example : (toString (-12 : Int)).toList = py! "-12" := by decide +kernel

/-- C67 is false for the empty list: `Sequence([])` has length 1 and iterating over it is an AttributeError. -/
theorem C67_empty (I : PyInts α) (w : World α) :
    ∃ w' l, sequenceNew I [] w = (w', .ok l) ∧ sequenceLen I w' l = .ok 1 ∧
      sequenceIter I w' l = .error .attributeError ∧ sequenceGet I w' l 0 = .error .attributeError := by
  have hl : ({ (newModule cSequence w).1 with
      heap := w.heap ++ [⟨cSequence, sequenceSteps I [], w.nextId + 1, false, w.curTrace⟩] } : World α).heap[w.heap.length]?
        = some ⟨cSequence, sequenceSteps I [], w.nextId + 1, false, w.curTrace⟩ := by simp
  have hlen := sequenceLen_of (xs := []) hl rfl
  have hget := getAttr_missing (name := natStr 0) hl (dget_sequenceSteps_none I (by decide) (by simp))
    (by decide) (by decide) (fun h => by cases h) (by decide)
  refine ⟨_, _, sequenceNew_eq I (by simp) w, hlen, ?_, ?_⟩
  · rw [sequenceIter, hlen]
    simp only [List.length_nil, Nat.zero_sub, Nat.zero_add, List.range_one, sequenceIter.mapE, hget]
  · rw [sequenceGet, hlen]
    simp only
    rw [if_neg (by simp)]
    exact hget

/-- The result of building a Dict. -/
theorem dictNew_eq {items : Dict Str (Attr α)} (hn : DNodup items)
    (hx : ∀ s ∈ items, s.1 ≠ py! "_module__state" ∧ GoodAttr s.2) (w : World α) :
    dictNew items w = ({ (newModule cDictModule w).1 with
      heap := w.heap ++ [⟨cDictModule, items, w.nextId + 1, false, w.curTrace⟩] }, .ok w.heap.length) := by
  simp only [dictNew]
  rw [new_setAttrAll cDictModule w hn hx]
  rfl

/-- C67 (Dict), the part that holds of the code: `Dict(items)` makes one new object, leaving every other as it was;
`d[key]` is the value given for that key (the value of a container), and `key in d`, for every key given, unless it is
called like a property of Module. Iterating gives every given key once, in order, but also "_module__state", so the
length is one more. -/
theorem C67_dict_partial {items : Dict Str (Attr α)} (hn : DNodup items)
    (hx : ∀ s ∈ items, s.1 ≠ py! "_module__state" ∧ GoodAttr s.2) (w : World α) :
    ∃ w' l, dictNew items w = (w', .ok l) ∧ w.heap[l]? = none ∧ (∀ k, k ≠ l → w'.heap[k]? = w.heap[k]?) ∧
      (∀ key a, (key, a) ∈ items → key ≠ py! "init" → key ≠ py! "is_initializing" → key ≠ py! "apply" →
        dictGet w' l key = .ok (seen a) ∧ dictContains w' l key = .ok true) ∧
      dictKeys w' l = .ok (py! "_module__state" :: items.map (·.1)) ∧ dictLen w' l = .ok (items.length + 1) := by
  refine ⟨_, _, dictNew_eq hn hx w, by simp, ?_, ?_, ?_⟩
  · intro k hk
    simp only
    by_cases h : k < w.heap.length
    · rw [List.getElem?_append_left h]
    · have : w.heap.length < k := Nat.lt_of_le_of_ne (Nat.le_of_not_lt h) (Ne.symm hk)
      rw [List.getElem?_eq_none (by simp; omega), List.getElem?_eq_none (by omega)]
  · intro key a hm h1 h2 h3
    have : dictGet ({ (newModule cDictModule w).1 with
      heap := w.heap ++ [⟨cDictModule, items, w.nextId + 1, false, w.curTrace⟩] }) w.heap.length key = .ok (seen a) := by
      apply getAttr_new (o := ⟨cDictModule, items, w.nextId + 1, false, w.curTrace⟩) (by simp) (mem_dget hn hm)
      · simp [moduleProperties, h1, h2, h3]
      · exact (hx _ hm).1
    exact ⟨this, by rw [dictContains, this]⟩
  · simp [dictKeys, dictLen, dkeys]

/-- C67 is false for Dict: no Dict lists exactly the keys it was given. -/
theorem C67_dict_keys_false {items : Dict Str (Attr α)} (hn : DNodup items)
    (hx : ∀ s ∈ items, s.1 ≠ py! "_module__state" ∧ GoodAttr s.2) (w : World α) :
    ∃ w' l, dictNew items w = (w', .ok l) ∧ dictLen w' l ≠ .ok items.length ∧
      dictKeys w' l ≠ .ok (items.map (·.1)) := by
  obtain ⟨w', l, h1, _, _, _, h2, h3⟩ := C67_dict_partial hn hx w
  refine ⟨w', l, h1, ?_, ?_⟩
  · rw [h3]; intro h
    have := Except.ok.inj h
    omega
  · rw [h2]; intro h
    have := congrArg List.length (Except.ok.inj h)
    simp at this

/-- C67 (Dict): asking whether a missing key is in the Dict is an AttributeError instead of False. -/
theorem C67_dict_missing {items : Dict Str (Attr α)} (hn : DNodup items)
    (hx : ∀ s ∈ items, s.1 ≠ py! "_module__state" ∧ GoodAttr s.2) (w : World α) {key : Str}
    (hk : key ∉ items.map (·.1)) (hr : key ≠ py! "_module__state" ∧ key ∉ moduleProperties ∧ key ∉ cDictModule.members ∧ key.head? ≠ some '_') :
    ∃ w' l, dictNew items w = (w', .ok l) ∧ dictGet w' l key = .error .attributeError ∧
      dictContains w' l key = .error .attributeError := by
  have : dictGet ({ (newModule cDictModule w).1 with
      heap := w.heap ++ [⟨cDictModule, items, w.nextId + 1, false, w.curTrace⟩] }) w.heap.length key =
        .error .attributeError := by
    apply getAttr_missing (o := ⟨cDictModule, items, w.nextId + 1, false, w.curTrace⟩) (by simp)
      (dget_eq_none.2 hk) hr.2.1 hr.1 hr.2.2.1 hr.2.2.2
  exact ⟨_, _, dictNew_eq hn hx w, this, by rw [dictContains, this]⟩

/-! ### C66 -/

/-- C66. For every non-empty list of layers, arguments, keyword arguments and context, in every world: calling the
Sequence made of these layers runs the pipeline of its items. Assumed of the layers: they do not change the Sequence
itself. -/
theorem C66_call {V : Type} (I : PyInts α) (layerOf : Attr α → Layer (World α) V) (noneV : V) {xs : List (Attr α)}
    (hne : xs ≠ []) (hx : ∀ x ∈ xs, GoodAttr x) (w : World α) (args : List V) (ctx : Option V) (kwargs : Dict Str V) :
    ∃ w' l, sequenceNew I xs w = (w', .ok l) ∧
      ∀ w1 : World α, w1.heap[l]? = w'.heap[l]? →
        (∀ x ∈ xs, ∀ a k (v : World α), v.heap[l]? = w'.heap[l]? →
          ((layerOf (seen x)).run a k v).1.heap[l]? = w'.heap[l]?) →
        ∃ w2 r, sequenceCall I layerOf noneV l args ctx kwargs w1 = (w2, r) ∧
          Pipeline ctx (xs.map fun x => layerOf (seen x)) args kwargs w1 w2 r := by
  refine ⟨_, _, sequenceNew_eq I hx w, ?_⟩
  generalize hw : ({ (newModule cSequence w).1 with
      heap := w.heap ++ [⟨cSequence, sequenceSteps I xs, w.nextId + 1, false, w.curTrace⟩] } : World α) = w'
  have hl : w'.heap[w.heap.length]? = some ⟨cSequence, sequenceSteps I xs, w.nextId + 1, false, w.curTrace⟩ := by
    rw [← hw]; simp
  intro w1 hw1 hkeep
  obtain ⟨x, xs', rfl⟩ := List.exists_cons_of_ne_nil hne
  rw [sequenceCall, sequenceLen_of (hw1.trans hl) rfl]
  simp only [List.length_cons, Nat.add_sub_cancel]
  obtain ⟨s', r, h1, h2⟩ := sequenceLoop_pipeline (V := V) (ctx := ctx)
    (fetch := fun i v => (getAttr v w.heap.length (natStr i)).map layerOf)
    (fun v => v.heap[w.heap.length]? = w'.heap[w.heap.length]?)
    (xs'.map fun x => layerOf (seen x)) (layerOf (seen x)) 0 args kwargs (.other noneV) w1 hw1
    (by
      intro j g hj s hs
      rw [← List.map_cons (f := fun x => layerOf (seen x)), List.getElem?_map] at hj
      obtain ⟨y, hy, rfl⟩ := Option.map_eq_some_iff.1 hj
      rw [Nat.zero_add, sequenceItem_of (hs.trans hl) rfl hy]
      rfl)
    (by
      intro g hg a k s hs
      rw [← List.map_cons (f := fun x => layerOf (seen x))] at hg
      obtain ⟨y, hy, rfl⟩ := List.mem_map.1 hg
      exact hkeep y hy a k s hs)
  rw [List.length_map] at h1
  exact ⟨s', r, h1, h2⟩

omit [DecidableEq α] in
theorem withCtx_same {σ V : Type} {ctx : Option V} {f : Layer σ V} {k1 k2 k1' k2' : Dict Str V}
    (h : ∀ x, dget k1 x = dget k2 x) (h1 : WithCtx ctx f k1 k1') (h2 : WithCtx ctx f k2 k2') (x : Str) :
    dget k1' x = dget k2' x := by
  by_cases ha : AcceptsCtx f
  · cases ctx with
    | none => rw [h1.2 (.inl rfl), h2.2 (.inl rfl)]; exact h x
    | some c =>
      obtain ⟨a1, b1⟩ := h1.1 c rfl ha
      obtain ⟨a2, b2⟩ := h2.1 c rfl ha
      by_cases hx : x = py! "ctx"
      · subst hx; rw [a1, a2]
      · rw [b1 x hx, b2 x hx]; exact h x
  · rw [h1.2 (.inr ha), h2.2 (.inr ha)]; exact h x

omit [DecidableEq α] in
/-- C66, the composition is unique: for layers that do not depend on the order of their keyword arguments, the pipeline
determines the final state and the result. -/
theorem C66_unique {σ V : Type} {ctx : Option V} {fs : List (Layer σ V)}
    (hext : ∀ f ∈ fs, ∀ a k k' s, (∀ x, dget k x = dget k' x) → f.run a k s = f.run a k' s)
    {a : List V} {k1 k2 : Dict Str V} (hk : ∀ x, dget k1 x = dget k2 x) {s s1 s2 : σ} {r1 r2 : Except Err (Out V)}
    (h1 : Pipeline ctx fs a k1 s s1 r1) (h2 : Pipeline ctx fs a k2 s s2 r2) : s1 = s2 ∧ r1 = r2 := by
  induction h1 generalizing k2 s2 r2 with
  | last hc hw hr =>
    cases h2 with
    | last hc' hw' hr' =>
      rw [hext _ (by simp) _ _ _ _ (withCtx_same hk hw hw')] at hr
      rw [hr] at hr'; cases hr'; exact ⟨rfl, rfl⟩
    | notCallable hc' => rw [hc] at hc'; cases hc'
  | next hc hw hr hp _ ih =>
    cases h2 with
    | next hc' hw' hr' hp' hrest' =>
      rw [hext _ (by simp) _ _ _ _ (withCtx_same hk hw hw')] at hr
      rw [hr] at hr'; cases hr'
      cases hp <;> cases hp' <;>
        exact ih (fun f hf => hext f (List.mem_cons_of_mem _ hf)) (fun _ => rfl) hrest'
    | raise hc' hw' hr' =>
      rw [hext _ (by simp) _ _ _ _ (withCtx_same hk hw hw')] at hr
      rw [hr] at hr'; cases hr'
    | notCallable hc' => rw [hc] at hc'; cases hc'
  | raise hc hw hr =>
    cases h2 with
    | next hc' hw' hr' hp' hrest' =>
      rw [hext _ (by simp) _ _ _ _ (withCtx_same hk hw hw')] at hr
      rw [hr] at hr'; cases hr'
    | raise hc' hw' hr' =>
      rw [hext _ (by simp) _ _ _ _ (withCtx_same hk hw hw')] at hr
      rw [hr] at hr'; cases hr'; exact ⟨rfl, rfl⟩
    | notCallable hc' => rw [hc] at hc'; cases hc'
  | notCallable hc =>
    cases h2 with
    | last hc' => rw [hc] at hc'; cases hc'
    | next hc' => rw [hc] at hc'; cases hc'
    | raise hc' => rw [hc] at hc'; cases hc'
    | notCallable _ => exact ⟨rfl, rfl⟩

/-! ### A concrete case -/

def exInts : PyInts Nat := ⟨id, some, fun _ => rfl⟩

/-- Module 0 returns a pair, a plain function takes two arguments and a `ctx`, Module 1 takes one. -/
def exLayer : Attr Nat → Layer (World Nat) Nat
  | .ref 0 => ⟨true, [(py! "x", .positionalOrKeyword)], fun a _ w => (w, .ok (.tup [a.sum + 1, a.sum + 2]))⟩
  | .ref _ => ⟨true, [(py! "kw", .varKeyword)], fun a kw w => (w, .ok (.other (10 * a.sum + kw.length)))⟩
  | .val _ => ⟨true, [(py! "x", .positionalOrKeyword), (py! "ctx", .keywordOnly)],
      fun a kw w => ({ w with nextId := w.nextId + 1 },
        .ok (.dict [(py! "y", a.sum + ((dget kw (py! "ctx")).getD 0))]))⟩

def exSeqWorld : World Nat := ⟨[], 0, 0, [0]⟩

def exItems : List (Attr Nat) := [.ref 0, .val (.data { name := py! "function" } 7), .ref 1]

/-- The hypotheses of C66_call and C67_sequence hold of it. -/
example : exItems ≠ [] ∧ (∀ x ∈ exItems, GoodAttr x) ∧
    (∀ x ∈ exItems, ∀ (l : Loc) a k (v : World Nat), ((exLayer (seen x)).run a k v).1.heap[l]? = v.heap[l]?) := by
  refine ⟨by decide, ?_, ?_⟩
  · intro x hx
    simp only [exItems, List.mem_cons, List.not_mem_nil, or_false] at hx
    rcases hx with rfl | rfl | rfl
    · trivial
    · exact .inl trivial
    · trivial
  · intro x hx
    simp only [exItems, List.mem_cons, List.not_mem_nil, or_false] at hx
    rcases hx with rfl | rfl | rfl <;> intro l a k v <;> rfl

/-- Calling it with 3 and ctx 100: 3 → (4, 5) → {y: 109} → 1 (no positional argument, one keyword argument). -/
example : (sequenceCall exInts exLayer 0 0 [3] (some 100) [] (sequenceNew exInts exItems exSeqWorld).1).2.toOption =
    some (.other 1) := by decide +kernel

/-- A Dict with a submodule and a container: the hypotheses of the theorems about Dict hold of it. -/
def exDictItems : Dict Str (Attr Nat) := [(py! "a", .ref 0), (py! "b", .val (.cont cNode (.data cInt 1) []))]

example : DNodup exDictItems ∧ ∀ s ∈ exDictItems, s.1 ≠ py! "_module__state" ∧ GoodAttr s.2 := by
  refine ⟨by decide, ?_⟩
  intro s hs
  simp only [exDictItems, List.mem_cons, List.not_mem_nil, or_false] at hs
  rcases hs with rfl | rfl
  · exact ⟨by decide, trivial⟩
  · exact ⟨by decide, .inr (.mk trivial (by decide) (by decide) (by decide) (fun _ h => absurd h (by decide)))⟩

end Nnx
