import Verif.Spec.ModuleEq
import Verif.Props.Helpers
import Verif.Props.ModulePop
import Mathlib.Data.List.Perm.Subperm
/-
C133: `==` of Modules.
-/
namespace Nnx
variable {α : Type}

/-! ### Reading -/

theorem readAll_ok {w : World α} {l : Loc} {g : Str → Attr α} {names : List Str} (hg : ∀ n ∈ names, getAttr w l n = .ok (g n)) :
    readAll w l names = .ok (names.map g) := by
  induction names with
  | nil => rfl
  | cons n rest ih =>
    simp only [readAll, hg n List.mem_cons_self, ih (fun k hk => hg k (List.mem_cons_of_mem _ hk)), List.map_cons]

theorem readAll_length {w : World α} {l : Loc} {names : List Str} {as : List (Attr α)} (h : readAll w l names = .ok as) : as.length = names.length := by
  induction names generalizing as with
  | nil => cases h; rfl
  | cons n rest ih =>
    simp only [readAll] at h
    cases hg : getAttr w l n with
    | error e => rw [hg] at h; cases h
    | ok a =>
      rw [hg] at h
      dsimp only at h
      cases hr : readAll w l rest with
      | error e => rw [hr] at h; cases h
      | ok bs => rw [hr] at h; cases h; simp [ih hr]

/-- What a field is seen as. -/
def seenAt (h : Heap α) (l : Loc) (n : Str) : Attr α :=
  match attrAt h l n with
  | some a => seen a
  | none => .val .none

theorem seenAt_of {h : Heap α} {l : Loc} {n : Str} {a : Attr α} (e : attrAt h l n = some a) : seenAt h l n = seen a := by
  simp only [seenAt, e]

theorem getAttr_seen {w : World α} {l : Loc} (hp : PlainNames w.heap l) {n : Str} {a : Attr α} (e : attrAt w.heap l n = some a)
    (hs : n ≠ py! "_module__state") : getAttr w l n = .ok (seen a) := by
  have hlt := attrAt_some_lt e
  have hl := List.getElem?_eq_getElem hlt
  have hg := e
  rw [attrAt, hl] at hg
  refine getAttr_new hl hg ?_ hs
  have := hp n a e
  simp only [moduleProperties, List.mem_cons, List.not_mem_nil, or_false, not_or]
  exact this

theorem not_state {h : Heap α} (wf : WFHeap h) {l : Loc} {n : Str} {a : Attr α} (e : attrAt h l n = some a) : n ≠ py! "_module__state" := by
  rintro rfl
  exact absurd (wf.reserved _ _ _ e) (by decide)

theorem read_fields {w : World α} {l : Loc} (hp : PlainNames w.heap l) {names : List Str}
    (hx : ∀ n ∈ names, n ≠ py! "_module__state" ∧ ∃ a, attrAt w.heap l n = some a) : readAll w l names = .ok (names.map (seenAt w.heap l)) := by
  refine readAll_ok ?_
  intro n hn
  obtain ⟨hs, a, ha⟩ := hx n hn
  rw [getAttr_seen hp ha hs, seenAt_of ha]

theorem zip_map_self {A B : Type} (g : A → B) (l : List A) : l.zip (l.map g) = l.map fun n => (n, g n) := by
  induction l with
  | nil => rfl
  | cons a l ih => simp [ih]

theorem mappingItems_ok {w : World α} {l : Loc} {o : ModObj α} (hl : w.heap[l]? = some o) (hn : DNodup o.attrs)
    (hs : ∀ s ∈ o.attrs, s.1 ≠ py! "_module__state") (hp : PlainNames w.heap l) :
    mappingItems w l = .ok ((py! "_module__state", .state o.uid) :: (dkeys o.attrs).map fun n => (n, .attr (seenAt w.heap l n))) := by
  have : readAll w l (dkeys o.attrs) = .ok ((dkeys o.attrs).map (seenAt w.heap l)) := by
    refine read_fields hp ?_
    intro n hm
    obtain ⟨⟨k, a⟩, hka, rfl⟩ := List.mem_map.1 hm
    exact ⟨hs _ hka, a, by rw [attrAt, hl]; exact mem_dget hn hka⟩
  simp only [mappingItems, hl, this]
  rw [List.map_map, zip_map_self]
  rfl

theorem mappingItems_wf {w : World α} (wf : WFHeap w.heap) {l : Loc} {o : ModObj α} (hl : w.heap[l]? = some o) (hp : PlainNames w.heap l) :
    mappingItems w l = .ok ((py! "_module__state", .state o.uid) :: (dkeys o.attrs).map fun n => (n, .attr (seenAt w.heap l n))) := by
  refine mappingItems_ok hl (wf.nodup _ _ hl) ?_ hp
  rintro ⟨k, a⟩ hm
  exact not_state wf (l := l) (a := a) (by rw [attrAt, hl]; exact mem_dget (wf.nodup _ _ hl) hm)

/-- Dictionaries with different `ModuleState`s are different. -/
theorem compareDicts_states {E : ModuleEqs α} {rec : Loc → Loc → Except Err Bool} {u u' : Nat} (h : u ≠ u') (a b : Dict Str (MItem α)) :
    compareDicts E rec ((py! "_module__state", .state u) :: a) ((py! "_module__state", .state u') :: b) = .ok false := by
  unfold compareDicts
  split
  · simp [compareEntries, dget, compareItem, h]
  · rfl

/-! ### Comparing -/

theorem compareAttr_self {E : ModuleEqs α} (hr : ∀ v, E.is v v = true) (rec : Loc → Loc → Except Err Bool) (a : Attr α) : compareAttr E rec a a = .ok true := by
  cases a with
  | ref l => simp [compareAttr]
  | val v => simp [compareAttr, hr]

theorem compareEntries_self {E : ModuleEqs α} (hr : ∀ v, E.is v v = true) (rec : Loc → Loc → Except Err Bool) {a b : Dict Str (MItem α)}
    (h : ∀ s ∈ a, dget b s.1 = some s.2) : compareEntries E rec a b = .ok true := by
  induction a with
  | nil => rfl
  | cons s rest ih =>
    obtain ⟨k, x⟩ := s
    have hx : compareItem E rec x x = .ok true := by
      cases x with
      | state u => simp [compareItem]
      | attr a => exact compareAttr_self hr rec a
    simp only [compareEntries, h _ List.mem_cons_self, hx]
    exact ih (fun t ht => h t (List.mem_cons_of_mem _ ht))

theorem compareTuples_true {E : ModuleEqs α} {rec : Loc → Loc → Except Err Bool} {g g' : Str → Attr α} {names : List Str} :
    compareTuples E rec (names.map g) (names.map g') = .ok true ↔ ∀ n ∈ names, compareAttr E rec (g n) (g' n) = .ok true := by
  induction names with
  | nil => simp [compareTuples]
  | cons n rest ih =>
    simp only [List.map_cons, compareTuples, List.forall_mem_cons]
    cases h : compareAttr E rec (g n) (g' n) with
    | error e => simp
    | ok b =>
      cases b with
      | false => simp
      | true => simpa using ih

theorem seen_ref {a : Attr α} {l : Loc} (h : seen a = .ref l) : a = .ref l := by
  cases a with
  | ref x => exact h
  | val v => cases v <;> cases h

theorem compareAttr_seen {E : ModuleEqs α} {rec : Loc → Loc → Except Err Bool} {a b : Attr α} :
    compareAttr E rec (seen a) (seen b) = .ok true ↔ SeenEqual E (fun x y => rec x y = .ok true) a b := by
  constructor
  · intro h
    cases ha : seen a with
    | ref x =>
      obtain rfl := seen_ref ha
      cases hb : seen b with
      | ref y =>
        obtain rfl := seen_ref hb
        simp only [seen, compareAttr] at h
        split at h
        · rename_i e; subst e; exact .same x
        · exact .modules h
      | val v => rw [ha, hb] at h; exact .left hb h
    | val u =>
      cases hb : seen b with
      | ref y => obtain rfl := seen_ref hb; rw [ha] at h; exact .right ha h
      | val v =>
        rw [ha, hb] at h
        simp only [compareAttr] at h
        split at h
        · rename_i e; exact .values ha hb (.inl e)
        · exact .values ha hb (.inr h)
  · intro h
    cases h with
    | same l => simp [seen, compareAttr]
    | modules h =>
      simp only [seen, compareAttr]
      split
      · rfl
      · exact h
    | values ha hb h =>
      rw [ha, hb]
      simp only [compareAttr]
      rcases h with h | h
      · rw [if_pos h]
      · split
        · rfl
        · exact h
    | left hb h => rw [hb]; exact h
    | right ha h => rw [ha]; exact h

/-! ### C133 -/

/-- **C133, plain Modules.** `x == y` is True exactly if `x` and `y` are the same object. -/
theorem C133_identity (E : ModuleEqs α) {w : World α} {x y : Loc} {o o' : ModObj α} (hx : w.heap[x]? = some o) (hy : w.heap[y]? = some o')
    (hk : E.kind o.cls = .object) (fuel : Nat) : moduleEq E w (fuel + 1) x y = .ok (decide (x = y)) := by
  simp only [moduleEq, hx, hy, hk]

/-- **C133, other classes.** Modules of different classes are different, unless both are `Dict`s. -/
theorem C133_other_class (E : ModuleEqs α) {w : World α} {x y : Loc} {o o' : ModObj α} (hx : w.heap[x]? = some o) (hy : w.heap[y]? = some o')
    (hc : o.cls ≠ o'.cls) (hk : E.kind o.cls ≠ .mapping ∨ E.kind o'.cls ≠ .mapping) (fuel : Nat) : moduleEq E w (fuel + 1) x y = .ok false := by
  have hne : x ≠ y := by
    rintro rfl
    rw [hx] at hy
    exact hc (congrArg ModObj.cls (Option.some.inj hy))
  simp only [moduleEq, hx, hy]
  cases h1 : E.kind o.cls with
  | object => simp [hne]
  | mapping =>
    cases h2 : E.kind o'.cls with
    | object => simp [hne]
    | mapping => exact absurd h2 (hk.resolve_left (fun h => h h1))
    | dataclass f => simp [hne]
  | dataclass f => simp [Ne.symm hc, hne]

/-- **C133, Dicts, what holds.** Whatever two `Dict`s contain, and however the contents compare, `x == y` returns, and is True exactly if they are the same object. -/
theorem C133_dict_partial {E : ModuleEqs α} (hr : ∀ v, E.is v v = true) {w : World α} (wf : WFHeap w.heap) {x y : Loc} {o o' : ModObj α} (hx : w.heap[x]? = some o)
    (hy : w.heap[y]? = some o') (hk : E.kind o.cls = .mapping) (hk' : E.kind o'.cls = .mapping) (hp : PlainNames w.heap x) (hp' : PlainNames w.heap y)
    (fuel : Nat) : moduleEq E w (fuel + 1) x y = .ok (decide (x = y)) := by
  simp only [moduleEq, hx, hy, hk, hk', mappingItems_wf wf hx hp, mappingItems_wf wf hy hp']
  by_cases e : x = y
  · subst e
    rw [hx] at hy
    obtain rfl := Option.some.inj hy
    rw [compareDicts, if_pos rfl, compareEntries_self hr]
    · simp
    · intro s hs
      refine mem_dget ?_ hs
      have hn := wf.nodup _ _ hx
      simp only [DNodup, dkeys, List.map_cons, List.nodup_cons, List.map_map] at hn ⊢
      refine ⟨?_, ?_⟩
      · intro hm
        obtain ⟨⟨k, a⟩, hm, hke⟩ := List.mem_map.1 hm
        exact not_state wf (l := x) (n := k) (a := a) (by rw [attrAt, hx]; exact mem_dget (wf.nodup _ _ hx) hm) hke
      · simpa [Function.comp_def] using hn
  · rw [compareDicts_states (fun h => e (wf.uids _ _ _ _ hx hy h))]
    simp [e]

theorem plainNames_of {h : Heap α} {l : Loc} {o : ModObj α} (hl : h[l]? = some o)
    (hx : ∀ s ∈ o.attrs, s.1 ≠ py! "init" ∧ s.1 ≠ py! "is_initializing" ∧ s.1 ≠ py! "apply") : PlainNames h l := by
  intro n a e
  rw [attrAt, hl] at e
  exact hx _ (dget_mem e)

/-- **C133 is false of the code for Dicts.** Although `Dict` is a Mapping, two `Dict`s made from the same items, which have the same values for all the keys, are
never equal. -/
theorem C133_same_contents [DecidableEq α] (E : ModuleEqs α) (hk : E.kind cDictModule = .mapping) {items : Dict Str (Attr α)} (hn : DNodup items)
    (hx : ∀ s ∈ items, s.1 ≠ py! "_module__state" ∧ s.1 ≠ py! "init" ∧ s.1 ≠ py! "is_initializing" ∧ s.1 ≠ py! "apply" ∧ GoodAttr s.2) (w : World α) (fuel : Nat) :
    ∃ w1 w2 x y, dictNew items w = (w1, .ok x) ∧ dictNew items w1 = (w2, .ok y) ∧
      (∀ s ∈ items, dictGet w2 x s.1 = .ok (seen s.2) ∧ dictGet w2 y s.1 = .ok (seen s.2)) ∧ moduleEq E w2 (fuel + 1) x y = .ok false := by
  have hx' : ∀ s ∈ items, s.1 ≠ py! "_module__state" ∧ GoodAttr s.2 := fun s hs => ⟨(hx s hs).1, (hx s hs).2.2.2.2⟩
  have key : ∀ (w2 : World α) (x y : Loc) (o o' : ModObj α), w2.heap[x]? = some o → w2.heap[y]? = some o' → o.attrs = items → o'.attrs = items →
      o.cls = cDictModule → o'.cls = cDictModule → o.uid ≠ o'.uid →
      (∀ s ∈ items, dictGet w2 x s.1 = .ok (seen s.2) ∧ dictGet w2 y s.1 = .ok (seen s.2)) ∧ moduleEq E w2 (fuel + 1) x y = .ok false := by
    intro w2 x y o o' h1 h2 e1 e2 c1 c2 hu
    subst e1
    have hp1 : PlainNames w2.heap x := plainNames_of h1 (fun s hs => ⟨(hx s hs).2.1, (hx s hs).2.2.1, (hx s hs).2.2.2.1⟩)
    have hp2 : PlainNames w2.heap y := plainNames_of h2 (fun s hs => by rw [e2] at hs; exact ⟨(hx s hs).2.1, (hx s hs).2.2.1, (hx s hs).2.2.2.1⟩)
    refine ⟨?_, ?_⟩
    · rintro ⟨k, a⟩ hm
      exact ⟨getAttr_seen hp1 (by rw [attrAt, h1]; exact mem_dget hn hm) (hx _ hm).1,
        getAttr_seen hp2 (by rw [attrAt, h2]; simp only [e2]; exact mem_dget hn hm) (hx _ hm).1⟩
    · simp only [moduleEq, h1, h2, c1, c2, hk]
      rw [mappingItems_ok h1 hn (fun s hs => (hx s hs).1) hp1, mappingItems_ok h2 (by rw [e2]; exact hn) (by rw [e2]; exact fun s hs => (hx s hs).1) hp2]
      exact compareDicts_states hu _ _
  refine ⟨_, _, _, _, dictNew_eq hn hx' w, dictNew_eq hn hx' _, ?_⟩
  refine key _ _ _ ⟨cDictModule, items, w.nextId + 1, false, w.curTrace⟩ ⟨cDictModule, items, w.nextId + 1 + 1, false, w.curTrace⟩ ?_ ?_ rfl rfl rfl rfl (by simp)
  · simp
  · simp [newModule, World.curTrace]

/-- **C133, Dicts and dictionaries.** A `Dict` is never equal to a plain dictionary that has no key "_module__state", not even to one with its own items. -/
theorem C133_plain_dict (E : ModuleEqs α) {w : World α} (wf : WFHeap w.heap) {l : Loc} (hl : l < w.heap.length) (hp : PlainNames w.heap l)
    {other : Dict Str (Attr α)} (ho : py! "_module__state" ∉ dkeys other) (fuel : Nat) : mappingEqDict E w fuel l other = .ok false := by
  simp only [mappingEqDict, mappingItems_wf wf (List.getElem?_eq_getElem hl) hp, compareDicts]
  split
  · have : dget (other.map fun s => (s.1, MItem.attr s.2)) (py! "_module__state") = none :=
      dget_eq_none.2 (by simpa [dkeys, List.map_map, Function.comp_def] using ho)
    simp only [compareEntries, this]
  · rfl

/-- **C133, dataclasses.** `x == y` for Modules of one dataclass is True exactly if all the fields are seen as equal: containers count as their values, whatever
their class and metadata, and attributes that are not fields do not count. -/
theorem C133_dataclass (E : ModuleEqs α) {w : World α} (wf : WFHeap w.heap) {x y : Loc} {o o' : ModObj α} (hx : w.heap[x]? = some o)
    (hy : w.heap[y]? = some o') {fields : List Str} (hc : o'.cls = o.cls) (hk : E.kind o.cls = .dataclass fields) (hp : PlainNames w.heap x)
    (hp' : PlainNames w.heap y) (hf : ∀ n ∈ fields, (∃ a, attrAt w.heap x n = some a) ∧ ∃ b, attrAt w.heap y n = some b) (fuel : Nat) :
    moduleEq E w (fuel + 1) x y = .ok true ↔ ∀ n ∈ fields, ∀ a b, attrAt w.heap x n = some a → attrAt w.heap y n = some b →
      SeenEqual E (fun k k' => moduleEq E w fuel k k' = .ok true) a b := by
  have h1 : readAll w x fields = .ok (fields.map (seenAt w.heap x)) :=
    read_fields hp (fun n hn => ⟨not_state wf (hf n hn).1.choose_spec, (hf n hn).1⟩)
  have h2 : readAll w y fields = .ok (fields.map (seenAt w.heap y)) :=
    read_fields hp' (fun n hn => ⟨not_state wf (hf n hn).2.choose_spec, (hf n hn).2⟩)
  simp only [moduleEq, hx, hy, hk, h1, h2]
  rw [if_pos hc, compareTuples_true]
  constructor
  · intro h n hn a b ha hb
    have := h n hn
    rw [seenAt_of ha, seenAt_of hb] at this
    exact compareAttr_seen.1 this
  · intro h n hn
    obtain ⟨⟨a, ha⟩, b, hb⟩ := hf n hn
    rw [seenAt_of ha, seenAt_of hb]
    exact compareAttr_seen.2 (h n hn a b ha hb)

/-! ### Clones -/

theorem nodup_le_of_lt {n : Nat} {L : List Nat} (hn : L.Nodup) (hl : ∀ x ∈ L, x < n) : L.length ≤ n := by
  have := List.subperm_of_subset (l₂ := List.range n) hn (fun x hx => List.mem_range.2 (hl x hx))
  simpa using this.length_le

/-- A Module and its counterpart below a clone are equal; `L` are the Modules on the way. -/
theorem eq_counterpart {E : ModuleEqs α} (hr : ∀ v, E.is v v = true) {w w' : World α} (wf : WFHeap w.heap) {m : Loc} {f : Loc → Loc}
    (wf' : WFHeap w'.heap) (iso : GraphIso w.heap m w'.heap (f m) f) (hold : ∀ j : Nat, j < w.heap.length → w'.heap[j]? = w.heap[j]?)
    (hac : Acyclic w.heap m) (hd : AllDataclasses E w.heap m) (fuel : Nat) :
    ∀ (a : Loc) (L : List Loc), Reaches w.heap m a → L.Nodup → (∀ x ∈ L, Reaches w.heap m x ∧ x ≠ a ∧ Reaches w.heap x a) →
      w.heap.length ≤ fuel + L.length → moduleEq E w' fuel a (f a) = .ok true := by
  induction fuel with
  | zero =>
    intro a L ha hn hL hlen
    exfalso
    have := nodup_le_of_lt (n := w.heap.length) (L := a :: L) (List.nodup_cons.2 ⟨fun h => (hL a h).2.1 rfl, hn⟩) (by
      intro x hx
      rcases List.mem_cons.1 hx with rfl | hx
      · obtain ⟨p, hp⟩ := ha; exact hp.lt
      · obtain ⟨p, hp⟩ := (hL x hx).1; exact hp.lt)
    simp only [List.length_cons] at this
    omega
  | succ fuel ih =>
    intro a L ha hn hL hlen
    have hlt : a < w.heap.length := by obtain ⟨p, hp⟩ := ha; exact hp.lt
    have ho := List.getElem?_eq_getElem hlt
    obtain ⟨hp, fields, hk, hfs⟩ := hd a _ ha ho
    obtain ⟨o', ho', hcls, _⟩ := iso.obj a _ ha ho
    have hat : ∀ n, attrAt w'.heap a n = attrAt w.heap a n := by
      intro n; simp only [attrAt, hold a hlt]
    have hp1 : PlainNames w'.heap a := by
      intro n x e; rw [hat] at e; exact hp n x e
    have hp2 : PlainNames w'.heap (f a) := by
      intro n x e
      rw [iso.attr a ha n] at e
      cases h : attrAt w.heap a n with
      | none => rw [h] at e; cases e
      | some b => exact hp n b h
    rw [C133_dataclass E wf' ((hold a hlt).trans ho) ho' hcls hk hp1 hp2 (by
      intro n hn
      obtain ⟨x, hx⟩ := hfs n hn
      exact ⟨⟨x, (hat n).trans hx⟩, _, by rw [iso.attr a ha n, hx]; rfl⟩)]
    intro n hnf x y hx hy
    rw [hat] at hx
    rw [iso.attr a ha n, hx] at hy
    cases hy
    cases x with
    | val v =>
      cases hs : seen (.val v : Attr α) with
      | ref l => exact absurd (seen_ref hs) (by simp)
      | val u => exact .values hs hs (.inl (hr u))
    | ref b =>
      refine .modules (ih b (a :: L) ?_ ?_ ?_ ?_)
      · obtain ⟨p, hp⟩ := ha
        exact ⟨_, hp.snoc hx (wf.refs _ _ _ hx)⟩
      · exact List.nodup_cons.2 ⟨fun h => (hL a h).2.1 rfl, hn⟩
      · intro z hz
        have hstep : Walk w.heap a [n] b := .step hx (.here (wf.refs _ _ _ hx))
        have hz' : Reaches w.heap m z ∧ Reaches w.heap z a := by
          rcases List.mem_cons.1 hz with rfl | hz
          · exact ⟨ha, [], .here hlt⟩
          · exact ⟨(hL z hz).1, (hL z hz).2.2⟩
        obtain ⟨hmz, q, hq⟩ := hz'
        refine ⟨hmz, ?_, _, hq.append hstep⟩
        rintro rfl
        have := hac z hmz _ (hq.append hstep)
        simp at this
      · simp only [List.length_cons]; omega

variable [DecidableEq α]

/-- **C133, clones of dataclasses.** If all the Modules that can be reached from `m` are dataclasses, without cycles, then `m == m.clone()` is True. -/
theorem C133_clone {E : ModuleEqs α} (hr : ∀ v, E.is v v = true) {w : World α} (wf : WFWorld w) {m : Loc} (hm : m < w.heap.length)
    (hac : Acyclic w.heap m) (hd : AllDataclasses E w.heap m) {fuel : Nat} (hf : w.heap.length < fuel) {limit : Nat} (hl : w.heap.length ≤ limit) :
    ∃ w' c, cloneModule fuel m w = (w', .ok c) ∧ c ≠ m ∧ moduleEq E w' limit m c = .ok true := by
  obtain ⟨w', f, hc, sp⟩ := clone_spec wf.heap hm hf
  have wf' := (confined_clone wf (region_closed wf []) hm hc).1.wf
  have hroot := sp.iso.root
  refine ⟨w', _, hc, Nat.ne_of_gt hm, ?_⟩
  rw [← hroot]
  exact eq_counterpart hr wf.heap wf'.heap (hroot ▸ sp.iso) sp.old hac hd limit m [] ⟨[], .here hm⟩ List.nodup_nil (by simp) (by simpa using hl)

/-- **C133, clones of plain Modules.** A plain Module and its clone are different. -/
theorem C133_clone_plain (E : ModuleEqs α) {w : World α} (wf : WFWorld w) {m : Loc} {o : ModObj α} (ho : w.heap[m]? = some o) (hk : E.kind o.cls = .object)
    {fuel : Nat} (hf : w.heap.length < fuel) (limit : Nat) :
    ∃ w' c, cloneModule fuel m w = (w', .ok c) ∧ SameGraph w.heap m w'.heap c ∧ moduleEq E w' (limit + 1) m c = .ok false := by
  have hm : m < w.heap.length := (List.getElem?_eq_some_iff.1 ho).1
  obtain ⟨w', f, hc, sp⟩ := clone_spec wf.heap hm hf
  obtain ⟨o', ho', _⟩ := sp.iso.obj m o ⟨[], .here hm⟩ ho
  rw [sp.iso.root] at ho'
  refine ⟨w', _, hc, sp.iso.sameGraph wf.heap hm, ?_⟩
  rw [C133_identity E ((sp.old m hm).trans ho) ho' hk]
  have : ¬ m = w.heap.length := Nat.ne_of_lt hm
  simp [this]

/-! ### Examples -/

/-- Nets and blocks are dataclasses; values are compared, and comparing two containers raises. -/
def exEqs : ModuleEqs Nat where
  kind c := if c = exCls (py! "Net") then .dataclass [py! "w", py! "a", py! "b"] else if c = exCls (py! "Block") then .dataclass [py! "w", py! "k"]
    else if c = cDictModule then .mapping else .object
  is u v := decide (u = v)
  eq u v := match u, v with
    | .data _ a, .data _ b => .ok (decide (a = b))
    | _, _ => .error .valueError
  mixed _ _ := .ok false

def exEqWorld : World Nat := ⟨exShared, 9, 0, []⟩

theorem exEqWorld_wf : WFWorld exEqWorld := by
  refine ⟨exShared_wf, ?_⟩
  intro l o ho
  have := List.mem_of_getElem? ho
  simp only [exEqWorld, exShared, List.mem_cons, List.not_mem_nil, or_false] at this ⊢
  rcases this with rfl | rfl <;> simp

theorem exShared_dataclasses : AllDataclasses exEqs exShared 0 := by
  intro a o _ ho
  match a, ho with
  | 0, ho =>
    cases ho
    refine ⟨plainNames_of (l := 0) rfl (by decide), [py! "w", py! "a", py! "b"], by decide, ?_⟩
    intro n hn
    simp only [List.mem_cons, List.not_mem_nil, or_false] at hn
    rcases hn with rfl | rfl | rfl
    · exact ⟨_, rfl⟩
    · exact ⟨_, rfl⟩
    · exact ⟨_, rfl⟩
  | 1, ho =>
    cases ho
    refine ⟨plainNames_of (l := 1) rfl (by decide), [py! "w", py! "k"], by decide, ?_⟩
    intro n hn
    simp only [List.mem_cons, List.not_mem_nil, or_false] at hn
    rcases hn with rfl | rfl
    · exact ⟨_, rfl⟩
    · exact ⟨_, rfl⟩

/-- A net with a shared block equals its clone. -/
example : ∃ w' c, cloneModule 3 0 exEqWorld = (w', .ok c) ∧ c ≠ 0 ∧ moduleEq exEqs w' 2 0 c = .ok true :=
  C133_clone (fun v => by simp [exEqs]) exEqWorld_wf (by decide) exShared_acyclic exShared_dataclasses (by decide) (by decide)

/-- Parameters with the same value but another sharding are equal as fields; attributes that are not fields do not count; other values do. -/
example : ∃ w : World Nat, w.heap = [⟨exCls (py! "Block"), [(py! "w", .val (.cont cParam (.data cTuple 5) [])), (py! "k", .val (.data cTuple 3))], 1, false, ⟨0, 0⟩⟩,
      ⟨exCls (py! "Block"), [(py! "w", .val (.cont cParam (.data cTuple 5) [(py! "sharding", .str (py! "x"))])), (py! "k", .val (.data cTuple 3)),
        (py! "extra", .ref 0)], 2, true, ⟨0, 0⟩⟩,
      ⟨exCls (py! "Block"), [(py! "w", .val (.cont cParam (.data cTuple 6) [])), (py! "k", .val (.data cTuple 3))], 3, false, ⟨0, 0⟩⟩] ∧
    moduleEq exEqs w 1 0 1 = .ok true ∧ moduleEq exEqs w 1 0 2 = .ok false :=
  ⟨⟨_, 3, 0, []⟩, rfl, by decide, by decide⟩

/-- Two Dicts with the same items, one of which is an array. -/
example : ∃ w1 w2 x y, dictNew [(py! "a", .val (.data cTuple 1)), (py! "b", .ref 0)] exEqWorld = (w1, .ok x) ∧
      dictNew [(py! "a", .val (.data cTuple 1)), (py! "b", .ref 0)] w1 = (w2, .ok y) ∧ moduleEq exEqs w2 1 x y = .ok false ∧ moduleEq exEqs w2 1 x x = .ok true := by
  refine ⟨_, _, _, _, rfl, rfl, by decide, by decide⟩

example : mappingEqDict exEqs ⟨[⟨cDictModule, [(py! "a", .val (.data cTuple 1))], 1, false, ⟨0, 0⟩⟩], 1, 0, []⟩ 1 0 [(py! "a", .val (.data cTuple 1))] = .ok false := by
  decide

end Nnx
