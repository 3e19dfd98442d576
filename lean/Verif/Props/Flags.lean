import Verif.Model.Flags
/-
C135: the flags of a Context.
-/
namespace Nnx

/-- A world that a program can reach. -/
def FlagWorld.Reachable (w : FlagWorld) : Prop := ∃ ops, FlagWorld.run {} ops = w

/-- The operation does not change a dictionary. -/
def FlagOp.NoChange : FlagOp → Prop
  | .set .. => False
  | .del .. => False
  | _ => True

namespace FlagWorld

structure Inv (w : FlagWorld) : Prop where
  ctxs : ∀ a ∈ w.ctxs, a < w.dicts.length
  held : ∀ a ∈ w.held, a < w.dicts.length
  dicts : ∀ x ∈ w.dicts, DNodup x
  defs : ∀ x ∈ w.defs, DNodup x

/-- What a step leaves alone. -/
structure Frame (w w' : FlagWorld) : Prop where
  ctxs : ∀ (c : Nat) a, w.ctxs[c]? = some a → w'.ctxs[c]? = some a
  held : ∀ (d : Nat) a, w.held[d]? = some a → w'.held[d]? = some a
  defs : ∀ (p : Nat) x, w.defs[p]? = some x → w'.defs[p]? = some x
  new : ∀ a ∈ w'.held, a ∈ w.held ∨ w.dicts.length ≤ a
  dicts : ∀ (a : Nat) x, w.dicts[a]? = some x → a ∉ w.held → w'.dicts[a]? = some x
  len : w.dicts.length ≤ w'.dicts.length

theorem append_left {X : Type} {l m : List X} {i : Nat} {x : X} (h : l[i]? = some x) : (l ++ m)[i]? = some x := by
  rw [List.getElem?_append_left (List.getElem?_eq_some_iff.1 h).1]; exact h

theorem Frame.refl (w : FlagWorld) : Frame w w :=
  ⟨fun _ _ h => h, fun _ _ h => h, fun _ _ h => h, fun _ h => .inl h, fun _ _ h _ => h, Nat.le_refl _⟩

theorem fresh_step {w : FlagWorld} (i : Inv w) {x : Dict Str Bool} (hx : DNodup x) : Inv (w.fresh x) ∧ Frame w (w.fresh x) := by
  refine ⟨⟨?_, ?_, ?_, i.defs⟩, ⟨fun _ _ h => append_left h, fun _ _ h => h, fun _ _ h => h, fun _ h => .inl h, fun _ _ h _ => append_left h, by simp [fresh]⟩⟩
  · intro a ha
    simp only [fresh, List.mem_append, List.mem_singleton, List.length_append, List.length_singleton] at ha ⊢
    rcases ha with ha | rfl
    · exact Nat.lt_succ_of_lt (i.ctxs a ha)
    · exact Nat.lt_succ_self _
  · intro a ha
    simp only [fresh, List.length_append, List.length_singleton]
    exact Nat.lt_succ_of_lt (i.held a ha)
  · intro y hy
    simp only [fresh, List.mem_append, List.mem_singleton] at hy
    rcases hy with hy | rfl
    · exact i.dicts y hy
    · exact hx

theorem share_step {w : FlagWorld} (i : Inv w) {a : Nat} (ha : a < w.dicts.length) :
    Inv { w with ctxs := w.ctxs ++ [a] } ∧ Frame w { w with ctxs := w.ctxs ++ [a] } := by
  refine ⟨⟨?_, i.held, i.dicts, i.defs⟩, ⟨fun _ _ h => append_left h, fun _ _ h => h, fun _ _ h => h, fun _ h => .inl h, fun _ _ h _ => h, Nat.le_refl _⟩⟩
  intro b hb
  rcases List.mem_append.1 hb with hb | hb
  · exact i.ctxs b hb
  · cases List.mem_singleton.1 hb; exact ha

theorem change_step {w : FlagWorld} (i : Inv w) (d : Nat) {f : Dict Str Bool → Dict Str Bool} (hf : ∀ x, DNodup x → DNodup (f x)) :
    Inv (w.change d f) ∧ Frame w (w.change d f) := by
  cases hd : w.held[d]? with
  | none => simp only [change, hd]; exact ⟨i, .refl w⟩
  | some a =>
    cases ha : w.dicts[a]? with
    | none => simp only [change, hd, ha]; exact ⟨i, .refl w⟩
    | some x =>
      simp only [change, hd, ha]
      refine ⟨⟨?_, ?_, ?_, i.defs⟩, ⟨fun _ _ h => h, fun _ _ h => h, fun _ _ h => h, fun _ h => .inl h, ?_, by simp⟩⟩
      · intro b hb; simp only [List.length_set]; exact i.ctxs b hb
      · intro b hb; simp only [List.length_set]; exact i.held b hb
      · intro y hy
        rcases List.mem_or_eq_of_mem_set hy with hy | rfl
        · exact i.dicts y hy
        · exact hf x (i.dicts x (List.mem_of_getElem? ha))
      · intro b y hb hn
        have hne : a ≠ b := fun e => hn (e ▸ List.mem_of_getElem? hd)
        show (w.dicts.set a (f x))[b]? = _
        rw [List.getElem?_set_ne hne]; exact hb

theorem step_spec {w : FlagWorld} (i : Inv w) (op : FlagOp) : Inv (w.step op) ∧ Frame w (w.step op) := by
  cases op with
  | dict items =>
    refine ⟨⟨?_, ?_, ?_, i.defs⟩, ⟨fun _ _ h => h, fun _ _ h => append_left h, fun _ _ h => h, ?_, fun _ _ h _ => append_left h, by simp [step]⟩⟩
    · intro a ha
      simp only [step, List.length_append, List.length_singleton]
      exact Nat.lt_succ_of_lt (i.ctxs a ha)
    · intro a ha
      simp only [step, List.mem_append, List.mem_singleton, List.length_append, List.length_singleton] at ha ⊢
      rcases ha with ha | rfl
      · exact Nat.lt_succ_of_lt (i.held a ha)
      · exact Nat.lt_succ_self _
    · intro y hy
      simp only [step, List.mem_append, List.mem_singleton] at hy
      rcases hy with hy | rfl
      · exact i.dicts y hy
      · exact dnodup_dofList _
    · intro a ha
      simp only [step, List.mem_append, List.mem_singleton] at ha
      rcases ha with ha | rfl
      · exact .inl ha
      · exact .inr (Nat.le_refl _)
  | set d name b => exact change_step i d fun x hx => dnodup_dset hx _ _
  | del d name => exact change_step i d fun x hx => dnodup_ddel hx _
  | context d =>
    cases d with
    | none => exact fresh_step i (by simp [DNodup])
    | some d =>
      cases hd : w.held[d]? with
      | none => simp only [step, hd]; exact ⟨i, .refl w⟩
      | some a =>
        cases ha : w.dicts[a]? with
        | none => simp only [step, hd, ha]; exact ⟨i, .refl w⟩
        | some x =>
          simp only [step, hd, ha]
          cases x with
          | nil => exact fresh_step i (by simp [DNodup])
          | cons y x => exact share_step i (List.getElem?_eq_some_iff.1 ha).1
  | copy c =>
    simp only [step]
    cases hc : w.ctxs[c]? with
    | none => exact ⟨i, .refl w⟩
    | some a => exact share_step i (i.ctxs a (List.mem_of_getElem? hc))
  | partition c =>
    simp only [step]
    cases hc : w.flags c with
    | none => exact ⟨i, .refl w⟩
    | some x =>
      refine ⟨⟨i.ctxs, i.held, i.dicts, ?_⟩, ⟨fun _ _ h => h, fun _ _ h => h, fun _ _ h => append_left h, fun _ h => .inl h, fun _ _ h _ => h, Nat.le_refl _⟩⟩
      intro y hy
      rcases List.mem_append.1 hy with hy | hy
      · exact i.defs y hy
      · cases List.mem_singleton.1 hy
        simp only [flags, Option.bind_eq_some_iff] at hc
        obtain ⟨a, _, hx⟩ := hc
        exact i.dicts _ (List.mem_of_getElem? hx)
  | merge p =>
    simp only [step]
    cases hp : w.defs[p]? with
    | none => exact ⟨i, .refl w⟩
    | some items => exact fresh_step i (dnodup_dofList _)

theorem run_inv {w : FlagWorld} (i : Inv w) (ops : List FlagOp) : Inv (w.run ops) := by
  induction ops generalizing w with
  | nil => exact i
  | cons op ops ih => exact ih (step_spec i op).1

theorem Reachable.inv {w : FlagWorld} (h : w.Reachable) : Inv w := by
  obtain ⟨ops, rfl⟩ := h
  exact run_inv ⟨by simp, by simp, by simp, by simp⟩ ops

/-- References stay what they are. -/
theorem run_refs {w : FlagWorld} (i : Inv w) (ops : List FlagOp) :
    (∀ (c : Nat) a, w.ctxs[c]? = some a → (w.run ops).ctxs[c]? = some a) ∧
    (∀ (d : Nat) a, w.held[d]? = some a → (w.run ops).held[d]? = some a) ∧
    ∀ (p : Nat) x, w.defs[p]? = some x → (w.run ops).defs[p]? = some x := by
  induction ops generalizing w with
  | nil => exact ⟨fun _ _ h => h, fun _ _ h => h, fun _ _ h => h⟩
  | cons op ops ih =>
    obtain ⟨i1, f⟩ := step_spec i op
    obtain ⟨a, b, c⟩ := ih i1
    exact ⟨fun x y h => a x y (f.ctxs x y h), fun x y h => b x y (f.held x y h), fun x y h => c x y (f.defs x y h)⟩

/-- A dictionary that the program does not have stays as it is. -/
theorem run_private {w : FlagWorld} (i : Inv w) {a : Nat} {x : Dict Str Bool} (hx : w.dicts[a]? = some x) (hn : a ∉ w.held) (ops : List FlagOp) :
    (w.run ops).dicts[a]? = some x := by
  induction ops generalizing w with
  | nil => exact hx
  | cons op ops ih =>
    obtain ⟨i1, f⟩ := step_spec i op
    refine ih i1 (f.dicts a x hx hn) ?_
    intro h
    rcases f.new a h with h | h
    · exact hn h
    · exact absurd (List.getElem?_eq_some_iff.1 hx).1 (Nat.not_lt.2 h)

/-- The flags of a Context that was made with a new dictionary. -/
theorem fresh_flags {w : FlagWorld} (i : Inv w) {x : Dict Str Bool} (hx : DNodup x) (ops : List FlagOp) :
    ((w.fresh x).run ops).flags w.ctxs.length = some x := by
  obtain ⟨i1, _⟩ := fresh_step i hx
  have hc : (w.fresh x).ctxs[w.ctxs.length]? = some w.dicts.length := by simp [fresh]
  have hd : (w.fresh x).dicts[w.dicts.length]? = some x := by simp [fresh]
  have hn : w.dicts.length ∉ (w.fresh x).held := fun h => absurd (i.held _ h) (Nat.lt_irrefl _)
  rw [flags, (run_refs i1 ops).1 _ _ hc, Option.bind_some, run_private i1 hd hn]

end FlagWorld

open FlagWorld

/-- **C135, merged Contexts.** The flags of a Context that `merge` made are those of the ContextDef, and stay so whatever else the program does. The ContextDef stays as it is, too. -/
theorem C135_merge {w : FlagWorld} (hw : w.Reachable) {p : Nat} {items} (hp : w.defs[p]? = some items) (ops : List FlagOp) :
    ((w.step (.merge p)).run ops).flags w.ctxs.length = some items ∧ (w.run ops).defs[p]? = some items := by
  refine ⟨?_, (run_refs hw.inv ops).2.2 p items hp⟩
  simp only [step, hp]
  rw [fresh_flags hw.inv (dnodup_dofList _), dofList_of_nodup (hw.inv.defs _ (List.mem_of_getElem? hp))]

/-- **C135, partition.** The ContextDef that `partition` makes has the flags that the Context has then. -/
theorem C135_partition {w : FlagWorld} {c : Nat} {x} (hc : w.flags c = some x) :
    (w.step (.partition c)).defs[w.defs.length]? = some x := by
  simp [step, hc]

/-- **C135, without flags.** A Context made without flags, or with an empty dictionary, never has a flag. -/
theorem C135_no_flags {w : FlagWorld} (hw : w.Reachable) {d : Option Nat} (hd : ∀ i, d = some i → w.dict i = some []) (ops : List FlagOp) :
    ((w.step (.context d)).run ops).flags w.ctxs.length = some [] := by
  cases d with
  | none => exact fresh_flags hw.inv (by simp [DNodup]) ops
  | some d =>
    have h := hd d rfl
    simp only [FlagWorld.dict, Option.bind_eq_some_iff] at h
    obtain ⟨a, h1, h2⟩ := h
    simp only [step, h1, h2]
    exact fresh_flags hw.inv (by simp [DNodup]) ops

/-- **C135, with flags.** A Context made with a dictionary that is not empty has at every later time the flags that this dictionary has then: changes of the dictionary by the program are
changes of the flags. So the property holds for the Context only as long as nobody changes the dictionary. -/
theorem C135_with_flags {w : FlagWorld} (hw : w.Reachable) {d : Nat} {x} (hd : w.dict d = some x) (hx : x ≠ []) (ops : List FlagOp) :
    (w.step (.context (some d))).flags w.ctxs.length = some x ∧
    ((w.step (.context (some d))).run ops).flags w.ctxs.length = ((w.step (.context (some d))).run ops).dict d := by
  simp only [FlagWorld.dict, Option.bind_eq_some_iff] at hd
  obtain ⟨a, h1, h2⟩ := hd
  have e : w.step (.context (some d)) = { w with ctxs := w.ctxs ++ [a] } := by
    cases x with
    | nil => exact absurd rfl hx
    | cons y x => simp only [step, h1, h2]
  rw [e]
  obtain ⟨i1, _⟩ := share_step hw.inv (List.getElem?_eq_some_iff.1 h2).1
  have hr := run_refs i1 ops
  constructor
  · simp [flags, h2]
  · rw [flags, hr.1 w.ctxs.length a (by simp), FlagWorld.dict, hr.2.1 d a h1]

/-- **C135, copies.** At all times a copy has the flags of the Context that was copied. -/
theorem C135_copy {w : FlagWorld} (hw : w.Reachable) {c : Nat} (hc : c < w.ctxs.length) (ops : List FlagOp) :
    ((w.step (.copy c)).run ops).flags w.ctxs.length = ((w.step (.copy c)).run ops).flags c ∧ ∃ x, (w.step (.copy c)).flags w.ctxs.length = some x := by
  have h1 : w.ctxs[c]? = some w.ctxs[c] := List.getElem?_eq_getElem hc
  have ha := hw.inv.ctxs _ (List.mem_of_getElem? h1)
  simp only [step, h1]
  obtain ⟨i1, f⟩ := share_step hw.inv ha
  have hr := run_refs i1 ops
  constructor
  · rw [flags, flags, hr.1 w.ctxs.length w.ctxs[c] (by simp), hr.1 c _ (f.ctxs c _ h1)]
  · exact ⟨w.dicts[w.ctxs[c]], by simp [flags, ha]⟩

/-- **C135, partial.** As long as no dictionary is changed, the flags of every Context stay what they are, whatever is done with Contexts. Missing: changes of the dictionary that a Context
was made with (`C135_changes`). -/
theorem C135_fixed_partial {w : FlagWorld} (hw : w.Reachable) {c : Nat} {x} (hc : w.flags c = some x) {ops : List FlagOp} (hops : ∀ op ∈ ops, op.NoChange) :
    (w.run ops).flags c = some x := by
  have key : ∀ {w : FlagWorld}, Inv w → w.flags c = some x → ∀ {op : FlagOp}, op.NoChange → (w.step op).flags c = some x := by
    intro w i hc op ho
    simp only [flags, Option.bind_eq_some_iff] at hc
    obtain ⟨a, h1, h2⟩ := hc
    have f := (step_spec i op).2
    rw [flags, f.ctxs c a h1, Option.bind_some]
    have app : ∀ y, (w.dicts ++ [y])[a]? = some x := fun y => append_left h2
    cases op with
    | dict items => exact app _
    | set => exact ho.elim
    | del => exact ho.elim
    | context d =>
      cases d with
      | none => exact app _
      | some d =>
        simp only [step]
        split
        · exact h2
        · split
          · exact h2
          · exact app _
          · exact h2
    | copy c => simp only [step]; split <;> exact h2
    | partition c => simp only [step]; split <;> exact h2
    | merge p =>
      simp only [step]
      split
      · exact h2
      · exact app _
  have : ∀ {w : FlagWorld}, Inv w → w.flags c = some x → (∀ op ∈ ops, op.NoChange) → (w.run ops).flags c = some x := by
    induction ops with
    | nil => intro w _ h _; exact h
    | cons op ops ih =>
      intro w i h ho
      exact ih (fun o h => hops o (by simp [h])) (step_spec i op).1 (key i h (ho op (by simp))) fun o h => ho o (by simp [h])
  exact this hw.inv hc hops

/-- **C135 fails.** `d = {"train": True}; ctx = nnx.context(0, flags=d); d["train"] = False` changes the flag of `ctx`. With `d = {}` at first, it does not. -/
theorem C135_changes :
    (FlagWorld.run {} [.dict [(py! "train", true)], .context (some 0)]).flags 0 = some [(py! "train", true)] ∧
    (FlagWorld.run {} [.dict [(py! "train", true)], .context (some 0), .set 0 (py! "train") false]).flags 0 = some [(py! "train", false)] ∧
    (FlagWorld.run {} [.dict [], .context (some 0), .set 0 (py! "train") true]).flags 0 = some [] := by decide

/-- A world with a dictionary, two Contexts that have it, a ContextDef and a Context merged from it. -/
def exFlagWorld : FlagWorld :=
  FlagWorld.run {} [.dict [(py! "train", true)], .context (some 0), .copy 0, .partition 1, .merge 0, .context none]

example : exFlagWorld.Reachable ∧ exFlagWorld.dict 0 = some [(py! "train", true)] ∧ exFlagWorld.defs[0]? = some [(py! "train", true)] ∧
    (exFlagWorld.run [.set 0 (py! "train") false]).flags 1 = some [(py! "train", false)] ∧ (exFlagWorld.run [.set 0 (py! "train") false]).flags 2 = some [(py! "train", true)] ∧
    exFlagWorld.flags 3 = some [] := ⟨⟨_, rfl⟩, by decide⟩

end Nnx
