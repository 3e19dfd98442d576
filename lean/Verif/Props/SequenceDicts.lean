import Verif.Spec.SequenceDicts
import Verif.Props.Helpers
/-
C132: calls of a Sequence do not depend on one another through the dictionaries that layers return.
-/
namespace Nnx
variable {σ V : Type}

theorem map_ok' {A B : Type} (f : A → B) (a : A) : (Except.ok a : Except Err A).map f = .ok (f a) := rfl
theorem map_error' {A B : Type} (f : A → B) (e : Err) : (Except.error e : Except Err A).map f = .error e := rfl

theorem nextArgsD_shown (st : DStore V) (o : DOut V) :
    nextArgs (o.shown st) = ((nextArgsD o).1, (nextArgsD o).2.entries st) := by cases o <;> rfl

theorem loopD_no_ctx (fetch : Nat → σ → Except Err (DLayer σ V)) : ∀ (n i : Nat) (args : List V) (kw : KwArg V) (o : DOut V)
    (s : σ) (st : DStore V),
    sequenceLoop (fun i s => (fetch i s.1).map DLayer.shown) none n i args (kw.entries st) (o.shown st) (s, st) =
      let r := sequenceLoopD fetch none n i args kw o s st
      (r.1, r.2.map (DOut.shown r.1.2)) := by
  intro n
  induction n with
  | zero => intro i args kw o s st; rfl
  | succ n ih =>
    intro i args kw o s st
    simp only [sequenceLoop, sequenceLoopD]
    cases fetch i s with
    | error e => rfl
    | ok f =>
      simp only [map_ok']
      have hc : f.shown.callable = f.callable := rfl
      rw [hc]
      by_cases hf : f.callable = false
      · simp only [hf, if_true]; rfl
      · rw [if_neg hf, if_neg hf]
        have e1 : (if i > 0 then nextArgs (o.shown st) else (args, kw.entries st)) =
            ((if i > 0 then nextArgsD o else (args, kw)).1, (if i > 0 then nextArgsD o else (args, kw)).2.entries st) := by
          split
          · exact nextArgsD_shown st o
          · rfl
        rw [e1]
        clear e1
        generalize (if i > 0 then nextArgsD o else (args, kw)) = p
        simp only [addCtx, addCtxD]
        cases hr : f.run p.1 (p.2.entries st) s st with
        | mk s' r =>
          cases r with
          | error e =>
            have hs : f.shown.run p.1 (p.2.entries st) (s, st) = (s', .error e) := by simp only [DLayer.shown, hr]
            rw [hs]
            rfl
          | ok out =>
            obtain ⟨s', st'⟩ := s'
            have hs : f.shown.run p.1 (p.2.entries st) (s, st) = ((s', st'), .ok (out.shown st')) := by simp only [DLayer.shown, hr]
            rw [hs]
            simp only
            have key : ∀ (n i : Nat) (a a' : List V) (k k' : Dict Str V) (o : Out V) (s : σ × DStore V), i > 0 →
                sequenceLoop (fun i (s : σ × DStore V) => (fetch i s.1).map DLayer.shown) none n i a k o s =
                sequenceLoop (fun i (s : σ × DStore V) => (fetch i s.1).map DLayer.shown) none n i a' k' o s := by
              intro n i a a' k k' o s hi
              cases n with
              | zero => rfl
              | succ n => simp only [sequenceLoop, if_pos hi]
            rw [key _ _ _ p.1 _ (p.2.entries st') _ _ (Nat.succ_pos i)]
            exact ih _ _ _ _ _ _

/-- **C132, without a context.** A call of a Sequence without `ctx` writes into no dictionary: whatever dictionaries the layers
keep, change and return, it does what the pipeline of C66 does, in which each layer's result is passed on as it is. -/
theorem C132_no_ctx (fetch : Nat → σ → Except Err (DLayer σ V)) (noneV : V) (n : Nat) (args : List V) (kwargs : Dict Str V)
    (s : σ) (st : DStore V) :
    sequenceLoop (fun i s => (fetch i s.1).map DLayer.shown) none n 0 args kwargs (.other noneV) (s, st) =
      let r := sequenceCallD fetch noneV n args none kwargs s st
      (r.1, r.2.map (DOut.shown r.1.2)) :=
  loopD_no_ctx fetch n 0 args (.own kwargs) (.other noneV) s st

/-- The dictionary objects that a loop may write into were made after the first `m`. -/
def KwArg.Above (m : Nat) : KwArg V → Prop
  | .own _ => True
  | .obj l => m ≤ l

def DOut.Above (m : Nat) : DOut V → Prop
  | .dict l => m ≤ l
  | _ => True

theorem write_above {m : Nat} {c : V} {st : DStore V} {kw : KwArg V} (h : kw.Above m) :
    (kw.write c st).1.Above m ∧ (kw.write c st).2.length = st.length ∧
      ∀ l, l < m → (kw.write c st).2[l]? = st[l]? := by
  cases kw with
  | own kw => exact ⟨trivial, rfl, fun _ _ => rfl⟩
  | obj l =>
    refine ⟨h, List.length_set, fun j hj => ?_⟩
    exact List.getElem?_set_ne (by have : m ≤ l := h; omega)

theorem addCtxD_above {m : Nat} {ctx : Option V} {f : DLayer σ V} {st : DStore V} {kw : KwArg V} (h : kw.Above m) :
    (addCtxD ctx f kw st).1.Above m ∧ (addCtxD ctx f kw st).2.length = st.length ∧
      ∀ l, l < m → (addCtxD ctx f kw st).2[l]? = st[l]? := by
  unfold addCtxD
  split
  · split
    · exact write_above h
    · exact ⟨h, rfl, fun _ _ => rfl⟩
  · exact ⟨h, rfl, fun _ _ => rfl⟩

theorem loopD_frame (fetch : Nat → σ → Except Err (DLayer σ V)) (ctx : Option V)
    (hl : ∀ i s f, fetch i s = .ok f → f.Keeps ∧ f.ReturnsNew) (m : Nat) : ∀ (n i : Nat) (args : List V) (kw : KwArg V) (o : DOut V)
    (s : σ) (st : DStore V), m ≤ st.length → kw.Above m → o.Above m → ∀ l, l < m →
    (sequenceLoopD fetch ctx n i args kw o s st).1.2[l]? = st[l]? := by
  intro n
  induction n with
  | zero => intro i args kw o s st _ _ _ l _; rfl
  | succ n ih =>
    intro i args kw o s st hm hk ho l hlt
    simp only [sequenceLoopD]
    cases hf : fetch i s with
    | error e => rfl
    | ok f =>
      simp only
      split
      · rfl
      · obtain ⟨hkeep, hnew⟩ := hl i s f hf
        generalize hp : (if i > 0 then nextArgsD o else (args, kw)) = p
        have hpa : p.2.Above m := by
          rw [← hp]
          split
          · cases o with
            | dict l' => exact ho
            | _ => trivial
          · exact hk
        obtain ⟨h1, h2, h3⟩ := addCtxD_above (ctx := ctx) (f := f) (st := st) hpa
        generalize addCtxD ctx f p.2 st = q at h1 h2 h3
        obtain ⟨k1, k2⟩ := hkeep p.1 (q.1.entries q.2) s q.2
        have hn := hnew p.1 (q.1.entries q.2) s q.2
        cases hr : f.run p.1 (q.1.entries q.2) s q.2 with
        | mk s' r =>
          rw [hr] at k1 k2 hn
          cases r with
          | error e => exact (k2 l (by omega)).trans (h3 l hlt)
          | ok out =>
            refine (ih _ _ _ _ _ _ (by dsimp only at k1; omega) h1 ?_ l hlt).trans ((k2 l (by omega)).trans (h3 l hlt))
            cases out with
            | dict l' => exact Nat.le_trans (by omega) (hn l' rfl)
            | _ => trivial

/-- **C132, new dictionaries.** If the layers change no dictionary that existed before, and make the dictionaries they return, a
call of a Sequence changes no dictionary that existed before, with and without `ctx`. That this holds for all layers that change
no dictionary is false: see `C132_stale`. -/
theorem C132_frame_partial (fetch : Nat → σ → Except Err (DLayer σ V))
    (hl : ∀ i s f, fetch i s = .ok f → f.Keeps ∧ f.ReturnsNew) (noneV : V) (n : Nat) (args : List V) (ctx : Option V)
    (kwargs : Dict Str V) (s : σ) (st : DStore V) (l : Nat) (h : l < st.length) :
    (sequenceCallD fetch noneV n args ctx kwargs s st).1.2[l]? = st[l]? :=
  loopD_frame fetch ctx hl st.length n 0 args (.own kwargs) (.other noneV) s st (Nat.le_refl _) trivial trivial l h

/-- Two dictionaries agree except for the entry "ctx". -/
def SameButCtx (d d' : Dict Str V) : Prop := ∀ k, k ≠ py! "ctx" → dget d' k = dget d k

theorem loopD_only_ctx (fetch : Nat → σ → Except Err (DLayer σ V)) (ctx : Option V)
    (hl : ∀ i s f, fetch i s = .ok f → f.Keeps) : ∀ (n i : Nat) (args : List V) (kw : KwArg V) (o : DOut V)
    (s : σ) (st : DStore V) (l : Nat) (d : Dict Str V), st[l]? = some d →
    ∃ d', (sequenceLoopD fetch ctx n i args kw o s st).1.2[l]? = some d' ∧ SameButCtx d d' := by
  intro n
  induction n with
  | zero => intro i args kw o s st l d h; exact ⟨d, h, fun _ _ => rfl⟩
  | succ n ih =>
    intro i args kw o s st l d h
    simp only [sequenceLoopD]
    cases hf : fetch i s with
    | error e => exact ⟨d, h, fun _ _ => rfl⟩
    | ok f =>
      simp only
      split
      · exact ⟨d, h, fun _ _ => rfl⟩
      · have hkeep := hl i s f hf
        generalize (if i > 0 then nextArgsD o else (args, kw)) = p
        have hq : ∃ d', (addCtxD ctx f p.2 st).2[l]? = some d' ∧ SameButCtx d d' := by
          unfold addCtxD
          split
          · split
            · cases hp2 : p.2 with
              | own kw => exact ⟨d, h, fun _ _ => rfl⟩
              | obj j =>
                simp only [KwArg.write]
                by_cases hj : j = l
                · subst hj
                  refine ⟨_, List.getElem?_set_self (List.getElem?_eq_some_iff.1 h).1, fun k hk => ?_⟩
                  rw [dget_dset, if_neg (Ne.symm hk), h]
                  rfl
                · exact ⟨d, by rw [List.getElem?_set_ne hj]; exact h, fun _ _ => rfl⟩
            · exact ⟨d, h, fun _ _ => rfl⟩
          · exact ⟨d, h, fun _ _ => rfl⟩
        generalize addCtxD ctx f p.2 st = q at hq
        obtain ⟨d1, h1, h2⟩ := hq
        obtain ⟨-, k2⟩ := hkeep p.1 (q.1.entries q.2) s q.2
        have k3 := k2 l (List.getElem?_eq_some_iff.1 h1).1
        cases hr : f.run p.1 (q.1.entries q.2) s q.2 with
        | mk s' r =>
          rw [hr] at k3
          cases r with
          | error e => exact ⟨d1, k3.trans h1, h2⟩
          | ok out =>
            obtain ⟨d2, h3, h4⟩ := ih (i + 1) p.1 q.1 out s'.1 s'.2 l d1 (k3.trans h1)
            exact ⟨d2, h3, fun k hk => (h4 k hk).trans (h2 k hk)⟩

/-- **C132, all dictionaries.** If the layers change no dictionary that existed before, a call of a Sequence changes at most the
entry "ctx" of a dictionary. -/
theorem C132_only_ctx (fetch : Nat → σ → Except Err (DLayer σ V)) (hl : ∀ i s f, fetch i s = .ok f → f.Keeps) (noneV : V)
    (n : Nat) (args : List V) (ctx : Option V) (kwargs : Dict Str V) (s : σ) (st : DStore V) (l : Nat) (d : Dict Str V)
    (h : st[l]? = some d) :
    ∃ d', (sequenceCallD fetch noneV n args ctx kwargs s st).1.2[l]? = some d' ∧ ∀ k, k ≠ py! "ctx" → dget d' k = dget d k :=
  loopD_only_ctx fetch ctx hl n 0 args (.own kwargs) (.other noneV) s st l d h

/-- What the loops have at hand before a layer: the same arguments. -/
theorem loopD_fresh (fetch : Nat → σ → Except Err (Layer σ V)) (ctx : Option V) : ∀ (n i : Nat) (args args' : List V) (kw : KwArg V)
    (kw' : Dict Str V) (o : DOut V) (s : σ) (st : DStore V),
    (i = 0 → args' = args ∧ kw = .own kw') → (∀ l, o = .dict l → l < st.length) →
    ∃ s' st' r, sequenceLoopD (fun i s => (fetch i s).map Layer.fresh) ctx n i args kw o s st = ((s', st'), r) ∧
      sequenceLoop fetch ctx n i args' kw' (o.shown st) s = (s', r.map (DOut.shown st')) := by
  intro n
  induction n with
  | zero => intro i args args' kw kw' o s st _ _; exact ⟨s, st, .ok o, rfl, rfl⟩
  | succ n ih =>
    intro i args args' kw kw' o s st h0 ho
    simp only [sequenceLoop, sequenceLoopD]
    cases fetch i s with
    | error e => exact ⟨s, st, .error e, rfl, rfl⟩
    | ok f =>
      simp only [map_ok']
      have hc : f.fresh.callable = f.callable := rfl
      rw [hc]
      by_cases hf : f.callable = false
      · rw [if_pos hf, if_pos hf]; exact ⟨s, st, .error .typeError, rfl, rfl⟩
      · rw [if_neg hf, if_neg hf]
        have hargs : ∃ a k K, (if i > 0 then nextArgsD o else (args, kw)) = (a, K) ∧
            (if i > 0 then nextArgs (o.shown st) else (args', kw')) = (a, k) ∧ K.entries st = k ∧
            ∀ l, K = .obj l → l < st.length := by
          by_cases hi : i > 0
          · rw [if_pos hi, if_pos hi, nextArgsD_shown]
            refine ⟨_, _, _, rfl, rfl, rfl, fun l hl => ho l ?_⟩
            cases o with
            | dict l' => cases hl; rfl
            | _ => cases hl
          · obtain ⟨rfl, rfl⟩ := h0 (by omega)
            rw [if_neg hi, if_neg hi]
            exact ⟨_, _, _, rfl, rfl, rfl, fun l hl => by cases hl⟩
        obtain ⟨a, k, K, e1, e2, e3, e4⟩ := hargs
        rw [e1, e2]
        simp only
        have hadd : (addCtxD ctx f.fresh K st).1.entries (addCtxD ctx f.fresh K st).2 = addCtx ctx f k ∧
            (addCtxD ctx f.fresh K st).2.length = st.length := by
          unfold addCtxD addCtx
          cases ctx with
          | none => exact ⟨e3, rfl⟩
          | some c =>
            simp only
            have hp : f.fresh.params = f.params := rfl
            rw [hp]
            split
            · cases K with
              | own kw => cases e3; exact ⟨rfl, rfl⟩
              | obj l =>
                have hlt := e4 l rfl
                subst e3
                refine ⟨?_, List.length_set⟩
                simp only [KwArg.write, KwArg.entries, List.getElem?_set_self hlt, Option.getD_some]
            · exact ⟨e3, rfl⟩
        obtain ⟨h1, h2⟩ := hadd
        generalize addCtxD ctx f.fresh K st = q at h1 h2
        rw [h1]
        have hfr : f.fresh.run a (addCtx ctx f k) s q.2 = match f.run a (addCtx ctx f k) s with
            | (s', .error e) => ((s', q.2), .error e)
            | (s', .ok (.tup xs)) => ((s', q.2), .ok (.tup xs))
            | (s', .ok (.dict kw)) => ((s', q.2 ++ [kw]), .ok (.dict q.2.length))
            | (s', .ok (.other v)) => ((s', q.2), .ok (.other v)) := rfl
        rw [hfr]
        cases hr : f.run a (addCtx ctx f k) s with
        | mk s' r =>
          cases r with
          | error e => exact ⟨s', q.2, .error e, rfl, rfl⟩
          | ok out =>
            cases out with
            | tup xs => exact ih (i + 1) a a q.1 k (.tup xs) s' q.2 (by omega) (fun l h => by cases h)
            | other v => exact ih (i + 1) a a q.1 k (.other v) s' q.2 (by omega) (fun l h => by cases h)
            | dict d =>
              have := ih (i + 1) a a q.1 k (.dict q.2.length) s' (q.2 ++ [d]) (by omega)
                (fun l h => by cases h; simp)
              simpa [DOut.shown] using this

/-- **C132, as in C66.** If every dictionary that a layer returns is new and no layer looks at it again, a call of a Sequence, with
and without `ctx`, has the same effect and shows the same result as when dictionaries are values: the pipeline of C66. -/
theorem C132_as_values (fetch : Nat → σ → Except Err (Layer σ V)) (noneV : V) (n : Nat) (args : List V) (ctx : Option V)
    (kwargs : Dict Str V) (s : σ) (st : DStore V) :
    ∃ s' st' r, sequenceCallD (fun i s => (fetch i s).map Layer.fresh) noneV n args ctx kwargs s st = ((s', st'), r) ∧
      sequenceLoop fetch ctx n 0 args kwargs (.other noneV) s = (s', r.map (DOut.shown st')) :=
  loopD_fresh fetch ctx n 0 args args (.own kwargs) kwargs (.other noneV) s st (fun _ => ⟨rfl, rfl⟩) (fun l h => by cases h)

/-- A Sequence of two layers. -/
def twoLayers (f g : DLayer σ V) : Nat → σ → Except Err (DLayer σ V)
  | 0, _ => .ok f
  | _, _ => .ok g

/-- **C132 is false in general.** The first layer returns a dictionary that it keeps, for instance a static field of its Module;
the second one takes `ctx`; neither changes a dictionary or anything else. A call with `ctx` writes this context into the kept
dictionary. A later call without `ctx` hands the second layer the context of the earlier call, where it got none before. -/
theorem C132_stale {f g : DLayer σ V} {l : Nat} {out : List V → Dict Str V → DOut V} (hf : f.callable = true)
    (hg : g.callable = true) (hfr : ∀ a k s st, f.run a k s st = ((s, st), .ok (.dict l)))
    (hgr : ∀ a k s st, g.run a k s st = ((s, st), .ok (out a k))) (hctx : hasKeywordArg g.params (py! "ctx") = true)
    (noneV c : V) (args args' : List V) (kwargs kwargs' : Dict Str V) (s : σ) (st : DStore V) (d : Dict Str V)
    (hd : st[l]? = some d) :
    ∃ st', (sequenceCallD (twoLayers f g) noneV 2 args (some c) kwargs s st).1 = (s, st') ∧
      st'[l]? = some (dset d (py! "ctx") c) ∧
      sequenceCallD (twoLayers f g) noneV 2 args' none kwargs' s st = ((s, st), .ok (out [] d)) ∧
      sequenceCallD (twoLayers f g) noneV 2 args' none kwargs' s st' = ((s, st'), .ok (out [] (dset d (py! "ctx") c))) := by
  have hlt := (List.getElem?_eq_some_iff.1 hd).1
  have hnone : ∀ st1 : DStore V, ∀ d1, st1[l]? = some d1 →
      sequenceCallD (twoLayers f g) noneV 2 args' none kwargs' s st1 = ((s, st1), .ok (out [] d1)) := by
    intro st1 d1 h1
    simp [sequenceCallD, sequenceLoopD, twoLayers, hf, hg, hfr, hgr, addCtxD, nextArgsD, KwArg.entries, h1]
  refine ⟨st.set l (dset d (py! "ctx") c), ?_, List.getElem?_set_self hlt, hnone st d hd, hnone _ _ (List.getElem?_set_self hlt)⟩
  simp only [sequenceCallD, sequenceLoopD, twoLayers, hf, hg, hfr, hgr, Bool.true_eq_false, if_false, Nat.lt_irrefl, gt_iff_lt,
    Nat.zero_add, Nat.zero_lt_one, if_true, nextArgsD, addCtxD, hctx]
  split <;> simp [KwArg.write, hd]

/-! ### A concrete case -/

/-- A layer that returns the dictionary it keeps. -/
def exKeeps : DLayer Unit Nat := ⟨true, [(py! "x", .positionalOrKeyword)], fun _ _ s st => ((s, st), .ok (.dict 0))⟩
/-- A layer that takes any keywords and a context. -/
def exTakesCtx : DLayer Unit Nat := ⟨true, [(py! "ctx", .keywordOnly), (py! "kw", .varKeyword)], fun _ k s st => ((s, st), .ok (.other k.length))⟩

example : (sequenceCallD (twoLayers exKeeps exTakesCtx) 0 2 [5] none [] () [[(py! "a", 1)]]).2 = .ok (.other 1) ∧
    (sequenceCallD (twoLayers exKeeps exTakesCtx) 0 2 [5] (some 9) [] () [[(py! "a", 1)]]).1 = ((), [[(py! "a", 1), (py! "ctx", 9)]]) ∧
    (sequenceCallD (twoLayers exKeeps exTakesCtx) 0 2 [5] none [] () [[(py! "a", 1), (py! "ctx", 9)]]).2 = .ok (.other 2) := by
  decide

example : ∀ i s f, twoLayers exKeeps exTakesCtx i s = .ok f → f.Keeps := by
  intro i s f h
  have : f = exKeeps ∨ f = exTakesCtx := by
    unfold twoLayers at h
    split at h <;> cases h
    · exact .inl rfl
    · exact .inr rfl
  rcases this with rfl | rfl <;> exact fun _ _ _ _ => ⟨Nat.le_refl _, fun _ _ => rfl⟩

/-- A layer that returns a new dictionary with its arguments. -/
def exNewDict : Layer Unit Nat := ⟨true, [(py! "x", .positionalOrKeyword)], fun a _ s => (s, .ok (.dict [(py! "a", a.length)]))⟩

example : exNewDict.fresh.Keeps ∧ exNewDict.fresh.ReturnsNew := by
  refine ⟨fun a k s st => ⟨by simp [Layer.fresh, exNewDict], fun l hl => ?_⟩, fun a k s st l h => ?_⟩
  · simp only [Layer.fresh, exNewDict]
    exact List.getElem?_append_left hl
  · simp only [Layer.fresh, exNewDict, Except.ok.injEq, DOut.dict.injEq] at h
    exact Nat.le_of_eq h

example : (sequenceCallD (twoLayers exNewDict.fresh exTakesCtx) 0 2 [5] (some 9) [] () [[]]) =
    (((), [[], [(py! "a", 1), (py! "ctx", 9)]]), .ok (.other 2)) := by decide

end Nnx
