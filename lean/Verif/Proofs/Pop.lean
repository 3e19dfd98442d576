import Verif.Proofs.UpdateState
import Mathlib.Data.Finset.Card
import Mathlib.Logic.Relation
/-
pop_state on acyclic graphs, and why it returns on no other.
-/
namespace Nnx
variable {α : Type} [DecidableEq α]

omit [DecidableEq α] in
theorem Reaches.refl {h : Heap α} {a : Loc} (ha : a < h.length) : Reaches h a a := ⟨[], .here ha⟩

omit [DecidableEq α] in
theorem Reaches.trans {h : Heap α} {a b c : Loc} (h1 : Reaches h a b) (h2 : Reaches h b c) : Reaches h a c := by
  obtain ⟨p, hp⟩ := h1
  obtain ⟨q, hq⟩ := h2
  exact ⟨_, hp.append hq⟩

omit [DecidableEq α] in
theorem Reaches.head {h : Heap α} {a b c : Loc} {n : Str} (h1 : attrAt h a n = some (.ref b)) (h2 : Reaches h b c) :
    Reaches h a c := by
  obtain ⟨q, hq⟩ := h2
  exact ⟨_, .step h1 hq⟩

/-! ### popInsert -/

omit [DecidableEq α] in
theorem popInsert_eq (preds : List (Pred α)) (states : List (Dict Str (PyVal α))) (k : Str) (v : PyVal α)
    (hl : states.length = preds.length) :
    popInsert preds states k v = if AnyP preds k v = true then some (splitInsert preds states k v) else none := by
  induction preds generalizing states with
  | nil =>
    cases states with
    | nil => simp [popInsert, AnyP]
    | cons d ds => simp at hl
  | cons p ps ih =>
    cases states with
    | nil => simp at hl
    | cons d ds =>
      simp only [popInsert, splitInsert]
      by_cases hp : p k v = true
      · simp [hp, AnyP]
      · rw [if_neg hp, if_neg hp, ih ds (by simpa using hl)]
        have : AnyP (p :: ps) k v = AnyP ps k v := by
          have hp' : p k v = false := by simpa using hp
          simp [AnyP, hp']
        rw [this]
        split <;> simp

/-! ### What is popped and what is kept -/

omit [DecidableEq α] in
/-- The attribute stays in a module with path `p`. -/
def keepAttr (preds : List (Pred α)) (p : List Str) (na : Str × Attr α) : Bool :=
  match na.2 with
  | .ref _ => true
  | .val v => !(v.isNode && AnyP preds (joinSlash (p ++ [na.1])) v)

omit [DecidableEq α] in
/-- The entries popped from some attributes of a module with path `p`. -/
def poppedAttrs (preds : List (Pred α)) (as : List (Str × Attr α)) (p : List Str) : List (Str × PyVal α) :=
  (ownAttrs as p).filter (fun kv => AnyP preds kv.1 kv.2)

omit [DecidableEq α] in
def poppedAt (h : Heap α) (preds : List (Pred α)) (x : Loc × List Str) : List (Str × PyVal α) :=
  match h[x.1]? with
  | some o => poppedAttrs preds o.attrs x.2
  | none => []

omit [DecidableEq α] in
theorem poppedAt_perm (h : Heap α) (preds : List (Pred α)) (x : Loc × List Str) :
    (poppedAt h preds x).Perm ((own h x).filter (fun kv => AnyP preds kv.1 kv.2)) := by
  unfold poppedAt own
  cases h[x.1]? with
  | none => simp
  | some o =>
    simp only [poppedAttrs, ownAttrs]
    apply List.Perm.filter
    exact ((sortItems_perm o.attrs).symm).filterMap _

omit [DecidableEq α] in
theorem poppedAll_perm (h : Heap α) (preds : List (Pred α)) (vs : List (Loc × List Str)) :
    (vs.flatMap (poppedAt h preds)).Perm ((vs.flatMap (own h)).filter (fun kv => AnyP preds kv.1 kv.2)) := by
  induction vs with
  | nil => simp
  | cons x vs ih =>
    simp only [List.flatMap_cons, List.filter_append]
    exact (poppedAt_perm h preds x).append ih

theorem ddel_middle {K V : Type _} [DecidableEq K] {a b : Dict K V} {k : K} {v : V} (h : k ∉ dkeys a) :
    ddel (a ++ (k, v) :: b) k = a ++ b := by
  induction a with
  | nil => simp [ddel]
  | cons x a ih =>
    obtain ⟨k', v'⟩ := x
    simp only [dkeys, List.map_cons, List.mem_cons, not_or] at h
    simp [ddel, Ne.symm h.1, ih h.2]

/-! ### A rank on acyclic graphs -/

omit [DecidableEq α] in
open Classical in
/-- The number of modules that can be reached. -/
noncomputable def rank (h : Heap α) (l : Loc) : Nat :=
  ((Finset.range h.length).filter (fun a => Reaches h l a)).card

omit [DecidableEq α] in
theorem rank_le (h : Heap α) (l : Loc) : rank h l ≤ h.length := by
  classical
  unfold rank
  exact (Finset.card_filter_le _ _).trans (by simp)

omit [DecidableEq α] in
theorem rank_lt {h : Heap α} {a b : Loc} {n : Str} (e : attrAt h a n = some (.ref b))
    (hac : ∀ p, Walk h a p a → p = []) : rank h b < rank h a := by
  classical
  unfold rank
  apply Finset.card_lt_card
  refine ⟨?_, ?_⟩
  · intro x hx
    simp only [Finset.mem_filter] at hx ⊢
    exact ⟨hx.1, hx.2.head e⟩
  · intro hsub
    have hal := attrAt_some_lt e
    have : a ∈ Finset.filter (fun x => Reaches h b x) (Finset.range h.length) :=
      hsub (by simp only [Finset.mem_filter, Finset.mem_range]; exact ⟨hal, .refl hal⟩)
    simp only [Finset.mem_filter] at this
    obtain ⟨p, hp⟩ := this.2
    have := hac _ (.step e hp)
    simp at this

/-! ### The traversal -/

omit [DecidableEq α] in
/-- What the traversal needs to know about the heap and the ids it starts with. -/
structure PopPre (h0 : Heap α) (h : Heap α) (idx : List Nat) : Prop where
  ids : ∀ (a : Loc) (o0 : ModObj α), h0[a]? = some o0 → ∃ o, h[a]? = some o ∧ o.uid = o0.uid
  closed : ∀ a : Loc, a < h0.length → uidAt h0 a ∈ idx → ∀ b, Reaches h0 a b → uidAt h0 b ∈ idx

omit [DecidableEq α] in
/-- The effect on the heap of visiting `vs`. -/
structure PopHeap (h0 : Heap α) (preds : List (Pred α)) (vs : List (Loc × List Str)) (h h' : Heap α) (out : Loc → Prop) :
    Prop where
  inside : ∀ x ∈ vs, ∀ o, h0[x.1]? = some o →
    h'[x.1]? = some { o with attrs := o.attrs.filter (keepAttr preds x.2) }
  outside : ∀ l' : Loc, l' ∉ vs.map (·.1) → ¬ out l' → h'[l']? = h[l']?

abbrev insAll (preds : List (Pred α)) (evs : List (Str × PyVal α)) (states : List (Dict Str (PyVal α))) :=
  evs.foldl (fun ds kv => splitInsert preds ds kv.1 kv.2) states

omit [DecidableEq α] in
theorem insAll_length (preds : List (Pred α)) (evs : List (Str × PyVal α)) (states : List (Dict Str (PyVal α))) :
    (insAll preds evs states).length = states.length := by
  induction evs generalizing states with
  | nil => rfl
  | cons e evs ih => rw [insAll, List.foldl_cons]; exact (ih _).trans (splitInsert_length _ _ _ _)

omit [DecidableEq α] in
theorem uidAt_inj {h : Heap α} (wf : WFHeap h) {a b : Loc} (ha : a < h.length) (hb : b < h.length)
    (e : uidAt h a = uidAt h b) : a = b := by
  have h1 := List.getElem?_eq_getElem ha
  have h2 := List.getElem?_eq_getElem hb
  rw [uidAt_of h1, uidAt_of h2] at e
  exact wf.uids _ _ _ _ h1 h2 e

omit [DecidableEq α] in
/-- The modules visited from the attributes of a module with path `p`, in the order in which they are done. -/
def popVisitAttrs (rec : Loc → List Nat → List Str → List (Loc × List Str)) (uid : Loc → Nat) :
    List (Str × Attr α) → List Nat → List Str → List (Loc × List Str)
  | [], _, _ => []
  | (n, .ref b) :: rest, idx, p =>
    rec b idx (p ++ [n]) ++ popVisitAttrs rec uid rest (idx ++ (rec b idx (p ++ [n])).map fun x => uid x.1) p
  | (_, .val _) :: rest, idx, p => popVisitAttrs rec uid rest idx p

omit [DecidableEq α] in
/-- The modules that are visited, with their paths, in the order in which they are done. -/
def popVisit (h : Heap α) : Nat → Loc → List Nat → List Str → List (Loc × List Str)
  | 0, _, _, _ => []
  | fuel + 1, l, idx, p =>
    match h[l]? with
    | none => []
    | some o => if o.uid ∈ idx then [] else popVisitAttrs (popVisit h fuel) (uidAt h) o.attrs idx p ++ [(l, p)]

omit [DecidableEq α] in
theorem popRec_spec {h0 : Heap α} (wf : WFHeap h0) (preds : List (Pred α)) : ∀ (fuel : Nat) (l : Loc) (p : List Str)
    (h : Heap α) (idx : List Nat) (states : List (Dict Str (PyVal α))), l < h0.length → rank h0 l < fuel →
    Acyclic h0 l → PopPre h0 h idx → (∀ a : Loc, Reaches h0 l a → uidAt h0 a ∉ idx → h[a]? = h0[a]?) →
    states.length = preds.length →
    ∃ vs evs h', popRec preds fuel l h idx p states =
        (h', .ok (idx ++ vs.map (fun x => uidAt h0 x.1), insAll preds evs states)) ∧
      vs = popVisit h0 fuel l idx p ∧ evs.Perm (vs.flatMap (poppedAt h0 preds)) ∧ (vs.map (·.1)).Nodup ∧
      (∀ x ∈ vs, uidAt h0 x.1 ∉ idx ∧ ∃ q, x.2 = p ++ q ∧ Walk h0 l q x.1) ∧
      (∀ b, Reaches h0 l b → uidAt h0 b ∈ idx ++ vs.map (fun x => uidAt h0 x.1)) ∧
      PopHeap h0 preds vs h h' (fun _ => False) := by
  intro fuel
  induction fuel with
  | zero => intro l p h idx states _ hr; exact absurd hr (Nat.not_lt_zero _)
  | succ fuel ih =>
    intro l p h idx states hl hrank hac hpre hfresh hlen
    have hl0 := List.getElem?_eq_getElem hl
    generalize hoo : h0[l] = o0 at hl0
    obtain ⟨o, ho, huid⟩ := hpre.ids l o0 hl0
    have hu0 : uidAt h0 l = o0.uid := uidAt_of hl0
    by_cases hin : o.uid ∈ idx
    · refine ⟨[], [], h, ?_, ?_, by simp, by simp, by simp, ?_, ⟨by simp, fun _ _ _ => rfl⟩⟩
      · rw [popRec, ho]; simp [hin]
      · rw [popVisit, hl0]; simp [← huid, hin]
      · intro b hb
        simp only [List.map_nil, List.append_nil]
        exact hpre.closed l hl (by rw [hu0, ← huid]; exact hin) b hb
    · have hnotin : uidAt h0 l ∉ idx := by rw [hu0, ← huid]; exact hin
      have heq := hfresh l (.refl hl) hnotin
      rw [ho, hl0] at heq
      clear hoo
      obtain rfl : o = o0 := by injection heq
      -- the loop over the attributes
      have loop : ∀ (as done : List (Str × Attr α)), o.attrs = done ++ as →
          ∀ (h : Heap α) (idx : List Nat) (states : List (Dict Str (PyVal α))),
          h[l]? = some { o with attrs := done.filter (keepAttr preds p) ++ as } → uidAt h0 l ∉ idx → PopPre h0 h idx →
          (∀ a : Loc, a ≠ l → Reaches h0 l a → uidAt h0 a ∉ idx → h[a]? = h0[a]?) → states.length = preds.length →
          ∃ vs evs h', popAttrs (popRec preds fuel) preds l as h idx p states =
              (h', .ok (idx ++ vs.map (fun x => uidAt h0 x.1), insAll preds evs states)) ∧
            vs = popVisitAttrs (popVisit h0 fuel) (uidAt h0) as idx p ∧ evs.Perm (poppedAttrs preds as p ++ vs.flatMap (poppedAt h0 preds)) ∧ (vs.map (·.1)).Nodup ∧
            (∀ x ∈ vs, uidAt h0 x.1 ∉ idx ∧ x.1 ≠ l ∧ ∃ q, x.2 = p ++ q ∧ Walk h0 l q x.1) ∧
            (∀ n b c, (n, Attr.ref b) ∈ as → Reaches h0 b c → uidAt h0 c ∈ idx ++ vs.map (fun x => uidAt h0 x.1)) ∧
            h'[l]? = some { o with attrs := o.attrs.filter (keepAttr preds p) } ∧
            PopHeap h0 preds vs h h' (fun a => a = l) := by
        intro as
        induction as with
        | nil =>
          intro done hsplit h idx states hhl _ _ _ _
          refine ⟨[], [], h, by simp [popAttrs], rfl, by simp [poppedAttrs, ownAttrs], by simp, by simp, by simp, ?_,
            ⟨by simp, fun _ _ _ => rfl⟩⟩
          rw [hhl, hsplit]; simp
        | cons na as iha =>
          intro done hsplit h idx states hhl hnl hpre hfr hlen
          obtain ⟨n, a⟩ := na
          have hnd : DNodup o.attrs := wf.nodup l o hl0
          have hsplit' : o.attrs = (done ++ [(n, a)]) ++ as := by rw [hsplit]; simp
          cases a with
          | ref b =>
            have hat : attrAt h0 l n = some (.ref b) := by
              simp only [attrAt, hl0]
              apply mem_dget hnd
              rw [hsplit]; simp
            have hb := wf.refs _ _ _ hat
            have hnotl : ∀ a, Reaches h0 b a → a ≠ l := by
              rintro a ⟨q, hq⟩ rfl
              have := hac a (.refl hl) _ (.step hat hq)
              simp at this
            obtain ⟨vs1, evs1, h1, e1, hv1, hp1, hn1, hx1, hc1, hh1⟩ := ih b (p ++ [n]) h idx states hb
              (Nat.lt_of_lt_of_le (rank_lt hat (hac l (.refl hl))) (Nat.le_of_lt_succ hrank))
              (fun a ha => hac a (ha.head hat)) hpre
              (fun a ha hu => hfr a (hnotl a ha) (ha.head hat) hu) hlen
            have hlt1 : ∀ x ∈ vs1, x.1 < h0.length := fun x hx => by
              obtain ⟨_, q, _, hw⟩ := hx1 x hx; exact hw.lt
            have hl1 : l ∉ vs1.map (·.1) := by
              intro hm
              obtain ⟨x, hx, hxl⟩ := List.mem_map.1 hm
              obtain ⟨_, q, _, hw⟩ := hx1 x hx
              exact hnotl x.1 ⟨q, hw⟩ hxl
            have hpre1 : PopPre h0 h1 (idx ++ vs1.map (fun x => uidAt h0 x.1)) := by
              refine ⟨?_, ?_⟩
              · intro a o0 ha
                by_cases hm : a ∈ vs1.map (·.1)
                · obtain ⟨x, hx, rfl⟩ := List.mem_map.1 hm
                  exact ⟨_, hh1.inside x hx o0 ha, rfl⟩
                · rw [hh1.outside a hm (by simp)]
                  exact hpre.ids a o0 ha
              · intro a hal hu c hc
                rcases List.mem_append.1 hu with hu | hu
                · exact List.mem_append_left _ (hpre.closed a hal hu c hc)
                · obtain ⟨x, hx, hxu⟩ := List.mem_map.1 hu
                  have := uidAt_inj wf (hlt1 x hx) hal hxu
                  subst this
                  obtain ⟨_, q, _, hw⟩ := hx1 x hx
                  exact hc1 c (Reaches.trans ⟨q, hw⟩ hc)
            obtain ⟨vs2, evs2, h2, e2, hv2, hp2, hn2, hx2, hc2, hl2, hh2⟩ := iha (done ++ [(n, .ref b)]) hsplit' h1
              (idx ++ vs1.map (fun x => uidAt h0 x.1)) (insAll preds evs1 states)
              (by
                rw [hh1.outside l hl1 (by simp), hhl]
                have hk : keepAttr preds p (n, Attr.ref b) = true := rfl
                simp [hk])
              (by
                intro hm
                rcases List.mem_append.1 hm with hm | hm
                · exact hnl hm
                · obtain ⟨x, hx, hxu⟩ := List.mem_map.1 hm
                  exact hl1 (List.mem_map.2 ⟨x, hx, uidAt_inj wf (hlt1 x hx) hl hxu⟩))
              hpre1
              (by
                intro a hne ha hu
                have hu1 : uidAt h0 a ∉ idx := fun h => hu (List.mem_append_left _ h)
                have hu2 : a ∉ vs1.map (·.1) := fun h => by
                  obtain ⟨x, hx, rfl⟩ := List.mem_map.1 h
                  exact hu (List.mem_append_right _ (List.mem_map.2 ⟨x, hx, rfl⟩))
                rw [hh1.outside a hu2 (by simp)]
                exact hfr a hne ha hu1)
              (by rw [insAll_length]; exact hlen)
            refine ⟨vs1 ++ vs2, evs1 ++ evs2, h2, ?_, by rw [popVisitAttrs, hv2, hv1], ?_, ?_, ?_, ?_, hl2, ?_⟩
            · rw [popAttrs, e1]
              simp only
              rw [e2]
              simp [insAll, List.foldl_append]
            · simp only [List.flatMap_append]
              have hz : poppedAttrs preds ((n, Attr.ref b) :: as) p = poppedAttrs preds as p := by
                simp [poppedAttrs, ownAttrs]
              rw [hz]
              refine (hp1.append hp2).trans ?_
              rw [← List.append_assoc, ← List.append_assoc]
              exact List.Perm.append_right _ List.perm_append_comm
            · rw [List.map_append, List.nodup_append]
              refine ⟨hn1, hn2, ?_⟩
              intro a ha c hc hac'
              subst hac'
              obtain ⟨x, hx, hxa⟩ := List.mem_map.1 ha
              obtain ⟨y, hy, hya⟩ := List.mem_map.1 hc
              apply (hx2 y hy).1
              apply List.mem_append_right
              exact List.mem_map.2 ⟨x, hx, by rw [hxa, hya]⟩
            · intro x hx
              rcases List.mem_append.1 hx with hx | hx
              · obtain ⟨h1', q, hq, hw⟩ := hx1 x hx
                refine ⟨h1', hnotl x.1 ⟨q, hw⟩, n :: q, by rw [hq]; simp, .step hat hw⟩
              · obtain ⟨h1', h2', h3'⟩ := hx2 x hx
                exact ⟨fun h => h1' (List.mem_append_left _ h), h2', h3'⟩
            · intro m c d hm hd
              rw [List.map_append, ← List.append_assoc]
              rcases List.mem_cons.1 hm with hm | hm
              · cases hm
                exact List.mem_append_left _ (hc1 d hd)
              · exact hc2 m c d hm hd
            · refine ⟨?_, ?_⟩
              · intro x hx o' ho'
                by_cases hx2m : x.1 ∈ vs2.map (·.1)
                · rcases List.mem_append.1 hx with hx' | hx'
                  · exfalso
                    obtain ⟨y, hy, hyx⟩ := List.mem_map.1 hx2m
                    apply (hx2 y hy).1
                    apply List.mem_append_right
                    exact List.mem_map.2 ⟨x, hx', by rw [hyx]⟩
                  · exact hh2.inside x hx' o' ho'
                · rcases List.mem_append.1 hx with hx' | hx'
                  · rw [hh2.outside x.1 hx2m (by
                      obtain ⟨_, q, _, hw⟩ := hx1 x hx'
                      exact hnotl x.1 ⟨q, hw⟩)]
                    exact hh1.inside x hx' o' ho'
                  · exact absurd (List.mem_map.2 ⟨x, hx', rfl⟩) hx2m
              · intro a ha hne
                rw [List.map_append, List.mem_append, not_or] at ha
                rw [hh2.outside a ha.2 hne, hh1.outside a ha.1 (by simp)]
          | val v =>
            by_cases hpop : (v.isNode && AnyP preds (joinSlash (p ++ [n])) v) = true
            · -- the attribute is popped
              simp only [Bool.and_eq_true] at hpop
              have hnk : n ∉ dkeys (done.filter (keepAttr preds p)) := by
                have h1 := hnd
                unfold DNodup dkeys at h1
                rw [hsplit, List.map_append, List.nodup_append] at h1
                intro hm
                obtain ⟨x, hx, rfl⟩ := List.mem_map.1 hm
                exact h1.2.2 x.1 (List.mem_map.2 ⟨x, List.mem_of_mem_filter hx, rfl⟩) x.1 (by simp) rfl
              have hdel : delAttr h l n = .ok (h.set l { o with attrs := done.filter (keepAttr preds p) ++ as }) := by
                simp only [delAttr, hhl]
                rw [if_pos, ddel_middle hnk]
                simp only [dhas, dget_isSome]
                simp
              have hlth : l < h.length := (List.getElem?_eq_some_iff.1 hhl).1
              have hother : ∀ a : Loc, a ≠ l →
                  (h.set l { o with attrs := done.filter (keepAttr preds p) ++ as })[a]? = h[a]? := by
                intro a ha
                rw [List.getElem?_set, if_neg (fun e => ha e.symm)]
              obtain ⟨vs2, evs2, h2, e2, hv2, hp2, hn2, hx2, hc2, hl2, hh2⟩ := iha (done ++ [(n, .val v)]) hsplit'
                (h.set l { o with attrs := done.filter (keepAttr preds p) ++ as }) idx
                (splitInsert preds states (joinSlash (p ++ [n])) v)
                (by
                  rw [List.getElem?_set_self hlth]
                  simp [keepAttr, hpop.1, hpop.2])
                hnl
                (by
                  refine ⟨?_, hpre.closed⟩
                  intro a o0 ha
                  by_cases hal : a = l
                  · subst hal
                    rw [hl0] at ha; cases ha
                    exact ⟨_, List.getElem?_set_self hlth, rfl⟩
                  · rw [hother a hal]; exact hpre.ids a o0 ha)
                (by intro a hne ha hu; rw [hother a hne]; exact hfr a hne ha hu)
                (by rw [splitInsert_length]; exact hlen)
              refine ⟨vs2, (joinSlash (p ++ [n]), v) :: evs2, h2, ?_, hv2, ?_, hn2, hx2, ?_, hl2, ⟨hh2.inside, ?_⟩⟩
              · rw [popAttrs, if_pos hpop.1, popInsert_eq _ _ _ _ hlen, if_pos hpop.2]
                simp only [hdel]
                rw [e2]
                simp [insAll]
              · have hz : poppedAttrs preds ((n, Attr.val v) :: as) p =
                    (joinSlash (p ++ [n]), v) :: poppedAttrs preds as p := by
                  simp [poppedAttrs, ownAttrs, hpop.1, hpop.2]
                rw [hz]
                exact hp2.cons _
              · intro m b c hm
                rcases List.mem_cons.1 hm with hm | hm
                · cases hm
                · exact hc2 m b c hm
              · intro a ha hne
                rw [hh2.outside a ha hne, hother a hne]
            · -- the attribute stays
              have hkeep : keepAttr preds p (n, Attr.val v) = true := by
                simp only [keepAttr]
                cases hb : (v.isNode && AnyP preds (joinSlash (p ++ [n])) v) with
                | false => rfl
                | true => exact absurd hb hpop
              obtain ⟨vs2, evs2, h2, e2, hv2, hp2, hn2, hx2, hc2, hl2, hh2⟩ := iha (done ++ [(n, .val v)]) hsplit' h idx states
                (by
                  rw [hhl]
                  simp [hkeep]) hnl hpre hfr hlen
              refine ⟨vs2, evs2, h2, ?_, hv2, ?_, hn2, hx2, ?_, hl2, hh2⟩
              · rw [popAttrs]
                by_cases hv : v.isNode = true
                · rw [if_pos hv, popInsert_eq _ _ _ _ hlen, if_neg]
                  · exact e2
                  · intro h; apply hpop; simp [hv, h]
                · rw [if_neg hv]; exact e2
              · have hz : poppedAttrs preds ((n, Attr.val v) :: as) p = poppedAttrs preds as p := by
                  by_cases hv : v.isNode = true
                  · have : AnyP preds (joinSlash (p ++ [n])) v = false := by
                      cases hA : AnyP preds (joinSlash (p ++ [n])) v with
                      | false => rfl
                      | true => exact absurd (by simp [hv, hA]) hpop
                    simp [poppedAttrs, ownAttrs, hv, this]
                  · simp [poppedAttrs, ownAttrs, hv]
                rw [hz]; exact hp2
              · intro m b c hm
                rcases List.mem_cons.1 hm with hm | hm
                · cases hm
                · exact hc2 m b c hm
      obtain ⟨vs, evs, h', e, hvs, hperm, hn, hx, hc, hhl, hh⟩ := loop o.attrs [] rfl h idx states
        (by rw [ho]; rfl) hnotin hpre (fun a _ ha hu => hfresh a ha hu) hlen
      have hlvs : l ∉ vs.map (·.1) := by
        intro hm
        obtain ⟨x, hx', hxl⟩ := List.mem_map.1 hm
        exact (hx x hx').2.1 hxl
      refine ⟨vs ++ [(l, p)], evs, h', ?_, by rw [popVisit, hl0]; simp [hin, hvs], ?_, ?_, ?_, ?_, ?_, ?_⟩
      · rw [popRec, ho]
        simp only [hin, if_false]
        rw [e]
        simp [hu0]
      · refine hperm.trans ?_
        rw [List.flatMap_append]
        have : poppedAt h0 preds (l, p) = poppedAttrs preds o.attrs p := by simp [poppedAt, hl0]
        simp only [List.flatMap_cons, List.flatMap_nil, List.append_nil, this]
        exact List.perm_append_comm
      · rw [List.map_append, List.nodup_append]
        refine ⟨hn, by simp, ?_⟩
        intro a ha c hc hac'
        simp only [List.map_cons, List.map_nil, List.mem_singleton] at hc
        subst hac'; subst hc
        exact hlvs ha
      · intro x hx'
        rcases List.mem_append.1 hx' with hx' | hx'
        · obtain ⟨h1, _, h3⟩ := hx x hx'
          exact ⟨h1, h3⟩
        · simp only [List.mem_singleton] at hx'
          subst hx'
          exact ⟨hnotin, [], by simp, .here hl⟩
      · rintro b ⟨q, hq⟩
        rw [List.map_append, ← List.append_assoc]
        cases hq with
        | here _ => exact List.mem_append_right _ (by simp)
        | @step _ c _ n q hat hq =>
          apply List.mem_append_left
          apply hc n c b
          · simp only [attrAt, hl0] at hat
            exact dget_mem hat
          · exact ⟨q, hq⟩
      · intro x hx' o' ho'
        rcases List.mem_append.1 hx' with hx' | hx'
        · exact hh.inside x hx' o' ho'
        · simp only [List.mem_singleton] at hx'
          subst hx'
          simp only at ho' ⊢
          rw [hl0] at ho'; cases ho'
          exact hhl
      · intro a ha _
        rw [List.map_append, List.mem_append, not_or] at ha
        exact hh.outside a ha.1 (by simpa using ha.2)

/-! ### Returning implies acyclic -/

omit [DecidableEq α] in
/-- The edge relation, from child to parent. -/
def Child (h : Heap α) (b a : Loc) : Prop := ∃ n, attrAt h a n = some (.ref b)

omit [DecidableEq α] in
/-- The heap still has the ids and the references of `h0`. -/
def PopRefs (h0 h : Heap α) : Prop := ∀ (a : Loc) (o0 : ModObj α), h0[a]? = some o0 →
  ∃ o, h[a]? = some o ∧ o.uid = o0.uid ∧ DNodup o.attrs ∧
    ∀ n b, (n, Attr.ref b) ∈ o.attrs ↔ (n, Attr.ref b) ∈ o0.attrs

omit [DecidableEq α] in
def AccIdx (h0 : Heap α) (idx : List Nat) : Prop :=
  ∀ a : Loc, a < h0.length → uidAt h0 a ∈ idx → Acc (Child h0) a

omit [DecidableEq α] in
theorem popRefs_delAttr {h0 h h' : Heap α} (hr : PopRefs h0 h) {l : Loc} {n : Str} {o0 : ModObj α}
    (h0l : h0[l]? = some o0) (hn : ∀ b, (n, Attr.ref b) ∉ o0.attrs) (e : delAttr h l n = .ok h') : PopRefs h0 h' := by
  obtain ⟨o, ho, hu, hnd, href⟩ := hr l o0 h0l
  simp only [delAttr, ho] at e
  split at e
  swap
  · cases e
  simp only [Except.ok.injEq] at e
  subst e
  have hlt : l < h.length := (List.getElem?_eq_some_iff.1 ho).1
  intro a oa ha
  by_cases hal : a = l
  · subst hal
    rw [h0l] at ha; cases ha
    refine ⟨_, List.getElem?_set_self hlt, hu, dnodup_ddel hnd _, ?_⟩
    intro m b
    rw [← href m b]
    simp only
    rw [← dget_iff_mem (dnodup_ddel hnd _), ← dget_iff_mem hnd, dget_ddel hnd]
    by_cases hmn : m = n
    · subst hmn
      have : dget o.attrs m ≠ some (.ref b) := fun hd => hn b ((href m b).1 (dget_mem hd))
      simp [this]
    · simp [Ne.symm hmn]
  · rw [List.getElem?_set, if_neg (fun e => hal e.symm)]
    exact hr a oa ha

omit [DecidableEq α] in
theorem popRec_acc {h0 : Heap α} (wf : WFHeap h0) (preds : List (Pred α)) : ∀ (fuel : Nat) (l : Loc) (p : List Str)
    (h : Heap α) (idx : List Nat) (states : List (Dict Str (PyVal α))) (h' : Heap α) (idx' : List Nat)
    (states' : List (Dict Str (PyVal α))), l < h0.length → PopRefs h0 h → AccIdx h0 idx →
    popRec preds fuel l h idx p states = (h', .ok (idx', states')) →
    PopRefs h0 h' ∧ AccIdx h0 idx' ∧ uidAt h0 l ∈ idx' ∧ ∀ u ∈ idx, u ∈ idx' := by
  intro fuel
  induction fuel with
  | zero => intro l p h idx states h' idx' states' _ _ _ e; simp [popRec] at e
  | succ fuel ih =>
    intro l p h idx states h' idx' states' hl hr hacc e
    have h0l := List.getElem?_eq_getElem hl
    generalize h0[l] = o0 at h0l
    obtain ⟨o, ho, hu, hnd, href⟩ := hr l o0 h0l
    have hu0 : uidAt h0 l = o.uid := by rw [uidAt_of h0l, hu]
    rw [popRec, ho] at e
    simp only at e
    split at e
    · next hin =>
      simp only [Prod.mk.injEq, Except.ok.injEq] at e
      obtain ⟨rfl, rfl, rfl⟩ := e
      exact ⟨hr, hacc, by rw [hu0]; exact hin, fun _ h => h⟩
    · next hin =>
      have loop : ∀ (as : List (Str × Attr α)) (h : Heap α) (idx : List Nat) (states : List (Dict Str (PyVal α)))
          (h' : Heap α) (idx' : List Nat) (states' : List (Dict Str (PyVal α))), (∀ x ∈ as, x ∈ o.attrs) →
          PopRefs h0 h → AccIdx h0 idx →
          popAttrs (popRec preds fuel) preds l as h idx p states = (h', .ok (idx', states')) →
          PopRefs h0 h' ∧ AccIdx h0 idx' ∧ (∀ u ∈ idx, u ∈ idx') ∧
            ∀ n b, (n, Attr.ref b) ∈ as → uidAt h0 b ∈ idx' := by
        intro as
        induction as with
        | nil =>
          intro h idx states h' idx' states' _ hr hacc e
          simp only [popAttrs, Prod.mk.injEq, Except.ok.injEq] at e
          obtain ⟨rfl, rfl, rfl⟩ := e
          exact ⟨hr, hacc, fun _ h => h, by simp⟩
        | cons na as iha =>
          intro h idx states h' idx' states' hsub hr hacc e
          obtain ⟨n, a⟩ := na
          have hsub' : ∀ x ∈ as, x ∈ o.attrs := fun x hx => hsub x (List.mem_cons_of_mem _ hx)
          cases a with
          | ref b =>
            have hb : b < h0.length := by
              have := (href n b).1 (hsub _ List.mem_cons_self)
              exact wf.refs l n b (attrAt_of_mem wf h0l this)
            rw [popAttrs] at e
            split at e
            · simp at e
            · next h1 idx1 states1 e1 =>
              obtain ⟨r1, a1, u1, s1⟩ := ih b (p ++ [n]) h idx states h1 idx1 states1 hb hr hacc e1
              obtain ⟨r2, a2, s2, c2⟩ := iha h1 idx1 states1 h' idx' states' hsub' r1 a1 e
              refine ⟨r2, a2, fun u hu => s2 u (s1 u hu), ?_⟩
              intro m c hm
              rcases List.mem_cons.1 hm with hm | hm
              · cases hm; exact s2 _ u1
              · exact c2 m c hm
          | val v =>
            have fin : ∀ h1 states1, PopRefs h0 h1 →
                popAttrs (popRec preds fuel) preds l as h1 idx p states1 = (h', .ok (idx', states')) →
                PopRefs h0 h' ∧ AccIdx h0 idx' ∧ (∀ u ∈ idx, u ∈ idx') ∧
                  ∀ m b, (m, Attr.ref b) ∈ (n, Attr.val v) :: as → uidAt h0 b ∈ idx' := by
              intro h1 states1 hr1 e1
              obtain ⟨r2, a2, s2, c2⟩ := iha h1 idx states1 h' idx' states' hsub' hr1 hacc e1
              refine ⟨r2, a2, s2, ?_⟩
              intro m c hm
              rcases List.mem_cons.1 hm with hm | hm
              · cases hm
              · exact c2 m c hm
            rw [popAttrs] at e
            split at e
            · split at e
              · exact fin h states hr e
              · next states1 _ =>
                split at e
                · simp at e
                · next h1 hd =>
                  refine fin h1 states1 (popRefs_delAttr hr h0l ?_ hd) e
                  intro b hb
                  have h1 := mem_dget hnd ((href n b).2 hb)
                  have h2 := mem_dget hnd (hsub _ List.mem_cons_self)
                  rw [h1] at h2; cases h2
            · exact fin h states hr e
      split at e
      · simp at e
      · next h1 idx1 states1 e1 =>
        simp only [Prod.mk.injEq, Except.ok.injEq] at e
        obtain ⟨rfl, rfl, rfl⟩ := e
        obtain ⟨r1, a1, s1, c1⟩ := loop o.attrs h idx states _ _ _ (fun _ h => h) hr hacc e1
        refine ⟨r1, ?_, List.mem_append_right _ (by simp [hu0]), fun u hu => List.mem_append_left _ (s1 u hu)⟩
        intro a hal hau
        rcases List.mem_append.1 hau with hau | hau
        · exact a1 a hal hau
        · simp only [List.mem_singleton] at hau
          have : a = l := uidAt_inj wf hal hl (by rw [hau, hu0])
          subst this
          constructor
          rintro b ⟨n, hb⟩
          apply a1 b (wf.refs _ _ _ hb)
          apply c1 n b
          rw [href]
          simp only [attrAt, h0l] at hb
          exact dget_mem hb

omit [DecidableEq α] in
theorem acyclic_of_acc {h : Heap α} {a : Loc} (hacc : Acc (Child h) a) : ∀ p, Walk h a p a → p = [] := by
  have key : ∀ p a b, Walk h a p b → p ≠ [] → Relation.TransGen (Child h) b a := by
    intro p a b w
    induction w with
    | here _ => intro h; exact absurd rfl h
    | @step a b c n p e w ih =>
      intro _
      by_cases hp : p = []
      · subst hp
        cases w
        exact .single ⟨n, e⟩
      · exact (ih hp).tail ⟨n, e⟩
  intro p hp
  by_contra hne
  have ht := key p a a hp hne
  have := hacc.transGen
  clear hacc hp
  induction this with
  | intro x _ ih => exact ih x ht ht

omit [DecidableEq α] in
theorem acc_walk {h : Heap α} {a b : Loc} {p : List Str} (w : Walk h a p b) (hacc : Acc (Child h) a) :
    Acc (Child h) b := by
  induction w with
  | here _ => exact hacc
  | @step a b c n p e w ih => exact ih (hacc.inv ⟨n, e⟩)

/-! ### First match -/

omit [DecidableEq α] in
theorem bucket_firstMatch {filters : List (Filter α)} {preds : List (Pred α)} (hp : toPredicates filters = .ok preds)
    {k : Str} {v : PyVal α} {i : Nat} (hi : i < preds.length) :
    bucket preds k v = i ↔ FirstMatch filters k v i := by
  rcases toPredicates_spec filters with ⟨hw, ps, hps, hspec⟩ | ⟨_, e, he'⟩
  swap
  · rw [hp] at he'; simp at he'
  rw [hp] at hps
  simp only [Except.ok.injEq] at hps
  subst hps
  rw [bucket_eq_iff (preds := preds) (k := k) (v := v) hi, FirstMatch, (hspec k v).2.2.2 i]
  constructor
  · rintro ⟨h1, h2⟩
    refine ⟨h1, fun j hj g hg hgm => ?_⟩
    obtain ⟨p, hp1, hp2⟩ := ((hspec k v).2.2.2 j).2 ⟨g, hg, hgm⟩
    rw [h2 j hj p hp1] at hp2
    simp at hp2
  · rintro ⟨h1, h2⟩
    refine ⟨h1, fun j hj p hp1 => ?_⟩
    cases hpv : p k v with
    | false => rfl
    | true =>
      obtain ⟨g, hg, hgm⟩ := ((hspec k v).2.2.2 j).1 ⟨p, hp1, hpv⟩
      exact absurd hgm (h2 j hj g hg)

end Nnx
