import Verif.Proofs.SplitKeys
import Verif.Props.Scan
import Verif.Props.ScanInit
/-
C89: keys drawn in scans.
-/
namespace Nnx
variable {κ η : Type}

/-- **C89.** In every history of `context`, `make_rng`, `partition`, `merge`, `copy`, trace changes and scans (nested and repeated in any way),
the keys returned by `make_rng` are derived from pairwise different draws: a base key, the iterations the stream went through, and a fold-in
string. If every scan splits every stream, all those iterations have split the key. -/
theorem C89_draws_distinct {P : RngPrims κ η} {split : κ → Nat → Nat → κ} {strict : Bool} {bases : List κ} {w : RngWorld κ}
    {pend : List (PureContext κ)} {keys : List κ} (h : SplitHist P split strict bases w pend keys) :
    ∃ draws : List (Draw κ), draws.Nodup ∧ keys = draws.map (Draw.key P split) ∧
      (∀ d ∈ draws, d.base ∈ bases) ∧ (strict = true → ∀ d ∈ draws, ∀ t ∈ d.steps, t.isSplit = true) := by
  obtain ⟨draws, gs, ess, _, _, I, e, _⟩ := h.inv
  refine ⟨draws.map RawDraw.enc, ?_, by rw [e, List.map_map]; rfl, ?_, ?_⟩
  · unfold List.Nodup
    rw [List.pairwise_map]
    refine List.Pairwise.imp_of_mem ?_ I.nodup
    intro a b ha hb hab e
    simp only [RawDraw.enc, Draw.mk.injEq] at e
    exact hab (Prod.ext e.1 (Prod.ext e.2.1 (encodeCounts_inj (I.nonempty a ha) (I.nonempty b hb) e.2.2)))
  · intro d hd
    obtain ⟨x, hx, rfl⟩ := List.mem_map.1 hd
    exact I.from_ x hx
  · intro hs d hd
    obtain ⟨x, hx, rfl⟩ := List.mem_map.1 hd
    exact I.strictD hs x hx

/-- **C89.** If splitting and folding in have no collisions and no base key is the result of a split, two draws can only give the same key if they
have the same base key, the same fold-in string and the same splits: they differ in iterations of scans that did not split the stream. -/
theorem C89_repeats {P : RngPrims κ η} {split : κ → Nat → Nat → κ} (hfree : FreeKeys P split) {strict : Bool} {bases : List κ}
    (hbase : ∀ b ∈ bases, ∀ k n i, b ≠ split k n i) {w : RngWorld κ} {pend : List (PureContext κ)} {keys : List κ}
    (h : SplitHist P split strict bases w pend keys) :
    ∃ draws : List (Draw κ), draws.Nodup ∧ keys = draws.map (Draw.key P split) ∧
      ∀ d ∈ draws, ∀ e ∈ draws, d.key P split = e.key P split →
        d.base = e.base ∧ d.data = e.data ∧ d.steps.filter KeyStep.isSplit = e.steps.filter KeyStep.isSplit := by
  obtain ⟨draws, h1, h2, h3, _⟩ := C89_draws_distinct h
  refine ⟨draws, h1, h2, ?_⟩
  intro d hd e he heq
  obtain ⟨a, b⟩ := hfree.fold _ _ _ _ heq
  obtain ⟨c, f⟩ := steps_free hfree (hbase _ (h3 d hd)) (hbase _ (h3 e he)) _ _ _ rfl a
  exact ⟨c, b, f⟩

/-- **C89.** If, moreover, every scan splits every stream, no key is ever returned twice: not in different iterations, not in nested or
successive scans, not inside and outside. -/
theorem C89_keys_distinct {P : RngPrims κ η} {split : κ → Nat → Nat → κ} (hfree : FreeKeys P split) {bases : List κ}
    (hbase : ∀ b ∈ bases, ∀ k n i, b ≠ split k n i) {w : RngWorld κ} {pend : List (PureContext κ)} {keys : List κ}
    (h : SplitHist P split true bases w pend keys) : keys.Nodup := by
  obtain ⟨draws, h1, rfl, h3, h4⟩ := C89_draws_distinct h
  unfold List.Nodup
  rw [List.pairwise_map]
  refine List.Pairwise.imp_of_mem ?_ h1
  intro d e hd he hne heq
  obtain ⟨a, b⟩ := hfree.fold _ _ _ _ heq
  obtain ⟨c, f⟩ := steps_free hfree (hbase _ (h3 d hd)) (hbase _ (h3 e he)) _ _ _ rfl a
  rw [List.filter_eq_self.2 (h4 rfl d hd), List.filter_eq_self.2 (h4 rfl e he)] at f
  obtain ⟨d1, d2, d3⟩ := d
  obtain ⟨e1, e2, e3⟩ := e
  simp only at c f b
  subst c f b
  exact hne rfl

/-- **C89.** The contexts that scanned functions and scanned constructors get are those of such histories. -/
theorem C89_scan_contexts (split : κ → Nat → Nat → κ) {f : RngFilter} {p : Str → Bool} (hf : toRngPredicate f = .ok p) (n i : Nat)
    (c : PureContext κ) : IterCtx split f n i c (stepCtx split p n i c) ∧ IterCtx split f n i c (initCtx split p n i c) := by
  have hv : f.Valid := by
    by_contra hv
    rw [(toRngPredicate_spec f).2 hv] at hf
    cases hf
  obtain ⟨p', hp', hsel⟩ := (toRngPredicate_spec f).1 hv
  rw [hf] at hp'
  cases hp'
  have hk := stepCtx_keys split p n i c
  have hk' : ∀ name, dget (initCtx split p n i c).keys name = (dget c.keys name).map fun k => if p name then split k n i else k :=
    fun name => dget_map_val (fun m (k : κ) => if p m then split k n i else k) _ _
  refine ⟨⟨?_, ?_, rfl, rfl⟩, ⟨?_, ?_, rfl, rfl⟩⟩
  · intro name k h hs
    rw [hk, h]; simp [(hsel name).2 hs]
  · intro name k h hs
    rw [hk, h]
    simp only [Option.map_some, if_neg (fun hp => hs ((hsel name).1 hp))]
  · intro name k h hs
    rw [hk', h]; simp [(hsel name).2 hs]
  · intro name k h hs
    rw [hk', h]
    simp only [Option.map_some, if_neg (fun hp => hs ((hsel name).1 hp))]

/-! ### Examples -/

/-- Symbolic keys with splits. -/
inductive SymKey2 where
  | prng (n : Int)
  | fold (k : SymKey2) (s : Str)
  | split (k : SymKey2) (n i : Nat)
deriving DecidableEq, Repr

def symPrims2 : RngPrims SymKey2 Str := ⟨.prng, id, .fold⟩

theorem symPrims2_free : FreeKeys symPrims2 SymKey2.split :=
  ⟨fun k s k' s' e => by simpa [symPrims2] using e, fun k n i k' n' i' e => by simpa using e⟩

/-- A context with two streams; a draw; a scan over two iterations that draw from "params" and scan again; a draw after it. -/
def exSplit0 : RngWorld SymKey2 := ⟨[], [], 0, [0]⟩
def exSplit1 : RngWorld SymKey2 := (newContext symPrims2 (some (.seed 0)) [] [(py! "dropout", .seed 1)] exSplit0).1
def exSplit2 : RngWorld SymKey2 := (makeRng symPrims2 0 (py! "params") exSplit1).1
def exSplit3 : RngWorld SymKey2 := (partitionCtx 0 exSplit2).1
def exSplitPure : PureContext SymKey2 := ⟨[(py! "dropout", .prng 1), (py! "params", .prng 0)],
  [(py! "dropout", [0]), (py! "params", [1])], []⟩
def exSplitIter (f : Str → Bool) (i : Nat) : PureContext SymKey2 := stepCtx SymKey2.split f 2 i exSplitPure
def exSplit4 (f : Str → Bool) : RngWorld SymKey2 := (mergeCtx (exSplitIter f 0) exSplit3).1
def exSplit5 (f : Str → Bool) : RngWorld SymKey2 := (makeRng symPrims2 1 (py! "params") (exSplit4 f)).1
def exSplit6 (f : Str → Bool) : RngWorld SymKey2 := (mergeCtx (exSplitIter f 1) (exSplit5 f)).1
def exSplit7 (f : Str → Bool) : RngWorld SymKey2 := (makeRng symPrims2 2 (py! "params") (exSplit6 f)).1
def exSplit8 (f : Str → Bool) : RngWorld SymKey2 := (makeRng symPrims2 0 (py! "params") (exSplit7 f)).1

theorem exSplit_hist (strict : Bool) (f : RngFilter) (p : Str → Bool) (hf : toRngPredicate f = .ok p)
    (hs : strict = true → ∀ name, f.Selects name) (k0 k1 : SymKey2)
    (h0 : makeRng symPrims2 1 (py! "params") (exSplit4 p) = (exSplit5 p, .ok k0))
    (h1 : makeRng symPrims2 2 (py! "params") (exSplit6 p) = (exSplit7 p, .ok k1))
    (hm0 : mergeCtx (exSplitIter p 0) exSplit3 = (exSplit4 p, .ok 1))
    (hm1 : mergeCtx (exSplitIter p 1) (exSplit5 p) = (exSplit6 p, .ok 2))
    (h2 : makeRng symPrims2 0 (py! "params") (exSplit7 p) = (exSplit8 p, .ok (.fold (.prng 0) (encodeCounts [2])))) :
    SplitHist symPrims2 SymKey2.split strict [.prng 1, .prng 0] (exSplit8 p) []
      [.fold (.prng 0) (encodeCounts [2]), k1, k0, .fold (.prng 0) (encodeCounts [0])] := by
  have a1 : SplitHist symPrims2 SymKey2.split strict [.prng 1, .prng 0] exSplit1 [] [] :=
    .create (params := some (.seed 0)) (rngs := [(py! "dropout", .seed 1)]) (flags := []) (.start 0 [0]) ⟨by decide, by decide, by simp [contextArgs]⟩ (by decide) (by simp)
  have a2 : SplitHist symPrims2 SymKey2.split strict _ exSplit2 [] [.fold (.prng 0) (encodeCounts [0])] :=
    .make a1 (c := 0) (name := py! "params") rfl
  have a3 : SplitHist symPrims2 SymKey2.split strict _ exSplit3 [exSplitPure] _ := .partition a2 (c := 0) (by decide)
  have a4 : SplitHist symPrims2 SymKey2.split strict _ exSplit3 ([exSplitIter p 0, exSplitIter p 1] ++ []) _ :=
    .scan a3 (f := f) (List.Perm.refl _) (fun e name _ => hs e name) (by
      intro i c hi
      match i, hi with
      | 0, hi => cases hi; exact (C89_scan_contexts _ hf 2 0 _).1
      | 1, hi => cases hi; exact (C89_scan_contexts _ hf 2 1 _).1)
  have a5 := SplitHist.make (.merge a4 (List.Perm.refl _) hm0) h0
  have a6 := SplitHist.make (.merge a5 (List.Perm.refl _) hm1) h1
  exact .make a6 h2

/-- All streams are split: four different keys. -/
theorem exSplit_strict : SplitHist symPrims2 SymKey2.split true [.prng 1, .prng 0] (exSplit8 fun _ => true) []
    [.fold (.prng 0) (encodeCounts [2]), .fold (.split (.prng 0) 2 1) (encodeCounts [1, 0]), .fold (.split (.prng 0) 2 0) (encodeCounts [1, 0]),
      .fold (.prng 0) (encodeCounts [0])] :=
  exSplit_hist true .ellipsis (fun _ => true) rfl (fun _ _ => trivial) _ _ rfl rfl rfl rfl rfl

example : ([.fold (.prng 0) (encodeCounts [2]), .fold (.split (.prng 0) 2 1) (encodeCounts [1, 0]),
    .fold (.split (.prng 0) 2 0) (encodeCounts [1, 0]), .fold (.prng 0) (encodeCounts [0])] : List SymKey2).Nodup :=
  C89_keys_distinct symPrims2_free (by simp) exSplit_strict

/-- **C89.** The proviso is needed: a stream that the scan does not split gives both iterations the same key. -/
theorem C89_unsplit_repeats : ∃ w keys, SplitHist symPrims2 SymKey2.split false [.prng 1, .prng 0] w [] keys ∧ ¬ keys.Nodup :=
  ⟨_, _, exSplit_hist false (.str (py! "dropout")) (fun name => decide (name = py! "dropout")) rfl (by simp)
    (.fold (.prng 0) (encodeCounts [1, 0])) (.fold (.prng 0) (encodeCounts [1, 0])) rfl rfl rfl rfl rfl, by simp⟩

end Nnx
