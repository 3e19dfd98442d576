import Verif.Spec.Layers
import Verif.Props.Context
import Verif.Props.Conv
import Verif.Props.Normalization

/-!
# C86, C87: the constructors of the layers
-/

namespace Nnx
variable {κ η 𝕜 : Type}

/-! ### Drawing keys -/

theorem drawn_zero (w : RngWorld κ) (s : Nat) : drawn w s 0 = w := by
  unfold drawn
  have : (fun st : RngStream κ => { st with count := st.count + 0 }) = id := by funext st; rfl
  rw [this, List.modify_id]

theorem drawn_drawn (w : RngWorld κ) (s m n : Nat) : drawn (drawn w s m) s n = drawn w s (m + n) := by
  unfold drawn
  simp only [List.modify_modify_eq]
  congr 2
  funext st
  simp [Nat.add_assoc]

theorem usable_drawn (w : RngWorld κ) (s n c : Nat) : usable (drawn w s n) c = usable w c := rfl

theorem ParamsStream.drawn {w : RngWorld κ} {c s : Nat} {st : RngStream κ} (h : ParamsStream w c s st) (n : Nat) :
    ParamsStream (drawn w s n) c s { st with count := st.count + n } := by
  refine ⟨h.ctx, ?_⟩
  simp [Nnx.drawn, h.stream]

theorem keyNo_add (P : RngPrims κ η) (st : RngStream κ) (n i : Nat) :
    RngStream.keyNo P { st with count := st.count + n } i = st.keyNo P (n + i) := by
  simp [RngStream.keyNo, Nat.add_assoc]

theorem makeRng_params (P : RngPrims κ η) {w : RngWorld κ} {c s : Nat} {st : RngStream κ} (h : ParamsStream w c s st) :
    makeRng P c (py! "params") w = (drawn w s 1, .ok (st.keyNo P 0)) := by
  obtain ⟨ctx, hu, hn⟩ := h.ctx
  obtain ⟨h1, h2⟩ := mem_of_usable hu
  have hlt := (List.getElem?_eq_some_iff.1 h.stream)
  obtain ⟨hl, he⟩ := hlt
  simp only [makeRng, h1, hn, h2, if_true, h.stream, bump, Nnx.drawn, RngStream.keyNo, Nat.add_zero]
  congr 2
  rw [List.modify_eq_set_getElem?, h.stream]
  rfl

theorem initParam_eq (P : RngPrims κ η) {w : RngWorld κ} {c s : Nat} {st : RngStream κ} (h : ParamsStream w c s st)
    (init : Initializer κ 𝕜) (shape : List Nat) :
    initParam P c init shape w = (drawn w s 1, .ok (init (st.keyNo P 0) shape)) := by
  rw [initParam, makeRng_params P h]

theorem initOptional_eq (P : RngPrims κ η) {w : RngWorld κ} {c s : Nat} {st : RngStream κ} (h : ParamsStream w c s st)
    (use : Bool) (init : Initializer κ 𝕜) (shape : List Nat) :
    initOptional P c use init shape w =
      (drawn w s use.toNat, .ok (if use then some (init (st.keyNo P 0) shape) else none)) := by
  cases use
  · simp [initOptional, drawn_zero]
  · simp [initOptional, initParam_eq P h]

/-! ### C86 -/

/-- **C86** (Linear): the kernel is initialised with the next key of the stream "params" and the shape
`(in_features, out_features)`, the bias with the key after it and the shape `(out_features,)`.  Without a bias only
one key is drawn.  Nothing else changes. -/
theorem C86_linear (P : RngPrims κ η) {w : RngWorld κ} {c s : Nat} {st : RngStream κ} (h : ParamsStream w c s st)
    (a : LinearArgs κ 𝕜) :
    Linear.create P c a w =
      (drawn w s (if a.useBias then 2 else 1),
       .ok { kernel := a.kernelInit (st.keyNo P 0) [a.inFeatures, a.outFeatures]
             bias := if a.useBias then some (a.biasInit (st.keyNo P 1) [a.outFeatures]) else none }) := by
  simp only [Linear.create, initParam_eq P h, initOptional_eq P (h.drawn 1), drawn_drawn, keyNo_add]
  cases a.useBias <;> rfl

/-- **C86** (Conv): as for `Linear`, with a kernel of shape `kernel_size + (in_features // groups, out_features)`. -/
theorem C86_conv (P : RngPrims κ η) {w : RngWorld κ} {c s : Nat} {st : RngStream κ} (h : ParamsStream w c s st)
    (a : ConvArgs κ 𝕜) (ks : List Nat) (hk : a.kernelSize = .seq ks) (hg : a.featureGroupCount ≠ 0) :
    Conv.create P c a w =
      (drawn w s (if a.useBias then 2 else 1),
       .ok { kernel := a.kernelInit (st.keyNo P 0) (ks ++ [a.inFeatures / a.featureGroupCount, a.outFeatures])
             bias := if a.useBias then some (a.biasInit (st.keyNo P 1) [a.outFeatures]) else none
             inFeatures := a.inFeatures, kernelSize := ks, strides := a.strides, padding := a.padding
             inputDilation := a.inputDilation, kernelDilation := a.kernelDilation
             featureGroupCount := a.featureGroupCount, useBias := a.useBias, maskFn := a.maskFn }) := by
  simp only [Conv.create, hk, if_neg hg, initParam_eq P h, initOptional_eq P (h.drawn 1), drawn_drawn, keyNo_add]
  cases a.useBias <;> rfl

/-- **C86** (Conv): an int as kernel size is rejected, and no key is drawn. -/
theorem C86_conv_int (P : RngPrims κ η) (w : RngWorld κ) (c : Nat) (a : ConvArgs κ 𝕜) (n : Int)
    (hk : a.kernelSize = .int n) : Conv.create P c a w = (w, .error .typeError) := by
  simp [Conv.create, hk]

/-- **C86** (Embed): one key, and an array of shape `(num_embeddings, features)`. -/
theorem C86_embed (P : RngPrims κ η) {w : RngWorld κ} {c s : Nat} {st : RngStream κ} (h : ParamsStream w c s st)
    (a : EmbedArgs κ 𝕜) :
    Embed.create P c a w =
      (drawn w s 1, .ok { embedding := a.embeddingInit (st.keyNo P 0) [a.numEmbeddings, a.features] }) := by
  simp only [Embed.create, initParam_eq P h]

/-- **C86** (BatchNorm): the statistics start as 0 and 1; the scale gets the next key and the bias the one after it,
if there is a scale, and the next key if there is none. -/
theorem C86_batch_norm [Zero 𝕜] [One 𝕜] (P : RngPrims κ η) {w : RngWorld κ} {c s : Nat} {st : RngStream κ}
    (h : ParamsStream w c s st) (a : BatchNormArgs κ 𝕜) :
    BatchNorm.create P c a w =
      (drawn w s ((if a.useScale then 1 else 0) + (if a.useBias then 1 else 0)),
       .ok { mean := ⟨[a.numFeatures], fun _ => 0⟩, var := ⟨[a.numFeatures], fun _ => 1⟩
             scale := if a.useScale then some (a.scaleInit (st.keyNo P 0) [a.numFeatures]) else none
             bias := if a.useBias then
                 some (a.biasInit (st.keyNo P (if a.useScale then 1 else 0)) [a.numFeatures]) else none
             useRunningAverage := a.useRunningAverage, axis := a.axis, momentum := a.momentum
             epsilon := a.epsilon }) := by
  simp only [BatchNorm.create, initOptional_eq P h, initOptional_eq P (h.drawn _), drawn_drawn, keyNo_add]
  cases a.useScale <;> cases a.useBias <;> rfl

/-- **C86** (LayerNorm): the parameters as for `BatchNorm`. -/
theorem C86_layer_norm (P : RngPrims κ η) {w : RngWorld κ} {c s : Nat} {st : RngStream κ}
    (h : ParamsStream w c s st) (a : LayerNormArgs κ 𝕜) :
    LayerNorm.create P c a w =
      (drawn w s ((if a.useScale then 1 else 0) + (if a.useBias then 1 else 0)),
       .ok { scale := if a.useScale then some (a.scaleInit (st.keyNo P 0) [a.numFeatures]) else none
             bias := if a.useBias then
                 some (a.biasInit (st.keyNo P (if a.useScale then 1 else 0)) [a.numFeatures]) else none
             reductionAxes := a.reductionAxes, featureAxes := a.featureAxes, epsilon := a.epsilon }) := by
  simp only [LayerNorm.create, initOptional_eq P h, initOptional_eq P (h.drawn _), drawn_drawn, keyNo_add]
  cases a.useScale <;> cases a.useBias <;> rfl

/-- A layer in terms of the state of the stream "params". -/
def LayerArgs.built [Zero 𝕜] [One 𝕜] (P : RngPrims κ η) (st : RngStream κ) : LayerArgs κ 𝕜 → NnLayer 𝕜
  | .linear a =>
    .linear { kernel := a.kernelInit (st.keyNo P 0) [a.inFeatures, a.outFeatures]
              bias := if a.useBias then some (a.biasInit (st.keyNo P 1) [a.outFeatures]) else none }
  | .conv a =>
    let ks := match a.kernelSize with | .seq ks => ks | .int _ => []
    .conv { kernel := a.kernelInit (st.keyNo P 0) (ks ++ [a.inFeatures / a.featureGroupCount, a.outFeatures])
            bias := if a.useBias then some (a.biasInit (st.keyNo P 1) [a.outFeatures]) else none
            inFeatures := a.inFeatures, kernelSize := ks, strides := a.strides, padding := a.padding
            inputDilation := a.inputDilation, kernelDilation := a.kernelDilation
            featureGroupCount := a.featureGroupCount, useBias := a.useBias, maskFn := a.maskFn }
  | .embed a => .embed { embedding := a.embeddingInit (st.keyNo P 0) [a.numEmbeddings, a.features] }
  | .batchNorm a =>
    .batchNorm { mean := ⟨[a.numFeatures], fun _ => 0⟩, var := ⟨[a.numFeatures], fun _ => 1⟩
                 scale := if a.useScale then some (a.scaleInit (st.keyNo P 0) [a.numFeatures]) else none
                 bias := if a.useBias then
                   some (a.biasInit (st.keyNo P (if a.useScale then 1 else 0)) [a.numFeatures]) else none
                 useRunningAverage := a.useRunningAverage, axis := a.axis, momentum := a.momentum
                 epsilon := a.epsilon }
  | .layerNorm a =>
    .layerNorm { scale := if a.useScale then some (a.scaleInit (st.keyNo P 0) [a.numFeatures]) else none
                 bias := if a.useBias then
                   some (a.biasInit (st.keyNo P (if a.useScale then 1 else 0)) [a.numFeatures]) else none
                 reductionAxes := a.reductionAxes, featureAxes := a.featureAxes, epsilon := a.epsilon }

theorem create_built [Zero 𝕜] [One 𝕜] (P : RngPrims κ η) (a : LayerArgs κ 𝕜) (ha : a.Acceptable) {w : RngWorld κ}
    {c s : Nat} {st : RngStream κ} (h : ParamsStream w c s st) :
    a.create P c w = (drawn w s a.requests.length, .ok (a.built P st)) := by
  cases a with
  | linear a =>
    simp only [LayerArgs.create, C86_linear P h, asLayer, LayerArgs.requests, LayerArgs.built]
    cases a.useBias <;> rfl
  | conv a =>
    obtain ⟨⟨ks, hk⟩, hg⟩ := ha
    simp only [LayerArgs.create, C86_conv P h a ks hk hg, asLayer, LayerArgs.requests, LayerArgs.built, hk]
    cases a.useBias <;> rfl
  | embed a => simp only [LayerArgs.create, C86_embed P h, asLayer, LayerArgs.requests, LayerArgs.built]; rfl
  | batchNorm a =>
    simp only [LayerArgs.create, C86_batch_norm P h, asLayer, LayerArgs.requests, LayerArgs.built]
    cases a.useScale <;> cases a.useBias <;> rfl
  | layerNorm a =>
    simp only [LayerArgs.create, C86_layer_norm P h, asLayer, LayerArgs.requests, LayerArgs.built]
    cases a.useScale <;> cases a.useBias <;> rfl

theorem built_params [Zero 𝕜] [One 𝕜] (P : RngPrims κ η) (a : LayerArgs κ 𝕜) (ha : a.Acceptable) (st : RngStream κ) :
    (a.built P st).params = initialised a.requests ((List.range a.requests.length).map (st.keyNo P)) := by
  cases a with
  | linear a => 
    simp only [LayerArgs.requests, LayerArgs.built, NnLayer.params]
    cases a.useBias <;> rfl
  | conv a =>
    obtain ⟨⟨ks, hk⟩, hg⟩ := ha
    simp only [LayerArgs.requests, LayerArgs.built, NnLayer.params, hk]
    cases a.useBias <;> rfl
  | embed a => rfl
  | batchNorm a =>
    simp only [LayerArgs.requests, LayerArgs.built, NnLayer.params]
    cases a.useScale <;> cases a.useBias <;> rfl
  | layerNorm a =>
    simp only [LayerArgs.requests, LayerArgs.built, NnLayer.params]
    cases a.useScale <;> cases a.useBias <;> rfl

/-- The layers in terms of the state of the stream "params". -/
def builtAll [Zero 𝕜] [One 𝕜] (P : RngPrims κ η) : RngStream κ → List (LayerArgs κ 𝕜) → List (NnLayer 𝕜)
  | _, [] => []
  | st, a :: as => a.built P st :: builtAll P { st with count := st.count + a.requests.length } as

theorem createAll_built [Zero 𝕜] [One 𝕜] (P : RngPrims κ η) (c : Nat) : ∀ (as : List (LayerArgs κ 𝕜)),
    (∀ a ∈ as, a.Acceptable) → ∀ {w : RngWorld κ} {s : Nat} {st : RngStream κ}, ParamsStream w c s st →
    createAll P (as.map (c, ·)) w =
      (drawn w s (as.flatMap LayerArgs.requests).length, .ok (builtAll P st as)) := by
  intro as
  induction as with
  | nil => intro _ w s st _; simp [createAll, builtAll, drawn_zero]
  | cons a as ih =>
    intro ha w s st h
    simp only [List.map_cons, createAll, create_built P a (ha a (by simp)) h,
      ih (fun a' h' => ha a' (by simp [h'])) (h.drawn _), drawn_drawn, builtAll, List.flatMap_cons, List.length_append]

theorem initialised_append (r r' : List (Initializer κ 𝕜 × List Nat)) (ks ks' : List κ) (h : ks.length = r.length) :
    initialised (r ++ r') (ks ++ ks') = initialised r ks ++ initialised r' ks' := by
  unfold initialised
  rw [List.zipWith_append h.symm]

theorem builtAll_params [Zero 𝕜] [One 𝕜] (P : RngPrims κ η) : ∀ (as : List (LayerArgs κ 𝕜)),
    (∀ a ∈ as, a.Acceptable) → ∀ (st : RngStream κ),
    (builtAll P st as).flatMap NnLayer.params =
      initialised (as.flatMap LayerArgs.requests)
        ((List.range (as.flatMap LayerArgs.requests).length).map (st.keyNo P)) := by
  intro as
  induction as with
  | nil => intro _ st; rfl
  | cons a as ih =>
    intro ha st
    rw [builtAll, List.flatMap_cons, List.flatMap_cons, List.length_append, List.range_add, List.map_append,
      initialised_append _ _ _ _ (by simp), built_params P a (ha a (by simp)), ih (fun a' h' => ha a' (by simp [h']))]
    congr 2
    rw [List.map_map]
    apply List.map_congr_left
    intro i _
    exact keyNo_add P st _ i

/-- **C86** (a model): layers constructed one after the other with the same context get the keys of its stream
"params" in order, one key per array and none twice, whatever the layers are; nothing but the position of that stream
changes. -/
theorem C86_model [Zero 𝕜] [One 𝕜] (P : RngPrims κ η) {w : RngWorld κ} {c s : Nat} {st : RngStream κ}
    (h : ParamsStream w c s st) (as : List (LayerArgs κ 𝕜)) (ha : ∀ a ∈ as, a.Acceptable) :
    ∃ ls, createAll P (as.map (c, ·)) w = (drawn w s (as.flatMap LayerArgs.requests).length, .ok ls) ∧
      ls.flatMap NnLayer.params =
        initialised (as.flatMap LayerArgs.requests)
          ((List.range (as.flatMap LayerArgs.requests).length).map (st.keyNo P)) :=
  ⟨_, createAll_built P c as ha h, builtAll_params P as ha st⟩

/-- **C86** (reproducible): two contexts whose streams "params" have the same key, fork path and position give the
same layers, whatever else differs: other streams, flags, other contexts. -/
theorem C86_reproducible [Zero 𝕜] [One 𝕜] (P : RngPrims κ η) {w w' : RngWorld κ} {c c' s s' : Nat} {st : RngStream κ}
    (h : ParamsStream w c s st) (h' : ParamsStream w' c' s' st) (as : List (LayerArgs κ 𝕜))
    (ha : ∀ a ∈ as, a.Acceptable) :
    ∃ ls, (createAll P (as.map (c, ·)) w).2 = .ok ls ∧ (createAll P (as.map (c', ·)) w').2 = .ok ls :=
  ⟨_, by rw [createAll_built P c as ha h], by rw [createAll_built P c' as ha h']⟩

/-- **C86** (errors): without a stream "params" a layer with parameters raises `ValueError`, and with a context of
another trace `TraceContextError`; the world is unchanged. -/
theorem C86_errors [Zero 𝕜] [One 𝕜] (P : RngPrims κ η) {w : RngWorld κ} (hw : WFRng w) {c : Nat} {ctx : CtxObj}
    (hc : w.ctxs[c]? = some ctx) (a : LayerArgs κ 𝕜) (ha : a.Acceptable) (hne : a.requests ≠ []) :
    (ctx.hasRng (py! "params") = false → a.create P c w = (w, .error .valueError)) ∧
    (ctx.hasRng (py! "params") = true → ctx.trace ≠ w.curTrace → a.create P c w = (w, .error .traceContextError)) := by
  have key : ∀ e, makeRng P c (py! "params") w = (w, .error e) → a.create P c w = (w, .error e) := by
    intro e he
    have h1 : ∀ (init : Initializer κ 𝕜) shape, initParam P c init shape w = (w, .error e) := by
      intro init shape; rw [initParam, he]
    have h2 : ∀ (init : Initializer κ 𝕜) shape, initOptional P c true init shape w = (w, .error e) := by
      intro init shape; simp [initOptional, h1]
    have h3 : ∀ (init : Initializer κ 𝕜) shape, initOptional P c false init shape w = (w, .ok none) := by
      intro init shape; simp [initOptional]
    cases a with
    | linear a => simp [LayerArgs.create, Linear.create, h1, asLayer]
    | conv a =>
      obtain ⟨⟨ks, hk⟩, hg⟩ := ha
      simp [LayerArgs.create, Conv.create, hk, hg, h1, asLayer]
    | embed a => simp [LayerArgs.create, Embed.create, h1, asLayer]
    | batchNorm a =>
      cases hs : a.useScale <;> cases hb : a.useBias <;>
        simp [LayerArgs.create, BatchNorm.create, hs, hb, h2, h3, asLayer]
      simp [LayerArgs.requests, hs, hb] at hne
    | layerNorm a =>
      cases hs : a.useScale <;> cases hb : a.useBias <;>
        simp [LayerArgs.create, LayerNorm.create, hs, hb, h2, h3, asLayer]
      simp [LayerArgs.requests, hs, hb] at hne
  obtain ⟨e1, e2, -⟩ := C31_errors P hw hc (py! "params")
  have hf := (C31_failure_consumes_nothing P c (py! "params") w).1
  exact ⟨fun h => key _ (Prod.ext (hf _ (e1 h)) (e1 h)), fun h ht => key _ (Prod.ext (hf _ (e2 h ht)) (e2 h ht))⟩

/-! ### Keys of a history -/

theorem hist_param {P : RngPrims κ η} {w w' : RngWorld κ} {pend : List (PureContext κ)} {keys : List κ}
    (h : RngHist P w pend keys) {c : Nat} {init : Initializer κ 𝕜} {shape : List Nat} {t : Tensor 𝕜}
    (he : initParam P c init shape w = (w', .ok t)) :
    ∃ k, RngHist P w' pend (k :: keys) ∧ t = init k shape := by
  unfold initParam at he
  split at he
  · cases he
  next w1 k hk =>
    cases he
    exact ⟨k, h.make hk, rfl⟩

theorem hist_optional {P : RngPrims κ η} {w w' : RngWorld κ} {pend : List (PureContext κ)} {keys : List κ}
    (h : RngHist P w pend keys) {c : Nat} {use : Bool} {init : Initializer κ 𝕜} {shape : List Nat}
    {t : Option (Tensor 𝕜)} (he : initOptional P c use init shape w = (w', .ok t)) :
    ∃ ks, RngHist P w' pend (ks.reverse ++ keys) ∧ ks.length = (if use then [(init, shape)] else []).length ∧
      t.toList = initialised (if use then [(init, shape)] else []) ks := by
  cases use with
  | false =>
    simp only [initOptional, Bool.false_eq_true, if_false] at he
    cases he
    exact ⟨[], h, rfl, rfl⟩
  | true =>
    simp only [initOptional, if_true] at he
    split at he
    · cases he
    next w1 t1 h1 =>
      cases he
      obtain ⟨k, hk, rfl⟩ := hist_param h h1
      exact ⟨[k], hk, rfl, rfl⟩

theorem hist_create [Zero 𝕜] [One 𝕜] {P : RngPrims κ η} {w w' : RngWorld κ} {pend : List (PureContext κ)}
    {keys : List κ} (h : RngHist P w pend keys) {c : Nat} {a : LayerArgs κ 𝕜} {l : NnLayer 𝕜}
    (he : a.create P c w = (w', .ok l)) :
    ∃ ks, RngHist P w' pend (ks.reverse ++ keys) ∧ ks.length = a.requests.length ∧
      l.params = initialised a.requests ks := by
  have two : ∀ {w1 w2 : RngWorld κ} {c : Nat} {init init' : Initializer κ 𝕜} {sh sh' : List Nat} {t : Tensor 𝕜}
      {use : Bool} {o : Option (Tensor 𝕜)}, initParam P c init sh w = (w1, .ok t) →
      initOptional P c use init' sh' w1 = (w2, .ok o) →
      ∃ ks, RngHist P w2 pend (ks.reverse ++ keys) ∧
        ks.length = ((init, sh) :: (if use then [(init', sh')] else [])).length ∧
        t :: o.toList = initialised ((init, sh) :: (if use then [(init', sh')] else [])) ks := by
    intro w1 w2 c init init' sh sh' t use o h1 h2
    obtain ⟨k, hk, rfl⟩ := hist_param h h1
    obtain ⟨ks, g1, g2, g3⟩ := hist_optional hk h2
    refine ⟨k :: ks, by simpa using g1, by simp [g2], by rw [g3]; rfl⟩
  have opt : ∀ {w1 w2 : RngWorld κ} {c : Nat} {init init' : Initializer κ 𝕜} {sh sh' : List Nat}
      {use use' : Bool} {o o' : Option (Tensor 𝕜)}, initOptional P c use init sh w = (w1, .ok o) →
      initOptional P c use' init' sh' w1 = (w2, .ok o') →
      ∃ ks, RngHist P w2 pend (ks.reverse ++ keys) ∧
        ks.length = ((if use then [(init, sh)] else []) ++ (if use' then [(init', sh')] else [])).length ∧
        o.toList ++ o'.toList =
          initialised ((if use then [(init, sh)] else []) ++ (if use' then [(init', sh')] else [])) ks := by
    intro w1 w2 c init init' sh sh' use use' o o' h1 h2
    obtain ⟨ks, g1, g2, g3⟩ := hist_optional h h1
    obtain ⟨ks', g1', g2', g3'⟩ := hist_optional g1 h2
    refine ⟨ks ++ ks', by simpa using g1', by simp [g2, g2'], ?_⟩
    rw [g3, g3', initialised_append _ _ _ _ g2]
  cases a with
  | linear a =>
    simp only [LayerArgs.create, Linear.create] at he
    split at he
    · cases he
    next w1 k1 h1 =>
    split at he
    · cases he
    next w2 b1 h2 => cases he; exact two h1 h2
  | conv a =>
    simp only [LayerArgs.create, Conv.create] at he
    split at he
    · cases he
    next ks hk =>
    split at he
    · cases he
    split at he
    · cases he
    next w1 k1 h1 =>
    split at he
    · cases he
    next w2 b1 h2 =>
      cases he
      simp only [LayerArgs.requests, hk]
      exact two h1 h2
  | embed a =>
    simp only [LayerArgs.create, Embed.create] at he
    split at he
    · cases he
    next w1 k1 h1 =>
      cases he
      obtain ⟨k, hk, rfl⟩ := hist_param h h1
      exact ⟨[k], hk, rfl, rfl⟩
  | batchNorm a =>
    simp only [LayerArgs.create, BatchNorm.create] at he
    split at he
    · cases he
    next w1 k1 h1 =>
    split at he
    · cases he
    next w2 b1 h2 => cases he; exact opt h1 h2
  | layerNorm a =>
    simp only [LayerArgs.create, LayerNorm.create] at he
    split at he
    · cases he
    next w1 k1 h1 =>
    split at he
    · cases he
    next w2 b1 h2 => cases he; exact opt h1 h2

/-- **C86** (fresh keys): layers constructed at any point of any history of calls, with any contexts, are initialised
with keys that belong to the history: one for each array, in order, as if the caller had drawn them. -/
theorem C86_history [Zero 𝕜] [One 𝕜] {P : RngPrims κ η} : ∀ (as : List (Nat × LayerArgs κ 𝕜)) {w w' : RngWorld κ}
    {pend : List (PureContext κ)} {keys : List κ} {ls : List (NnLayer 𝕜)}, RngHist P w pend keys →
    createAll P as w = (w', .ok ls) →
    ∃ ks, RngHist P w' pend (ks.reverse ++ keys) ∧
      ks.length = (as.flatMap fun x => x.2.requests).length ∧
      ls.flatMap NnLayer.params = initialised (as.flatMap fun x => x.2.requests) ks := by
  intro as
  induction as with
  | nil =>
    intro w w' pend keys ls h he
    cases he
    exact ⟨[], h, rfl, rfl⟩
  | cons x as ih =>
    obtain ⟨c, a⟩ := x
    intro w w' pend keys ls h he
    simp only [createAll] at he
    split at he
    · cases he
    next w1 l1 h1 =>
    split at he
    · cases he
    next w2 ls2 h2 =>
      cases he
      obtain ⟨ks, g1, g2, g3⟩ := hist_create h h1
      obtain ⟨ks', g1', g2', g3'⟩ := ih g1 h2
      refine ⟨ks ++ ks', by simpa using g1', by simp [g2, g2'], ?_⟩
      rw [List.flatMap_cons, List.flatMap_cons, g3, g3', initialised_append _ _ _ _ g2]

/-- **C86** (fresh keys): if `fold_in` and the hash have no collisions, no two arrays of the layers are initialised
with the same key, and none with a key that was returned before. -/
theorem C86_keys_distinct [Zero 𝕜] [One 𝕜] {P : RngPrims κ η}
    (hinj : ∀ k s k' s', P.foldIn k (P.hash s) = P.foldIn k' (P.hash s') → k = k' ∧ s = s')
    (as : List (Nat × LayerArgs κ 𝕜)) {w w' : RngWorld κ} {pend : List (PureContext κ)} {keys : List κ}
    {ls : List (NnLayer 𝕜)} (h : RngHist P w pend keys) (he : createAll P as w = (w', .ok ls)) :
    ∃ ks, ks.length = (as.flatMap fun x => x.2.requests).length ∧
      ls.flatMap NnLayer.params = initialised (as.flatMap fun x => x.2.requests) ks ∧
      ks.Nodup ∧ ∀ k ∈ ks, k ∉ keys := by
  obtain ⟨ks, g1, g2, g3⟩ := C86_history as h he
  have hn := C29_keys_distinct hinj g1
  rw [List.nodup_append] at hn
  refine ⟨ks, g2, g3, List.nodup_reverse.1 hn.1, fun k hk hk' => hn.2.2 k (by simpa using hk) k hk' rfl⟩

/-! ### C87: construct, then call -/

section
variable [Field 𝕜]

/-- **C87** (Linear): a `Linear(m, n)` takes every array whose last dimension is `m` and replaces that dimension by
`n`: each output is the inner product with a column of the kernel plus the bias. -/
theorem C87_linear (P : RngPrims κ η) {w : RngWorld κ} {c s : Nat} {st : RngStream κ} (h : ParamsStream w c s st)
    (a : LinearArgs κ 𝕜) (hk : a.kernelInit.Sized) (hb : a.biasInit.Sized) (x : Tensor 𝕜) (B : List Nat)
    (hx : x.shape = B ++ [a.inFeatures]) :
    ∃ w' l y, Linear.create P c a w = (w', .ok l) ∧ l.call x = .ok y ∧ y.shape = B ++ [a.outFeatures] ∧
      ∀ b j, Within b B → j < a.outFeatures →
        y.val (b ++ [j]) = ((List.range a.inFeatures).map fun i =>
            x.val (b ++ [i]) * (a.kernelInit (st.keyNo P 0) [a.inFeatures, a.outFeatures]).val [i, j]).sum +
          (if a.useBias then (a.biasInit (st.keyNo P 1) [a.outFeatures]).val [j] else 0) := by
  have he := C86_linear P h a
  obtain ⟨y, h1, h2, h3⟩ := C77_linear
    { kernel := a.kernelInit (st.keyNo P 0) [a.inFeatures, a.outFeatures],
      bias := if a.useBias then some (a.biasInit (st.keyNo P 1) [a.outFeatures]) else none } x B a.inFeatures
    a.outFeatures hx (hk _ _) (by
      intro b hb'
      dsimp only at hb'
      split at hb'
      · cases hb'; exact hb _ _
      · cases hb')
  refine ⟨_, _, y, he, h1, h2, fun b j hb' hj => ?_⟩
  rw [h3 b j hb' hj]
  congr 1
  cases a.useBias <;> rfl

omit [Field 𝕜] in
/-- **C87** (Embed): an `Embed(n, d)` takes every array of indices and appends a dimension of size `d`: the row of
the embedding at an index in range. -/
theorem C87_embed (P : RngPrims κ η) {w : RngWorld κ} {c s : Nat} {st : RngStream κ} (h : ParamsStream w c s st)
    (a : EmbedArgs κ 𝕜) (hi : a.embeddingInit.Sized) (oob : Int → Nat → 𝕜) (x : Tensor Int) :
    ∃ w' l y, Embed.create P c a w = (w', .ok l) ∧ l.call true oob x = .ok y ∧ y.shape = x.shape ++ [a.features] ∧
      ∀ idx i j, Within idx x.shape → x.val idx = (i : Nat) → i < a.numEmbeddings → j < a.features →
        y.val (idx ++ [j]) = (a.embeddingInit (st.keyNo P 0) [a.numEmbeddings, a.features]).val [i, j] := by
  obtain ⟨y, h1, h2, h3⟩ := C78_lookup ⟨a.embeddingInit (st.keyNo P 0) [a.numEmbeddings, a.features]⟩ oob x
    a.numEmbeddings a.features (hi _ _)
  exact ⟨_, _, y, C86_embed P h a, h1, h2, h3⟩

/-- **C87** (Conv): a `Conv` with `groups` dividing both numbers of features fits every geometry its attributes
describe; in particular (C64) it takes every input with the right number of features and spatial dimensions, and
gives the documented convolution. -/
theorem C87_conv (P : RngPrims κ η) {w : RngWorld κ} {c s : Nat} {st : RngStream κ} (h : ParamsStream w c s st)
    (a : ConvArgs κ 𝕜) (sd : List SpatialDim) (inF : Nat) (hk : a.kernelInit.Sized) (hb : a.biasInit.Sized)
    (hmask : ∀ f, a.maskFn = some f → ∀ t, (f t).shape = t.shape) (hsize : a.kernelSize = .seq (sd.map SpatialDim.kLen))
    (hstr : a.strides.Says (sd.map SpatialDim.stride)) (hid : a.inputDilation.Says (sd.map SpatialDim.inDil))
    (hkd : a.kernelDilation.Says (sd.map SpatialDim.kDil)) (hg : a.featureGroupCount ≠ 0)
    (hin : a.inFeatures = inF * a.featureGroupCount) (hout : a.outFeatures % a.featureGroupCount = 0)
    (x : Tensor 𝕜) (B : List Nat) (hx : x.shape = B ++ (sd.map SpatialDim.inLen ++ [a.inFeatures])) :
    ∃ w' cv, Conv.create P c a w = (w', .ok cv) ∧ cv.padding = a.padding ∧
      cv.usedKernel = a.maskFn.elim id (fun f => f)
        (a.kernelInit (st.keyNo P 0) (sd.map SpatialDim.kLen ++ [inF, a.outFeatures])) ∧
      (cv.PaddedAs sd → ∃ y, cv.call x = .ok y ∧ y.shape = B ++ (sd.map SpatialDim.outLen ++ [a.outFeatures]) ∧
        ∀ b o f, Within b B → Within o (sd.map SpatialDim.outLen) → f < a.outFeatures →
          y.val (b ++ (o ++ [f])) =
            convEntry (sd.map SpatialDim.kLen) inF (f / (a.outFeatures / a.featureGroupCount)) (cv.reads sd o)
              (fun q i => x.val (b ++ (q ++ [i]))) cv.usedKernel f +
            (if a.useBias then (a.biasInit (st.keyNo P 1) [a.outFeatures]).val [f] else 0)) := by
  have hdiv : a.inFeatures / a.featureGroupCount = inF := by
    rw [hin]; exact Nat.mul_div_cancel _ (Nat.pos_of_ne_zero hg)
  have he := C86_conv P h a _ hsize hg
  rw [hdiv] at he
  refine ⟨_, _, he, rfl, ?_, fun hpad => ?_⟩
  · simp only [Conv.usedKernel]
    cases a.maskFn <;> rfl
  · generalize hcv : (Conv.mk (𝕜 := 𝕜) _ _ _ _ _ _ _ _ _ _ _) = cv at hpad ⊢
    have hfit : cv.Fits sd inF a.outFeatures := by
      subst hcv
      refine ⟨rfl, hstr, hid, hkd, ?_, hg, hout, hin, fun hu => ⟨_, if_pos hu, hb _ _⟩⟩
      simp only [Conv.usedKernel]
      cases hm : a.maskFn with
      | none => exact hk _ _
      | some f => rw [Option.elim, hmask f hm]; exact hk _ _
    have e1 : cv.featureGroupCount = a.featureGroupCount := by subst hcv; rfl
    obtain ⟨y, h1, h2, h3⟩ := C64_conv cv x sd B inF a.outFeatures hfit hpad (by rw [hx, e1, hin])
    refine ⟨y, h1, h2, fun b o f hb' ho hf => ?_⟩
    rw [h3 b o f hb' ho hf, e1]
    congr 1
    subst hcv
    simp only [Conv.biasAt]
    cases a.useBias <;> rfl

end

section
variable [Field 𝕜] [LinearOrder 𝕜]

variable [IsStrictOrderedRing 𝕜]

/-- **C87** (BatchNorm): after any history of calls on a new `BatchNorm(n)`, a call with running averages normalizes
with the exponential moving average, started at 0, of the batch means of the training calls, and with that of the
batch variances, started at 1; it scales and shifts by the initial parameters. -/
theorem C87_batch_norm (P : RngPrims κ η) {w : RngWorld κ} {c s : Nat} {st : RngStream κ} (h : ParamsStream w c s st)
    (a : BatchNormArgs κ 𝕜) (hs : a.scaleInit.Sized) (hb : a.biasInit.Sized) (rsqrt : 𝕜 → 𝕜)
    (calls : List (BnCall 𝕜)) (pos : Nat → Nat)
    (hcalls : ∀ c ∈ calls, (∃ b, firstFrom [c.arg, a.useRunningAverage, c.flag] = .ok b) ∧
      NamesAxis a.axis c.x.shape.length (pos c.x.shape.length) ∧
      c.x.shape[pos c.x.shape.length]? = some a.numFeatures ∧ 0 < size c.x.shape)
    (x : Tensor 𝕜) (arg flag : Option Bool) (hmode : firstFrom [arg, a.useRunningAverage, flag] = .ok true)
    (haxis : NamesAxis a.axis x.shape.length (pos x.shape.length))
    (hn : x.shape[pos x.shape.length]? = some a.numFeatures) :
    ∃ w' bn y, BatchNorm.create P c a w = (w', .ok bn) ∧
      (bnRun rsqrt bn calls).call rsqrt x arg flag = (bnRun rsqrt bn calls, .ok y) ∧ y.shape = x.shape ∧
      ∀ idx f, Within idx x.shape → idx[pos x.shape.length]? = some f →
        let batches := trainBatches a.useRunningAverage calls
        let mean := movingAverage a.momentum 0 (batches.map fun x => avg (channel x (pos x.shape.length) f))
        let var := movingAverage a.momentum 1 (batches.map fun x => variance (channel x (pos x.shape.length) f))
        let scale := if a.useScale then (a.scaleInit (st.keyNo P 0) [a.numFeatures]).val [f] else 1
        let bias := if a.useBias then
          (a.biasInit (st.keyNo P (if a.useScale then 1 else 0)) [a.numFeatures]).val [f] else 0
        y.val idx = (x.val idx - mean) * (rsqrt (var + a.epsilon) * scale) + bias := by
  have he := C86_batch_norm P h a
  generalize hbn : (BatchNorm.mk (𝕜 := 𝕜) _ _ _ _ _ _ _ _) = bn at he
  have hfit : bn.Fits a.numFeatures := by
    subst hbn
    refine ⟨rfl, rfl, ?_, ?_⟩
    · intro q hq
      dsimp only at hq
      split at hq
      · cases hq; exact hs _ _
      · cases hq
    · intro q hq
      dsimp only at hq
      split at hq
      · cases hq; exact hb _ _
      · cases hq
  have e1 : bn.useRunningAverage = a.useRunningAverage := by subst hbn; rfl
  have e2 : bn.axis = a.axis := by subst hbn; rfl
  obtain ⟨m, v, r1, r2, r3, r4⟩ := C59_history rsqrt bn calls a.numFeatures pos hfit (by rw [e1, e2]; exact hcalls)
  obtain ⟨y, y1, y2, y3⟩ := C59_running rsqrt (bnRun rsqrt bn calls) x arg flag (pos x.shape.length) a.numFeatures
    (by rw [r1]; simpa only [e1] using hmode) (by rw [r1]; exact ⟨r2, r3, hfit.scale, hfit.bias⟩)
    (by rw [r1]; simpa only [e2] using haxis) hn
  refine ⟨_, bn, y, he, y1, y2, fun idx f hw hf => ?_⟩
  obtain ⟨f', hf', hlt⟩ := coord hw hn
  rw [hf] at hf'; cases hf'
  dsimp only
  rw [y3 idx f hw hf, r1]
  dsimp only
  rw [(r4 f hlt).1, (r4 f hlt).2, e1]
  subst hbn
  dsimp only
  cases a.useScale <;> cases a.useBias <;> rfl

/-- **C87** (LayerNorm): a new `LayerNorm(n)` takes every array whose feature axis has size `n`. -/
theorem C87_layer_norm (P : RngPrims κ η) {w : RngWorld κ} {c s : Nat} {st : RngStream κ} (h : ParamsStream w c s st)
    (a : LayerNormArgs κ 𝕜) (hs : a.scaleInit.Sized) (hb : a.biasInit.Sized) (rsqrt : 𝕜 → 𝕜)
    (x : Tensor 𝕜) (p : Nat) (hred : ValidAxes x.shape.length a.reductionAxes)
    (hfeat : NamesAxis a.featureAxes x.shape.length p) (hn : x.shape[p]? = some a.numFeatures) :
    ∃ w' ln y, LayerNorm.create P c a w = (w', .ok ln) ∧ ln.call rsqrt x = .ok y ∧ y.shape = x.shape ∧
      ∀ idx f, Within idx x.shape → idx[p]? = some f →
        let sample := (cell x.shape
          (fun i => (i : Int) ∉ a.reductionAxes ∧ (i : Int) - x.shape.length ∉ a.reductionAxes) idx).map x.val
        let scale := if a.useScale then (a.scaleInit (st.keyNo P 0) [a.numFeatures]).val [f] else 1
        let bias := if a.useBias then
          (a.biasInit (st.keyNo P (if a.useScale then 1 else 0)) [a.numFeatures]).val [f] else 0
        y.val idx = (x.val idx - avg sample) * (rsqrt (variance sample + a.epsilon) * scale) + bias := by
  have he := C86_layer_norm P h a
  obtain ⟨y, y1, y2, y3⟩ := C76_layer_norm rsqrt
    { scale := if a.useScale then some (a.scaleInit (st.keyNo P 0) [a.numFeatures]) else none,
      bias := if a.useBias then
        some (a.biasInit (st.keyNo P (if a.useScale then 1 else 0)) [a.numFeatures]) else none,
      reductionAxes := a.reductionAxes, featureAxes := a.featureAxes, epsilon := a.epsilon } x p a.numFeatures
    hred hfeat hn
    (by
      intro q hq
      dsimp only at hq
      split at hq
      · cases hq; exact hs _ _
      · cases hq)
    (by
      intro q hq
      dsimp only at hq
      split at hq
      · cases hq; exact hb _ _
      · cases hq)
  refine ⟨_, _, y, he, y1, y2, fun idx f hw hf => ?_⟩
  have := y3 idx f hw hf
  dsimp only at this ⊢
  rw [this]
  cases a.useScale <;> cases a.useBias <;> rfl

end

/-! ### Examples -/

/-- An initialiser whose entries depend on the key: the seed of the base key, ten times the length of the key's path,
and the position. -/
def exInit : Initializer SymKey ℚ := fun k shape =>
  ⟨shape, fun idx => match k with
    | .fold _ s => (s.length : ℚ) * 10 + (idx.sum : ℚ)
    | .prng n => (n : ℚ)⟩

theorem exInit_sized : exInit.Sized := fun _ _ => rfl

/-- The world after making one context: `nnx.context(0, dropout=1, det=True)`. -/
theorem exParams : ParamsStream exRng2 0 1 ⟨.prng 0, 1, []⟩ :=
  ⟨⟨_, rfl, rfl⟩, rfl⟩

/-- A perceptron with batch normalization, a convolution and an embedding. -/
def exArch : List (LayerArgs SymKey ℚ) :=
  [.linear { inFeatures := 2, outFeatures := 3, kernelInit := exInit, biasInit := exInit },
   .batchNorm { numFeatures := 3, momentum := 1/2, epsilon := 1, biasInit := exInit, scaleInit := exInit, useScale := false },
   .conv { inFeatures := 4, outFeatures := 6, kernelSize := .seq [3, 3], featureGroupCount := 2, useBias := false,
           kernelInit := exInit, biasInit := exInit },
   .layerNorm { numFeatures := 6, epsilon := 1, biasInit := exInit, scaleInit := exInit },
   .embed { numEmbeddings := 10, features := 3, embeddingInit := exInit }]

theorem exArch_acceptable : ∀ a ∈ exArch, a.Acceptable := by
  intro a ha
  simp only [exArch, List.mem_cons, List.not_mem_nil, or_false] at ha
  rcases ha with rfl | rfl | rfl | rfl | rfl <;> simp [LayerArgs.Acceptable]

/-- Seven arrays: the shapes asked for, and the position of the stream afterwards. -/
example : (exArch.flatMap LayerArgs.requests).map (·.2) =
      [[2, 3], [3], [3], [3, 3, 2, 6], [6], [6], [10, 3]] ∧
    ∃ ls, createAll symPrims (exArch.map (0, ·)) exRng2 = (drawn exRng2 1 7, .ok ls) ∧
      ((drawn exRng2 1 7).streams[1]?).map (·.count) = some 8 := by
  refine ⟨by simp [exArch, LayerArgs.requests], ?_⟩
  obtain ⟨ls, h1, -⟩ := C86_model symPrims exParams exArch exArch_acceptable
  exact ⟨ls, h1, rfl⟩

/-- The keys of the seven arrays differ from each other and from the one drawn before. -/
example : ∃ ls ks, (createAll symPrims (exArch.map (0, ·)) exRng2).2 = .ok ls ∧
    ls.flatMap NnLayer.params = initialised ((exArch.map (0, ·)).flatMap fun x => x.2.requests) ks ∧ ks.Nodup ∧
    SymKey.fold (.prng 0) (encodeCounts [0]) ∉ ks := by
  obtain ⟨ls, h1, -⟩ := C86_model symPrims exParams exArch exArch_acceptable
  have h0 : RngHist symPrims exRng1 [] [] :=
    .create (.start 0 [0]) ⟨by decide, by decide, by simp [contextArgs]⟩ (by decide) (by simp [exRng0])
  have h2 : RngHist symPrims exRng2 [] [.fold (.prng 0) (encodeCounts [0])] :=
    .make h0 (c := 0) (name := py! "params") rfl
  obtain ⟨ks, -, g2, g3, g4⟩ := C86_keys_distinct (P := symPrims) (by
    intro k s k' s' e
    simp only [symPrims, id, SymKey.fold.injEq] at e
    exact e) _ h2 h1
  exact ⟨ls, ks, by rw [h1], g2, g3, fun hm => g4 _ hm (by simp)⟩

/-- A context without the stream. -/
def exNoParams : RngWorld SymKey := (newContext symPrims none [] [(py! "dropout", .seed 1)] exRng0).1

/-- Arguments of the layers below. -/
def exLinearArgs : LinearArgs SymKey ℚ where
  inFeatures := 2
  outFeatures := 3
  kernelInit := exInit
  biasInit := exInit
def exBnArgs (params : Bool) : BatchNormArgs SymKey ℚ where
  numFeatures := 2
  momentum := 1/2
  epsilon := 1
  biasInit := exInit
  scaleInit := exInit
  useScale := params
  useBias := params
def exConvArgs : ConvArgs SymKey ℚ where
  inFeatures := 4
  outFeatures := 6
  kernelSize := .seq [3]
  featureGroupCount := 2
  kernelInit := exInit
  biasInit := exInit

/-- A `Linear` raises `ValueError` there, a `BatchNorm` without parameters does not. -/
example : (Linear.create symPrims 0 exLinearArgs exNoParams).2 matches .error .valueError ∧
    ((BatchNorm.create symPrims 0 (exBnArgs false) exNoParams).2 matches .ok _) := by
  exact ⟨rfl, rfl⟩

/-- The hypotheses of `C87_linear` hold for an array of shape (5, 2). -/
example : ∃ w' l y, Linear.create symPrims 0 exLinearArgs exRng2 = (w', .ok l) ∧
    l.call (⟨[5, 2], fun idx => (idx.sum : ℚ)⟩ : Tensor ℚ) = .ok y ∧ y.shape = [5, 3] := by
  obtain ⟨w', l, y, h1, h2, h3, -⟩ := C87_linear symPrims exParams exLinearArgs exInit_sized exInit_sized
    (⟨[5, 2], fun idx => (idx.sum : ℚ)⟩ : Tensor ℚ) [5] rfl
  exact ⟨w', l, y, h1, h2, h3⟩

/-- The hypotheses of `C87_batch_norm` hold for two training calls and a call in evaluation mode. -/
example : ∃ w' bn y, BatchNorm.create symPrims 0 (exBnArgs true) exRng2 = (w', .ok bn) ∧
    (bnRun id bn [⟨exBatch, some false, none⟩, ⟨exBatch, none, some false⟩]).call id exBatch (some true) none =
      (bnRun id bn [⟨exBatch, some false, none⟩, ⟨exBatch, none, some false⟩], .ok y) ∧ y.shape = [3, 2] := by
  obtain ⟨w', bn, y, h1, h2, h3, -⟩ := C87_batch_norm symPrims exParams (exBnArgs true) exInit_sized exInit_sized id
    [⟨exBatch, some false, none⟩, ⟨exBatch, none, some false⟩] (fun r => r - 1) (by
      intro c hc
      simp only [List.mem_cons, List.not_mem_nil, or_false] at hc
      rcases hc with rfl | rfl
      · exact ⟨⟨false, rfl⟩, ⟨by decide, .inr rfl⟩, rfl, by decide⟩
      · exact ⟨⟨false, rfl⟩, ⟨by decide, .inr rfl⟩, rfl, by decide⟩) exBatch (some true) none rfl
    ⟨by decide, .inr rfl⟩ rfl
  exact ⟨w', bn, y, h1, h2, h3⟩

/-- The hypotheses of `C87_conv` hold for a grouped convolution with the default padding on one spatial dimension. -/
example : ∃ w' cv y, Conv.create symPrims 0 exConvArgs exRng2 = (w', .ok cv) ∧
    cv.call (⟨[7, 5, 4], fun idx => (idx.sum : ℚ)⟩ : Tensor ℚ) = .ok y ∧ y.shape = [7, 5, 6] := by
  obtain ⟨w', cv, h1, h2, -, h3⟩ := C87_conv symPrims exParams exConvArgs
    [{ inLen := 5, kLen := 3, stride := 1, inDil := 1, kDil := 1, lo := 1, hi := 1 }] 2 exInit_sized exInit_sized
    (by simp [exConvArgs]) rfl (.inr (.inl ⟨1, rfl, by simp⟩)) (.inr (.inl ⟨1, rfl, by simp⟩))
    (.inr (.inl ⟨1, rfl, by simp⟩)) (by decide) rfl rfl
    (⟨[7, 5, 4], fun idx => (idx.sum : ℚ)⟩ : Tensor ℚ) [7] rfl
  obtain ⟨y, y1, y2, -⟩ := h3 (.inr (.inr (.inr (.inl ⟨h2, by simp [SpatialDim.Same]; decide⟩))))
  exact ⟨w', cv, y, h1, y1, y2⟩

end Nnx
