# HGQ2 formal model — design

Status: living document. Section 4 (per-property plan) was written before the proofs and is kept current.

## 1. What is modelled

The decision logic, state machines, and exact arithmetic of `calad0i/HGQ2` (`/repo/src/hgq`, `/repo/src/qkeras`).
Numbers are exact: tensors hold rationals `ℚ` (or elements of an arbitrary ordered field where square roots
or table functions are abstract).  A finite float32/float64 is a dyadic rational, so every float input is covered;
float *rounding inside* tensor arithmetic is modelled only in `Model/Float32` (C89), which shows when it can be ignored.

## 2. Trusted base

* Lean 4.33.0 kernel; Mathlib definitions used in statements (`ℚ`, `ℝ`, `Int.floor`, `Int.clog`, `Finset.sum`, `List.Perm`).
* Axioms: at most `propext`, `Classical.choice`, `Quot.sound` (checked with `#print axioms`). No `native_decide`, `bv_decide`.
* My reading of /repo: each model definition cites file and lines.
* Assumed behaviour of libraries not present in the sandbox:
  * `quantizers` (`_get_fixed_quantizer(round_mode, overflow_mode)`): round at f — `RND` = floor(x·2^f+1/2)/2^f,
    `RND_CONV` = half-to-even, `TRN` = floor; `S_*` behave like their base mode when `training` is False;
    overflow — `WRAP`: ((v + k·2^i) mod 2^(k+i)) − k·2^i, `SAT`: clip to [−k·2^i, 2^i − 2^-f],
    `SAT_SYM`: clip to [−k(2^i − 2^-f), 2^i − 2^-f]; argument order `(x, k, i, f, training, seed_gen)`.
  * `da4ml`/`alkaid` `quantize(v,k,i,f,overflow_mode,round_mode)` has the same numeric meaning on symbolic fixed-point values;
    adding `None` (the bias of a bias-less dense or einsum layer) leaves an array unchanged (the tests of the repository rely on it).
  * `keras.ops`/numpy elementwise and reduction operations have their mathematical meaning; `keras.backend.epsilon()` = 1e-7;
    `ops.round` is half-to-even; `ops.conv` rejects `padding='causal'`.
  * `keras` layers that HGQ2 subclasses behave as documented: `_flatten_layers` visits each layer object once per path
    (no deduplication by name), RNN unrolls its cell from a zero state, node depths of a functional model are contiguous,
    layer names contain no `/`.
  * Python: dict insertion order, `set` iteration in arbitrary order, MRO and zero-argument `super()`, default arguments,
    `str.split/strip/isdigit`, `float()` reading back what `str()` prints (an explicit hypothesis of C70).
  * float32 is modelled where it matters for the claim: C64 (integers rounded to 24 bits) and C89 (IEEE rounding after every operation).

## 3. Not modelled

Gradients/surrogates, optimizers, XLA/jit, serialization byte formats, float rounding in tensor kernels, device placement,
stochastic rounding during training, hls4ml/da4ml code generation downstream of the traced graph, file-system failures,
printing (what the progress bar shows is C126), the `Singleton` metaclass (`utils/singleton.py`, unused), `QInitializer.__call__` (`qkeras/initializers/initializer.py`: random; its last
lines pass `-_max` as the axis of `ops.max`, which raises).

## 4. Per-property plan

Layout: `Verif/Spec/*` (small independent specifications), `Verif/Model/*` (code model with citations),
`Verif/Lemmas/*` (helpers), `Verif/Props/*` (property theorems + non-vacuity examples).

| id | model | proof idea |
|----|-------|-----------|
| C01–C07 | scalar fixed-point quantizer over ℚ: round modes, overflow modes, `call` incl. the `where(k+i+f>0)` mask, `min/max/epsilon/bits/fbits` | work on the integer mantissa `x·2^f`; clip/emod lemmas; counting by `Finset.Icc` card |
| C08–C11 | KIF/KBI `call` as a state machine over flags, `_reset_minmax`, folding over batches; `minimal_i` with `Int.clog 2` | invariant: i ≥ needed for every value seen; least upper bound characterisation of clog; KBI: eps analysis for b≤22, witness for b=23,24 |
| C12–C14 | same state machine | direct; C13 negation with witness for KIF, proof for KBI |
| C15–C16 | `DefaultBitwidthMapper` on shapes `List Nat`, tensors as functions on index lists | list induction; reduction over index fibre |
| C17–C19 | `Quantizer.call`, mirrored quantizer, HardTanh/HardSigmoid | algebra + C01/C04; negations with witnesses for scaler/noise and mirror scaler |
| C20–C26 | association-list dictionaries (`List (String × Val)` with Python update semantics), configs, scopes as enter/exit steps on a heap of defaults and scope objects | bracket induction over well-nested programs; witnesses for re-entrance and HardTanh symmetric |
| C27 | constraint functions on ℚ | order lemmas |
| C28–C29 | `Dataset` index arithmetic on lists, shuffle as applying a permutation to the index array | `List.take/drop` induction |
| C30–C36 | callbacks as step functions over histories | induction over histories |
| C37–C38 | layer trees with own `_ebops` and `ebops` aggregation; dense EBOPs as double sums | structural induction; sum rearrangement |
| C39 | BN/BN-dense/einsum-BN over a field with abstract `s = sqrt(var+eps)` | ring algebra; witnesses for deviations |
| C40–C41 | softmax over lists with abstract tables; pow2 scales over ℤ exponents | list lemmas |
| C42–C45, C54 | tracer functions on lists/indices, graph replay as a fold over nodes | index arithmetic, invariant over the visited nodes; witnesses for deviations |
| C55 | SALT padding/reshape/projection on functions ℕ → V | divisibility; reindexing of sums |
| C46–C48 | SNN cells on vectors | case analysis, induction over time |
| C49–C51 | GRU/SimpleRNN step and fold, weight cache as state machine | induction over time / histories |
| C52–C53 | flag resolution; qkeras callable | case analysis; witnesses |
| C56 | options of a scope vs. parameters of each quantizer type | case analysis over the option lists |
| C57 | `Dataset` constructor length logic | direct |
| C58 | BetaPID step with exceptions | induction over histories |
| C59–C62 | EBOPs of convolution, RNN, accumulators, merges, tables, QDot as finite sums | sum rearrangement, monotonicity of sums |
| C63 | weight cache under failing calls | invariant over histories |
| C64–C66 | symbolic patches (encoded indices through float32), traced softmax and pooling | injectivity of the encoding; order lemmas |
| C67 | metaclass wrapping as state machine over instantiation histories, `super()` walk | invariant over histories; induction on the MRO |
| C71 | arrays with a shape and numpy's concatenate/repeat/transpose/reshape/getitem/reduce/broadcast (`Model/Arr`), replays of `ops.py` | per-sample lemmas; broadcasting folds by induction; failures as theorems for all inputs |
| C72 | dot products of both tracers as contractions | specification with split indices; extra/missing axis proved for all other ranks |
| C73 | global pooling | enumeration of positions is a permutation of any listing |
| C74 | `Model/Table`: table networks, grouping by table size, linspace, lookup, folded BN | gathered weights = weights of the flat index modulo pairs; grid lemma |
| C75 | axis bookkeeping of QEinsumDenseT on `Model/Arr` | reduction index set is a permutation of all assignments; transpose = permutation of labels |
| C76 | numpy and Keras activation formulas | case analysis |
| C77 | `Model/Attn`: attention equations of Keras, score and built shapes | cardinality of the label lists; filter lemmas on ranges |
| C78 | einsum total of bit widths over letters | bijection between letter assignments and pairs of entries |
| C79 | mask lists, `np.stack`, Keras broadcasting `&` | fold invariant; shape case analysis |
| C80 | layer and traced attention end to end (flattened sequence axes) | C44 + C65 + sum congruence |
| C81 | `Model/BnState`: call of the batch-norm layers as a transition on running statistics (Keras' guard `training and self.trainable`; `ops.moments` = biased variance, both external) | induction over the call history |
| C82 | same | invariant: fold = closed form of the moving average |
| C83 | same, training mode | mean and variance of affine images |
| C84 | `Model/Causal`: `QConv1D.call` with padding state, `keras.ops.conv` (external: accepts only valid/same) | reindexing; induction over histories |
| C85 | `Model/LayerConfig`: per class a table of constructor arguments (rule: plain, scope default, other argument, guarded), written keys and dropped keys; assumed of Keras: `Layer.get_config` writes name, trainable, dtype, activity_regularizer, Keras parents write their own arguments, serialized values are restored faithfully; `seed` not modelled | general criterion by induction on the table; tables evaluated by the kernel |
| C86 | `Model/Instantiate`: constructors of the three quantizers as checks on a config dictionary; Keras' `Layer` accepts a fixed keyword list (external) | case analysis to an exact criterion; composition with C21 |
| C87 | `Model/SharedConfig`: heap of config dictionaries, constructors as write/copy steps | invariant over the history: every object is between its initial and its final value |
| C88 | `Model/Instantiate`: `inference_weight_shape` as a transition on the mapper object | invariant over the history; exact criteria for two builds |
| C89 | `Model/Float32`: IEEE binary32 rounding after every operation (`C89_rounding_is_ieee`), summation trees with optional fused multiply-add, quantizer and dense layer in float32; assumed of the external package: `floor(x*2^f + 0.5)/2^f` for RND | a multiple of 2^-F below 2^(24-F) is a float32; induction over the tree and over the layers |
| C90 | `Model/NetTrace`: a model as list of nodes (arbitrary operations / quantizer calls on slots), calls under any flag, reset and tracing loop | simulation: tracing changes only `k`,`i` of kif cells, so values and feeds are the same from every state of the loop; then C08 and C16 at every cell |
| C91 | `Model/EndToEnd`: quantizers with width tensors, layer cores, quantized layers with stages, model graphs; Keras on a batch, tracer on a sample | per-layer faithfulness from C18, C43, C54, C64, C66, C71, composed through the stages, then induction over depths and C45 |
| C92 | `Model/Params`: parameters behind a quantizer under optimizer steps, calls and resets | invariant "all parameters are covered" kept by calls and established by training/tracing calls (C08, C12 lemmas), induction over histories |
| C93 | `Model/FloatQ`: reported properties over the reals, call relative to the external float_quantize | independent decoder of sign/exponent/mantissa codes; magnitudes strictly increase with the code, hence extrema and count |
| C94 | `Model/TraceResults`: collection of the batch outputs, conversion to numpy, concatenation | rows of a concatenation are the rows of the parts, induction over the parts; order from C28 |
| C95 | `Model/EinsumDense`: `_einsum_free0_size` on the text of the equation; EBOPs with the resulting n_parallel | text lemmas for split/replace, fold = product over positions, loops split into kernel loops and the rest |
| C96 | `Model/PoolEbops`: output sizes, `n_parallel`, factor, sum of input bits | exchange of sums over windows and members, multiplicity of an input per axis by division lemmas, product over axes by induction |
| C97 | `Model/RestEbops`: `QBatchNormalization._compute_ebops` on index lists | sums over an axis by induction on the shape |
| C98 | `Model/RestEbops`: `QSoftmax._compute_ebops`, `QUnaryFunctionLUT._compute_ebops`, the `ebops` property | regrouping of the entries by rows by induction on the shape, minimum by fold |
| C99 | `Model/RestEbops`: EBOPs of the spiking cells and layers | a+b-min = max, sums over units |
| C100 | `Model/SpikeF32`: `ATan.__call__`, `fire`, `reset` and the four `call` methods, each operation rounded to float32 | range of the surrogate by monotone rounding, exact or half-ulp subtraction, ties to even; induction over the sequence |
| C101 | `Model/EndToEndF32`: the layers of C91 with every operation rounded to float32, sums as arbitrary trees | each float32 layer is the lifted exact layer (C89 lemmas for sums and quantizers, functoriality of structural operations, fold invariant for merges); graph replay C45 and C91 |
| C102 | `Model/EbopsGrad`: `_compute_ebops` of all layers on dual numbers (value, derivative), straight-through rounding, MonoL1, constraints, optimizer as non-negative combination of the gradient history | closure invariant (value ≥ 0, derivative ≥ 0, monotone, zero at dead cells) by structural composition; induction over the steps; `HasDerivAt` of the unrounded cost by composition |
| C103 | `Model/SpikeGrad`: ATan, fire, reset, call of the spiking cells on dual numbers, runs over sequences | induction over the sequence; `HasDerivAt` of the arc-tangent curve; contraction factor per step |
| C104 | `LLayer.keras` of `Model/EndToEnd`; `Spec.pick` selects samples | every layer commutes with `pick` (via the per-sample replays of C71/C91 plus success and shapes); attention and table layers are compositions of such steps (`Props/BatchingX`); induction over the graph (C45) |
| C105 | `Model/Alkaid`: `mirror_quantizer`, `QLayerMixin.__call__`, handlers of `ops.py` and `activation.py` on arrays with batch axis 1 | each handler equals the Keras layer on a batch of one (broadcasting with leading instead of inner axes; softmax with broadcast reductions); combined with C104 for one sample of a batch; induction over the graph (C45) |
| C106 | `Model/KerasOps`: numpy broadcasting, reduction, matmul, dot and reshape on arrays, the handlers of `ops.py` on one sample | the batch axis is a leading axis that broadcasts with itself or with an added axis of size one; `-1` is resolved to the same size with and without batch axis |
| C107 | `Model/MhaArr`: the attention layer and its replay with einsums on arrays, concatenated and split kernels, masked softmax; SALT clusters and the convolution over the scores with heads as channels; models as graphs of such layers | einsum of a concatenated kernel is the concatenation of the einsums; the masked maximum does not depend on the value at masked positions; composition of faithful steps; graph induction as in C91 for any kind of layer |
| C108 | `Model/TableArr`: table layers on batches, the table built from the known range and the look-up on a sample, patches for convolutions; models as graphs with these layers | the grid of `linspace` hits every representable value, so the look-up is the quantized network at the value; quantizer ranges give the grid (C01); composition and graph induction as in C107 |
| C109 | `Model/AlkaidX`: `_fused_qkv_proj`, masked `_QSoftmax`, `_QMHA`, Linformer, SALT with clusters and convolution over the scores, `_QDenseTable`, `_QConvTable` on arrays with batch axis 1 | each step equals the Keras step on one sample (C104 gives the sample of the batch, then handler = Keras on a batch of one); concatenated kernels split back; look-up as in C108 with the widths broadcast through one more axis; induction over the graph |
| C110 | `Model/RnnArr`: the cells' `call` on matrices (batch, features), Keras' time loop, `_QSimpleRNN`, `_QGRU`, `_QSNNReplay` and their loops over time indices on arrays with batch axis 1 | every operation acts on rows alone, so a step commutes with choosing samples (relation on optional results, composed by bind); zero biases and the replay's firing rule equal Keras'; induction over the sequence, then over the graph; `Props/RnnValues` derives the recurrences entry by entry |
| C111 | `Model/EinsumTArr`: `QEinsumDenseT.call` on batches (reshape/broadcast, the Sequential of EinsumDense layers by `npEinsum`, bias shapes of Keras, reshaped batch normalization, quantizer, sum, transpose) and `_QEinsumDenseTable` on arrays with batch axis 1 (gathered weights, indexed normalization, tables, look-up) | the einsums give per-pair networks (induction over layers); reshape = unflatten, which is the identity on coordinates when axes are in order; batch index drops out; look-up as in C109; induction over the graph |
| C112 | `Model/AttnTArr`: `QMultiHeadAttentionT`, `QLinformerAttentionT` on batches and `_QMHAT`, `_QLinformerAttentionT` on arrays with batch axis 1, projections as `EinsumTArr` with the equations of `_build_proj_equation` | every projection equation satisfies the conditions of C111 (labels are consecutive numbers); scores, softmax, context as in C109; induction over the graph |
| C113 | `Model/MhaArr`, `Model/AttnTArr`: projections, scores, masked softmax, context | two runs related by equality at the visible positions: each einsum reads only the entries of its labels, masked scores are replaced before the maximum and their weights after the exponential are zero, so values there are multiplied by zero |
| C114 | layers as in C112, two solutions of one graph | each layer keeps equality up to time `T` (attention by C113, recurrent layers by induction over time); induction over the depth of the graph |
| C115 | `Model/Stochastic`: both `call` methods with one draw for each element, the rounding function of the external package as `floor + (draw < fraction)` | floor arithmetic; interval integral of a step function; least width as in C12 |
| C116 | `Model/Patches`: `symbolic_extract_patches`, `ReplayQConv`, windowed `ReplayPool`, `ReplayExtractPatches` on arrays with shapes; `Spec/Conv`: convolution over integer positions with zero extension | row-major index algebra; axes of size one in front; one axis at a time by arithmetic on ceilings; sums over multi-indices |
| C117 | `Model/EinsumTBn`: weights, moments, assignment with shape check, scaler and offset reshaped and broadcast (`_apply_batch_norm`, training and inference) | sums over the indices of a channel by induction on the labels; row-major algebra of C97; products of permuted shapes for the exception |
| C118 | `Model/QkerasConfig`: Python argument binding, `quantized_bits.__init__`, `quantized_relu.__new__`, `get_config`, `from_config`, `get_quantizer`, `from_string`, package `get_quantizer` | case analysis on bound arguments; invariants of constructed objects; text lemmas of C70 |
| C59 (geometry) | `Model/ConvEbops`: `QBaseConv.build` `n_parallel`, `_compute_ebops` for both data formats | window geometry of C58/C62 (`srcs_eq`), sums over index shapes |
| C119 | `Model/CallConv`: the wrapper's choice of tensors, the signatures of `call` and `_compute_ebops` | Python argument binding (C118); case analysis on positional arguments, cost function arbitrary |
| C120 | `Model/EbopsReport`: wrapper's assignment of `_ebops` and `add_loss`, `trace_minmax` loop, fit steps, totals | fold invariants: widths and variables of a layer are untouched by later call sites of other layers |
| C76 (gelu) | `Model/Gelu`: Keras' erf formula, the tracers' tanh formula | derivative of the difference is positive on (0, 0.09]: bounds on tanh, exp and pi |
| C90 (kbi) | the same model, kbi and kif mixed | every cell is a fold over what it was fed, so C11/C08 apply to the whole loop; integer bits of kbi are a running maximum; induction on the nodes: after m passes the first m kbi quantizers and all values up to there are fixed |
| C121 | `Model/CtorArgs`: gather_vars_to_kwargs with re.match on the patterns that occur, constructors as data (signature, skip pattern, pops, fixed keywords), chains along the method resolution order | lookup lemmas for filter/append; induction along the chain; the table of the library by kernel computation on names, transferred to all values |
| C122 | `Model/ConfigReuse`: what build does to the saved arguments (the three conventions for the factor, sorted axes, the expanded equation of Model/Layers, lists of input configs) and what is seen of the built layer; histories of build, get_config, from_config | invariants along histories; the sums of normalised axes separate ranks; the scan of the equation finds nothing to expand the second time |
| C114 | `Props/CausalRate`: layers that change the rate, each tensor has its own time | induction on the depth of the graph; monotone reach of windows |
| C123 | `Model/SampleMask`, `Props/SampleMask`: masks with a batch axis; a layer on a selection of samples with their masks | stages commute with picking samples (C104), then C107, C112, C113, C114 on the single sample |
| C124 | `Model/MhaArr`, `Model/SampleMask`, `Props/PadInv`: the same layer on arrays of two lengths, the longer one masked | every einsum over fewer summed positions; masked weights are zero before and after the quantizer, the maximum and the sum do not change |
| C125 | `Model/RnnMask`, `Props/RnnMask`: the time loop of `Model/RnnArr` with masks; one sample of the masked batch against the unmasked layer on the valid steps | the cell commutes with taking a sample (C104); by induction over the steps the loop of one sample is the loop over its valid steps, with outputs held in between |
| C126 | `Model/ProgressBar`, `Props/ProgressBar`: the callback as a state machine over the calls Keras makes | invariant by induction over epochs and trainings |
| C68–C70 | QKeras compatibility: flags, keyword renaming, string parser | invariant of the renaming loop; list/character lemmas |
| C71… | see the table rows appended below | |

## 5. Disagreements found between property and code

Each is a theorem with suffix `_violated` about the model (a universal statement where possible, otherwise a concrete witness).

| theorem | what the code does |
|---------|--------------------|
| C06 (in note) | a signed WRAP quantizer with i+f=0 has two outputs but `fbits` = 0 |
| C11 (in note) | KBI calibration with b=23 may still overflow because of the epsilon |
| C13_kif_violated | KIF training step discards the constrained `i` |
| C17_noise_with_scaler_violated | noise interpolation starts from x/scaler |
| C18_scaler_violated | replayed quantizer never multiplies the scaler back |
| C20_float_bias_violated, C20_hard_tanh_symmetric_violated | config round trip loses axes / the symmetric overflow mode |
| C21_dummy_accepts_anything | `q_type='dummy'` accepts and drops any keyword |
| C23_*_violated | re-entering an open scope object leaks its settings |
| C30_log_zero_violated | log segment starting at beta 0 raises |
| C31_warmup_violated | warm-up assigns an unclamped beta |
| C32_linear_violated | linear mode does not start from init_beta |
| C34_off_by_one_violated | StopIf fires after patience+1 hits |
| C36_*_violated | weakly dominated records stay; colliding names overwrite files |
| C37_*_violated | EBOPs totals differ for nested models, Linformer, shared projections, softmax without EBOPs |
| C39_*_violated | BN folding: center=False adds 1; QBatchNormDense offset unscaled; epsilon ignored; axis order ignored |
| C42_*_violated | QEinsum ellipsis labels capture user labels; three ellipsis dimensions break |
| C43_grouped_violated | grouped (not depthwise) convolution is traced wrongly |
| C44_value_dim_violated | fused attention with value_dim ≠ key_dim splits wrongly |
| C45_*_violated | names with '#' collide; nested multi-input models rejected |
| C48_lif_violated | accumulator width of leaky cells too small |
| C49_unsigned_violated | GRU state unbounded with an unsigned wrapping quantizer |
| C52_flags_violated | flag combinations which make layers fail |
| C53_*_violated | `quantized_bits` as callable: wrong arguments, raises by default, divides in place |
| C54_threshold_violated | traced ReLU threshold off by half a step |
| C55_value_violated | SALT value clustering fails if the size divides the length |
| C56_ignored_violated | scaler/affine/qnoise_factor accepted and ignored by scopes |
| C57_one_element_list_violated | one-element list gives a Dataset of length 1 |
| C58_zero_ebops_violated | EBOPs 0 in log mode raises |
| C59_bias_violated | convolution bias EBOPs counted per input position, not scaled |
| C60_*_violated | sequence length counted wrongly; GRU recurrent bias missing |
| C62_matrix_violated | QDot EBOPs of matrices are not the executed products |
| C63_read_violated | weight cache stays after an exception |
| C64_float32_violated | patch indices above 2^24 are rounded |
| C67_*_violated | EBOPs loss added twice (or more) for derived layers |
| C68_import_violated | importing qkeras.qlayers changes flags of all HGQ layers |
| C70_trainable_violated | `str` of a trainable quantized_bits cannot be parsed |
| C71_transpose_violated, C71_repeat_vector_violated, C71_concat_layer_violated | transpose with axes always raises; RepeatVector loses its axis; Concatenate layer: unequal sizes raise or give wrong length, positive axis off by one |
| C72_*_violated | traced Dot keeps both batch axes (da4ml); two vectors give a scalar (Alkaid) |
| C73_channels_first_violated | traced global pooling with channels_first always raises or pools channels |
| C74_center_violated | traced QDenseT with bn_center=False adds 1/sqrt(n_in) to every table |
| C76_hard_silu_violated | hard_silu in tables differs from Keras on 0 < abs x < 3 |
| C77_subset_violated, C77_order_violated | attention over a strict subset of sequence axes cannot be computed; reordered axes build the softmax for another shape |
| C78_factor_violated | a parallelization factor multiplies attention EBOPs above the fully parallel cost |
| C79_combination_violated | query+value, causal+value, causal+query masks cannot be traced |
| C80_no_iq_violated, C80_separate_violated | attention without input quantizers, or fused with separately passed tensors, cannot be traced |
| C81_qbn_violated | a frozen QBatchNormalization still updates its statistics |
| C83_center_violated | center=False gives outputs of mean one |
| C83_dense_violated | QBatchNormDense subtracts the unscaled mean |
| C84_default_violated | causal QConv1D with the default input quantizer raises, then silently computes a valid convolution |
| C84_ebops_violated | causal QConv1D raises in training when EBOPs are enabled |
| C85_pooling_violated | pooling layers lose `parallelization_factor` |
| C85_einsum_bn_violated | QEinsumDenseBatchnorm loses all batch-norm arguments |
| C85_simple_rnn_violated | QSimpleRNN loses `enable_sq` (and the state quantizer) and the activity regularizer |
| C85_gru_cell_violated | QGRUCell loses `rhq_conf` and `standalone` |
| C85_snn_violated | QSimpleSNN/QLIF lose `zero_output_for_mask` |
| C85_rebuilt_violated | an automatic parallelization factor is frozen to the first shape by save and load |
| C86_float_violated | `q_type='float'` can never be instantiated: `is_weight` is an unknown keyword for Keras' Layer |
| C86_none_axis_violated | an explicit `homogeneous_axis=None` is accepted but cannot be instantiated |
| C87_shared_violated | QSoftmax writes into the caller's config: a layer sharing it saves a config it does not use |
| C87_order_violated | which quantizer a layer gets from a shared config depends on construction order |
| C88_homogeneous_violated | a shared mapper with `homogeneous_axis=(0,)` keeps the axes of the first rank |
| C88_last_axis_violated | a shared mapper with `heterogeneous_axis=(-1,)` keeps the first rank's last axis |
| C89_rnd_violated | in float32 `RND` rounds the largest number below half a step up to a full step |
| C89_order_violated | accumulators of more than 24 bits: float32 result depends on the order of summation |
| C90_kbi_violated | a kbi data quantizer followed by a kif one: the calibrated model wraps on its own calibration data |
| C92_bias_stale_violated | a WRAP bias that the last optimizer step of fit moved past the range of its quantizer is read with the wrong sign until the next training or tracing call |
| C92_bias_sign_violated, C92_kbi_bias_sign_violated | trace_minmax (reset) on non-negative biases removes the sign bit; training afterwards never restores it, so negative biases are read as non-negative |
| C92_kbi_weight_violated | kbi weight quantizers with WRAP skip the wrap at inference only for RND; with TRN or RND_CONV they wrap |
| C92_weight_range_violated | WRAP weight quantizers return values outside their reported range |
| C93_no_exponent_violated | with e = 0 (allowed by MinMax(0,4)) the float quantizer reports an irrational epsilon: exponents are half-integers |
| C93_pruned_bits_violated | a float cell with m = -1 always outputs zero but is counted with e bits in the EBOPs |
| C94_shapes_violated | trace_minmax(return_results=True) raises for models whose outputs have different shapes: the list of outputs is converted to one array |
| C94_one_element_list_violated | for keras.Model(x, [y]) the returned array has the batches, not the samples, on its first axis, or the call raises |
| C95_repeated_label_violated | QEinsumDense('bxx,cd->bxcd') counts the diagonal axis twice as parallel positions |
| C96_overlap_violated | pooling with stride below the pool size: inputs are charged once although several windows read them |
| C96_truncated_violated | 'valid' pooling charges trailing inputs no window reads |
| C96_unknown_violated | pooling with an unknown spatial size: build asserts, or the EBOPs divide by None |
| C98_factor_violated | QSoftmax with a parallelization factor charges its tables for every row |
| C99_no_iq_violated | a spiking layer without input quantizer reports 0 EBOPs |
| C100_24bits_violated | an integrate-and-fire neuron without state quantizer stops integrating at 2^24 input steps in float32 |
| C101_24bits_violated | a dense layer with a 25-bit accumulator is not computed exactly in float32 |
| C102_unconstrained_b_violated | KBI with `bc=None`: a width goes negative, EBOPs become negative and the other operand's width is raised |
| C103_attached_violated | `detach_reset=False`, threshold 4, alpha 2: derivative with respect to the initial state grows like 3^n |
| C103_alpha_violated | `ATan(alpha<0)` is accepted and reverses every derivative |
| C104_batch_axis_violated | quantizer heterogeneous along the batch axis (fixed batch size): the result depends on the position in the batch |
| C104_repeat_batch_violated | `repeat` along axis 0 mixes positions |
| C105_scaler_violated | a quantizer with a scaler: Alkaid divides by it and does not multiply back |
| C105_batch_axis_violated | widths along the batch axis: Keras computes, Alkaid raises |
| C106_rank_violated | tensors of different ranks: numpy aligns the batch axis with another axis |
| C106_constant_violated | a constant of shape (1, n): the traced result has one axis too many |
| C106_reduction_violated | `keras.ops.sum/max/min` in a model: tracing always raises |
| C106_matvec_violated | vectors times matrices per sample: Keras multiplies every pair of samples |
| C106_dot_violated | `keras.ops.dot` of two tensors: two batch axes in Keras |
| C106_ravel_violated | `keras.ops.ravel` flattens the batch axis in Keras only |
| C107_no_iq_violated | attention without input quantizers (`fuse` none or kv): tracing always raises |
| C107_fused_violated | fused projections of different tensors, and fused Linformer attention: tracing always raises |
| C108_no_iq_violated | table layer without input quantizer: tracing always raises |
| C108_toq_affine_violated | table quantizer with scaler or affine map: tracing ignores both, Keras applies them |
| C109_no_iq_violated | attention without input quantizers (`fuse` none or kv): the conversion always raises |
| C109_fused_violated | fused projections of different tensors: the conversion raises |
| C109_toq_affine_violated | table quantizer with scaler or affine map: ignored by the conversion |
| C110_stateful_violated | `stateful=True`: Keras continues from the state of the previous batch, the conversion starts from zero |
| C111_norm_order_violated | `QEinsumDenseT` with normalized axes not in the order of the presum array (default for kernels like `kji`): Keras permutes the weights by reshape, the plugin does not; silent mismatch |
| C111_bias_order_violated | `QEinsumDenseT` with biases and kernel labels not in the order of the presum array (`bi,ji->bj`): silent mismatch (or IndexError if sizes differ) |
| C111_bias_gap_violated | `QEinsumDenseT` with biases and an input label between the kernel labels (`bij,ik->bjk`): conversion raises |
| C113_affine_violated | an affine map on the output quantizer of the softmax gives masked positions a non-zero weight |
| C113_conv_violated | the convolution over scores in QSALTAttention reads scores of masked positions |
| C115_train_inference_violated | WRAP kif with S_RND: after a training step the same input can wrap at inference |
| C115_kbi_edge_violated | WRAP kbi with S_RND: an input just above the top is rounded to a value that the new format does not hold |
| C116_pool_channels_first_violated | traced pooling with channels_first in one dimension ignores the data format: it pools channels |
| C116_extract_strides_violated | traced extract_patches without strides uses stride 1, not the patch size |
| C116_extract_channels_first_violated | traced extract_patches with channels_first leaves the patches on the last axis |
| C116_table_channels_first_violated | QConvT1D with channels_first is built for positions times kernel size inputs; its trace has one position |
| C117_default_axes_violated | batch norm of QEinsumDenseT: moments in the order of the array, weights in the order of normalize_axes; with the default axes of 'bij,oij->bio' every training call raises |
| C118_use_variables_violated | quantized_bits(use_variables=True) with fixed alpha is frozen after a config round trip |
| C118_relu_alpha_violated | quantized_relu(b, i, alpha): alpha lands in `symmetric` and is ignored |
| C118_relu_four_violated | quantized_relu with four positional arguments always raises |
| C118_relu_string_violated | get_quantizer('quantized_relu(...)') always raises |
| C118_negative_violated | negative integer width read from text is a float; get_config then raises |
| C59_channels_first_violated | channels_first convolution: bias charged C * prod(spatial[:-1]) times instead of once per position |
| C119_keyword_violated | layer(inputs=x) and mha(query=q, value=v) raise IndexError in training only |
| C119_value_keyword_violated | mha(q, value=v): EBOPs computed with the shape of q for v |
| C119_positional_violated | mha(q, None, k), positional masks, rnn(x, state) raise in training only |
| C120_shared_violated | a layer called n times is reported once, charged n times in the loss |
| C120_fit_violated | EBOPs logged after training are those before the last optimizer step |
| C120_truncated_violated | cost truncated to uint32 per layer: n layers of cost 0.65 report 0 |
| C76_gelu_violated | gelu in traced tables uses the tanh approximation, Keras' default is erf |
| C90_shared_kbi_violated | a kbi quantizer used twice in a model: repeating trace_minmax raises its integer bits forever |
| C121_fuse_violated | QMultiHeadAttentionT(fuse=...) is accepted and ignored |
| C121_dunder_violated | keywords named __x__ are dropped without error |
| C122_other_shape_violated | a layer reloaded and used at another number of positions reports EBOPs scaled by the first shape |
| C122_axes_violated | QSum/QSoftmax with negative axes, reloaded at another rank, reduce over other axes |
| C122_zero_factor | parallelization_factor=0: no cost for dense, default for convolutions and pooling |
