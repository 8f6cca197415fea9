{
 "C01": [
  "proved",
  "Exact rationals; external stateless quantizer modelled from its documentation."
 ],
 "C02": [
  "proved",
  ""
 ],
 "C03": [
  "proved",
  ""
 ],
 "C04": [
  "proved",
  "Also shows that WRAP is not monotone."
 ],
 "C05": [
  "proved",
  ""
 ],
 "C06": [
  "partial",
  "Reachable set and its size proved for all widths; 'log2 count <= fbits' is false for signed WRAP with i+f=0 (counterexample theorem: 2 outputs, fbits=0) and proved otherwise."
 ],
 "C07": [
  "proved",
  ""
 ],
 "C08": [
  "proved",
  "Holds for any start state, any batches; the proviso (constraint does not bind from above) is shown to be necessary."
 ],
 "C09": [
  "proved",
  "Unconstrained and under an integer MinMax."
 ],
 "C10": [
  "proved",
  "For every constraint of the library."
 ],
 "C11": [
  "partial",
  "Proved for 1<=b<=22 without constraint on i (the default); false at b=23 (counterexample theorem) because of the keras epsilon in minimal_i_given_xb."
 ],
 "C12": [
  "proved",
  ""
 ],
 "C13": [
  "partial",
  "kbi proved; kif is false (C13_kif_violated: the code throws the constrained value away); kif tracing and the in-range case proved."
 ],
 "C14": [
  "proved",
  ""
 ],
 "C15": [
  "proved",
  ""
 ],
 "C16": [
  "proved",
  ""
 ],
 "C17": [
  "partial",
  "Inference and scaler-free noise proved; with a scaler and a noise factor the training interpolation starts from x/s instead of x (C17_noise_with_scaler_violated)."
 ],
 "C18": [
  "partial",
  "Proved without scaler (or scaler 1); with a scaler the replay never multiplies back (C18_scaler_violated)."
 ],
 "C19": [
  "proved",
  ""
 ],
 "C20": [
  "partial",
  "Round trip proved for all accepted configs with at most one axis list set; the shipped ('float','bias') default violates it; HardTanhConfig(symmetric=True) comes back with SAT (violation theorem)."
 ],
 "C21": [
  "partial",
  "Complete acceptance criterion and content for kbi/kif/float; type 'dummy' accepts and drops any keyword (C21_dummy_accepts_anything)."
 ],
 "C22": [
  "proved",
  "Refinement of the mutable save/restore implementation to a lexical semantics, for all programs without re-entering an open scope object."
 ],
 "C23": [
  "partial",
  "False: proved that re-entering an open scope object always leaks (both scope classes). Sequential re-use of one object is covered by C22/C25."
 ],
 "C24": [
  "proved",
  ""
 ],
 "C25": [
  "proved",
  ""
 ],
 "C26": [
  "proved",
  ""
 ],
 "C27": [
  "proved",
  "MinMax with lo<=hi; otherwise the claim fails (example)."
 ],
 "C56": [
  "partial",
  "Effect proved for every parameter of a quantizer type; scaler, affine and qnoise_factor are accepted and ignored (C56_ignored_violated)."
 ],
 "C28": [
  "proved",
  "Every reachable state; randomness universally quantified."
 ],
 "C29": [
  "proved",
  ""
 ],
 "C30": [
  "partial",
  "All modes and key points except log segments starting at beta 0, which raise (C30_log_zero_violated)."
 ],
 "C31": [
  "partial",
  "Proved for every run if init_beta is within the bounds; otherwise warm-up assigns it unclamped (C31_warmup_violated)."
 ],
 "C32": [
  "partial",
  "Log mode: exact formula and a relative error bound of (p+i)*1e-9/r; linear mode is wrong by 2(p+i)(1-r) (C32_linear_violated)."
 ],
 "C33": [
  "proved",
  ""
 ],
 "C34": [
  "partial",
  "Exact firing condition proved; it is patience+1, not patience as documented (C34_off_by_one_violated)."
 ],
 "C35": [
  "proved",
  "For an arbitrary inner early-stopping machine."
 ],
 "C36": [
  "partial",
  "Invariants over all histories with distinct names; weakly dominated records stay and name collisions break the file correspondence (two violation theorems)."
 ],
 "C57": [
  "partial",
  "False: C57_one_element_list_violated."
 ],
 "C58": [
  "partial",
  "Proved for positive EBOPs in log mode; EBOPs 0 raises (C58_zero_ebops_violated)."
 ],
 "C37": [
  "partial",
  "Proved for models made of plain, softmax and attention layers with distinct layer objects; nested models, Linformer, shared projections and a softmax with EBOPs off disagree (C37_*_violated)."
 ],
 "C38": [
  "proved",
  "Equality with the executed products, linearity and monotonicity for dense layers, for all shapes and bitwidths."
 ],
 "C59": [
  "partial",
  "C59_geometry_partial: from the geometry (kernel, stride, dilation, padding, groups, both data formats) the EBOPs without bias are the cost of the products that meet the image, scaled by the factor; with bias exactly right iff the number of charges equals the number of output positions (C59_geometry_bias_iff). The bias is charged per input position and not scaled (C59_bias_violated); with channels first it is charged C * prod(sp[:-1]) times (C59_channels_first_violated). Padding 'causal' not included."
 ],
 "C60": [
  "partial",
  "Single-step equality proved; sequence length and the GRU recurrent bias are violated (C60_sequence_violated, C60_bias_violated)."
 ],
 "C61": [
  "proved",
  "For all bitwidth assignments."
 ],
 "C62": [
  "partial",
  "Proved for vectors; for matrices the reported value is not the number of executed products (C62_matrix_violated)."
 ],
 "C39": [
  "partial",
  "Proved for center=True, for zero-mean QBatchNormDense (exact criterion) and for QEinsumDenseBatchnorm with the backend epsilon and equal axis order; center=False adds 1, QBatchNormDense offset is unscaled, epsilon is ignored, other axis orders are transposed (C39_*_violated)."
 ],
 "C40": [
  "proved",
  "Masked zero, non-negative argument, shift invariance and permutation equivariance for all tables, masks and inputs (homogeneous table)."
 ],
 "C41": [
  "proved",
  "Real-number statement for every n; includes absence of rounding ties."
 ],
 "C42": [
  "partial",
  "Proved when all labels occur in ellipsis operands and no ellipsis stands for three dimensions; both exclusions are bugs (C42_capture_violated, C42_three_violated)."
 ],
 "C46": [
  "proved",
  "Forward value only; user-supplied spike_grad callables are not modelled."
 ],
 "C47": [
  "proved",
  "Mirrored quantizers taken equal to the Keras ones at inference (C18); stateful=False, no mask."
 ],
 "C48": [
  "partial",
  "Proved for the integrate-and-fire cells (reset none/zero, subtract with non-negative on-grid thresholds). False for leaky cells: C48_lif_violated."
 ],
 "C49": [
  "partial",
  "Proved for every signed state quantizer. False for an unsigned wrapping state quantizer (as tracing can leave it): C49_unsigned_violated."
 ],
 "C50": [
  "proved",
  "Mirrored quantizers and numpy activations taken equal to the Keras ones (C18); stateful=False, no mask (the replay rejects masks)."
 ],
 "C51": [
  "proved",
  "Calls always refill the cache. Reads are C63."
 ],
 "C63": [
  "partial",
  "Holds if every call that raised mid-way was followed by a successful one; the cache is not dropped on exceptions: C63_read_violated."
 ],
 "C43": [
  "partial",
  "Proved exactly for one group or depthwise (iff); other grouped convolutions are mis-traced (C43_grouped_violated). Bias, geometry and data format: C116."
 ],
 "C44": [
  "partial",
  "Proved for equal head sizes; value_dim != key_dim fails (C44_value_dim_violated)."
 ],
 "C45": [
  "partial",
  "Values proved for every acyclic graph; trace keys distinct unless layer names contain '#' (C45_keys_violated); nested multi-input models are rejected (C45_nested_violated)."
 ],
 "C54": [
  "partial",
  "Proved for thresholds up to half a step above a grid point; false otherwise (C54_threshold_violated)."
 ],
 "C64": [
  "partial",
  "Proved for images of at most 2^24 entries, for every gather map; larger ones hit float32 rounding of the encoded index (C64_float32_violated). The concrete geometry is C116."
 ],
 "C65": [
  "proved",
  "Inputs at least the traced low bound and -1e9."
 ],
 "C66": [
  "proved",
  "Entries >= -2^31 and windows with at least one entry inside the image."
 ],
 "C52": [
  "partial",
  "EBOPs are off exactly if the flags say so for plain and table layers; QUnaryFunctionLUT-like layers ignore or fail on some flag combinations (C52_flags_violated)."
 ],
 "C53": [
  "partial",
  "min/max properties proved; the callable passes (bits, integer) as (i, f): disagrees for every quantized_bits on all large inputs (C53_callable_violated); raises by default (C53_default_violated); divides the caller's array in place (C53_inplace_violated)."
 ],
 "C67": [
  "partial",
  "Exactly once if no base class was instantiated before; otherwise exactly twice (C67_inherited_violated, C67_super_violated)."
 ],
 "C68": [
  "partial",
  "False: importing qkeras.qlayers overrides the flags of every HGQ layer (C68_import_violated)."
 ],
 "C69": [
  "proved",
  "String-to-quantizer conversion of values not modelled."
 ],
 "C70": [
  "partial",
  "Proved for integer >= 0 and a fixed alpha, given that Python's float reads back what str prints; the trainable form cannot be parsed (C70_trainable_violated). Negative integers and the object built from the text: C118."
 ],
 "C55": [
  "partial",
  "Padding and key path proved for every length; the value path fails exactly when the projection size divides the length (C55_value_violated)."
 ],
 "C71": [
  "partial",
  "Proved for concatenate op, repeat, moveaxis, subscripts, QSum/QMeanPow2, reshape/flatten and all element-wise merges with broadcasting; fails for transpose with axes (always raises), RepeatVector (axis missing), Concatenate layer with unequal sizes or positive axis."
 ],
 "C72": [
  "partial",
  "da4ml tracer correct for two vectors only (C72_da_dot_violated); Alkaid correct except for two vectors (C72_alkaid_dot_violated)."
 ],
 "C73": [
  "partial",
  "Proved for channels_last, every rank; channels_first always raises or pools the wrong axes (C73_channels_first_violated)."
 ],
 "C74": [
  "partial",
  "Proved for all networks, groupings of table sizes and quantizers without scaler/affine; with bn_center=False every table is off by 1/sqrt(n_in) (C74_center_violated)."
 ],
 "C75": [
  "partial",
  "Real arithmetic; labels without repetition inside one operand. The table is a function of the kernel, normalization and presum coordinates; how Keras and the plugin each get its values from the stored weights is C111, where the two differ if normalized axes or biases are not in order (C111_norm_order_violated, C111_bias_order_violated, C111_bias_gap_violated)."
 ],
 "C76": [
  "partial",
  "All activations with their own numpy version agree with Keras except hard_silu, which differs exactly on 0 < |x| < 3 (C76_hard_silu_violated), and gelu: the tanh formula is strictly below Keras' erf-based default on 0 < |x| <= 0.09 (C76_gelu_violated; equal at 0: C76_gelu_partial). Real arithmetic."
 ],
 "C77": [
  "partial",
  "Exact criterion: works iff all sequence axes are attended (C77_axes_partial), default axes always consistent; strict subsets and reordered axes fail (C77_subset_violated, C77_order_violated)."
 ],
 "C78": [
  "partial",
  "Proved for every shape and axes without parallelization factor; a positive factor multiplies the full cost (C78_factor_violated)."
 ],
 "C79": [
  "partial",
  "Keras semantics proved for all combinations; tracing is right or raises, and raises exactly if two mask shapes differ (C79_combination_violated)."
 ],
 "C80": [
  "partial",
  "Proved for every traceable call in all fusion modes; input quantizers off (unless qkv) or fused tensors passed separately raise (C80_*_violated); unequal fused head sizes: C44."
 ],
 "C81": [
  "partial",
  "Proved for QBatchNormDense, QEinsumDenseBatchnorm and table layers over all histories; QBatchNormalization ignores `trainable` (C81_qbn_violated)."
 ],
 "C82": [
  "proved",
  "Closed form over every history; variance non-negative and mean bounds as invariants."
 ],
 "C83": [
  "partial",
  "Proved for QBatchNormalization with center=True and QEinsumDenseBatchnorm; center=False gives mean one (C83_center_violated); QBatchNormDense: exact criterion C83_dense_partial, false in general (C83_dense_violated)."
 ],
 "C84": [
  "partial",
  "Proved for shared-in-time bit widths without EBOPs; causality for every successful call; the default per-time-step bit widths raise and turn the layer into a valid convolution (C84_default_violated), EBOPs raise (C84_ebops_violated)."
 ],
 "C85": [
  "partial",
  "Proved for 33 classes under any arguments and any scopes (C85_survives_partial); exact criteria where false: pooling, QEinsumDenseBatchnorm, QSimpleRNN, QGRUCell, QSimpleSNN/QLIF."
 ],
 "C86": [
  "partial",
  "Exact criterion for fixed-point configs (C86_fixed_partial) and acceptance theorem under the library defaults; false for every float config (C86_float_violated) and for an axis list given as None (C86_none_axis_violated)."
 ],
 "C87": [
  "partial",
  "Proved over all histories in which no object is used in two roles, with frame and reload theorems; false when an ordinary place and a table place share an object (C87_shared_violated, C87_order_violated)."
 ],
 "C88": [
  "partial",
  "Proved for equal ranks and for non-negative heterogeneous axes at any ranks; false for homogeneous_axis=(0,) and heterogeneous_axis=(-1,) at different ranks (exact criteria)."
 ],
 "C89": [
  "partial",
  "Proved for quantizers, sums of products, dense layers and chains of dense layers (linear/ReLU) with conditions on formats and weights only; one float32 value per format is mis-rounded by RND (C89_rnd_violated) and beyond 24 bits results depend on the order (C89_order_violated). Convolution and einsum layers: C101."
 ],
 "C90": [
  "partial",
  "One pass: proved for models whose adapting quantizers are of type kif (the default for data) when values fit the constraint on i; for kbi/mixed models on a single batch when no kbi quantizer is called twice (C90_one_batch). False for kbi with several batches (C90_kbi_violated), but: a repetition of trace_minmax(reset=False) that leaves the kbi integer bits unchanged certifies the calibration (C90_settled), and at most as many repetitions as there are kbi quantizers reach that point (C90_passes_settle, C90_calibrated_by_passes), unless a kbi quantizer is shared: then it may never happen (C90_shared_kbi_violated)."
 ],
 "C91": [
  "partial",
  "Proved for the listed layers (dense, convolution, merges, reductions, batch normalization, look-up tables, windowed and global pooling, unmasked softmax, einsum layers, AveragePow2; ReLU, PReLU, reshapes, concatenation, repeat, moveaxis, abs, subscripts, dropout) with: no scaler (C18), widths in int8 range and constant along the batch axis, one group or depthwise convolutions and channels-last pooling on at most 2^24 entries (C43, C64), values of max pooling at least -2^31, no window of padding only, threshold-free ReLU (C54), a bias in dense and einsum layers. Models with attention layers: C107, with table layers: C108; recurrent and spiking layers: C110 (Alkaid only; the da4ml tracer has no handlers for them). The arithmetic of da4ml is external and taken as exact."
 ],
 "C92": [
  "partial",
  "Proved for weight quantizers (is_weight; kif in every mode, kbi with RND) and for bias quantizers when a training or tracing call follows the last optimizer step and the sign bit is there. False otherwise: right after an optimizer step (the state fit leaves behind) a bias one step above the top is read as -2^i; after a calibration on non-negative biases training never restores the sign bit."
 ],
 "C93": [
  "partial",
  "Proved for m >= 0 and e >= 1 (the call relative to the documented behaviour of the external float_quantize: nearest number of the format). False without exponent bits, allowed by the default constraint: epsilon is irrational; and for m = -1, where the quantizer is documented to give zero but reports e bits."
 ],
 "C94": [
  "partial",
  "Proved for one bare output tensor and for several outputs of one common shape. False for outputs of different shapes (raises) and for a model built with a one-element list of outputs (raises or returns an extra axis)."
 ],
 "C95": [
  "partial",
  "Proved for every equation whose input labels are distinct (any ellipsis form, any rank and sizes). False for a repeated input label (diagonal): the axis is counted twice. ops.einsum with an ellipsis that is missing in the output is modelled as a sum over the elided axes."
 ],
 "C96": [
  "partial",
  "Exact for windows without overlap and gaps (pool size = stride, 'same' padding or divisible sizes) and for global pooling; two-sided bounds for the other geometries. False for overlapping windows (each input is charged once, C96_overlap_violated), for 'valid' windows that drop trailing inputs (C96_truncated_violated), and a size unknown at build time makes every EBOPs computation raise (C96_unknown_violated)."
 ],
 "C97": [
  "proved",
  "The mean offset width times the number of elements is the sum over the elements because every channel has the same number of them."
 ],
 "C98": [
  "partial",
  "Row costs proved for all shapes, axes, widths and factors (unstable without input quantizer excluded: its table is charged as if the input had no bits) and the composition with the tables. With a factor the tables are still charged for every row (C98_factor_violated)."
 ],
 "C99": [
  "partial",
  "Proved with an input quantizer. Without one 0 is reported (C99_no_iq_violated)."
 ],
 "C100": [
  "proved",
  "Spike function and firing for all finite float32 values (with inhibition only if the accumulators fit: differences may be rounded together otherwise); sequences under explicit 24-bit conditions, which are needed (C100_24bits_violated). Gradual underflow is assumed (no flush to zero)."
 ],
 "C101": [
  "partial",
  "The demands (LayerSafe) are on the values that flow; static conditions from quantizer formats are proved for dense, convolution, einsum-dense and additive merges. Weights enter quantized, as in C91 (float32 weight quantization is C89). Layers outside the list of C91 are missing. Without the 24-bit condition it is false (C101_24bits_violated)."
 ],
 "C102": [
  "partial",
  "Exact reals, not float32; spiking layers, GRU with iq disabled and minifloat quantizers are not among the layers; derivatives of the smooth layers are proved equal to the true ones away from the kink at zero bits (dense, convolution, einsum-dense, attention, lookup tables), for the others their sign. KBI widths must be constrained to be non-negative: with bc=None it is false (C102_unconstrained_b_violated). Initial values must satisfy the constraint."
 ],
 "C103": [
  "partial",
  "Cells without quantizers, exact reals; a user-supplied spike_grad is not modelled; the bound for attached resets covers subtract/none, threshold*alpha <= 4. It is false for detach_reset=False with threshold*alpha > 4 (C103_attached_violated: growth 3^n) and for a negative alpha, which ATan accepts (C103_alpha_violated)."
 ],
 "C104": [
  "partial",
  "Exact arithmetic (rationals), the layers of C91 (dense, convolution, einsum, merges, sums, pooling, softmax, batch norm, tables, ReLU, structural operations) and the attention and table layers of C107 and C108. Recurrent and spiking layers: C104_recurrent_partial (without masks, not stateful). QEinsumDenseT: C104_einsum_tables_partial. Attention with table projections: C104_table_attention_partial. Quantizers must not be heterogeneous along the batch axis, operations must not act along it: there it is false (C104_batch_axis_violated, C104_repeat_batch_violated)."
 ],
 "C105": [
  "partial",
  "Exact arithmetic, the layers of C91. What the plugin inherits from the external converter (ReplayDense, ReplayConv, ReplayPool, ReplayMerge, ReplayBatchNormalization, plain Keras layers, activation, graph walk) is trusted to be Keras on a batch of one; quantizers, QSum/QMeanPow2, QAveragePow2, QEinsum, tables, QSoftmax and the wrapper are modelled from the code. False with a scaler (C105_scaler_violated) and with widths along the batch axis (C105_batch_axis_violated). Attention and table layers: C109. Recurrent and spiking layers: C110. QEinsumDenseT: C111."
 ],
 "C106": [
  "partial",
  "Exact arithmetic. Proved for operands of equal sample rank (or constants of at most this rank), matrix products of matrices, dense products, reshapes that keep the batch axis. False for tensors of different ranks (C106_rank_violated), constants with a batch axis of size one (C106_constant_violated), every reduction operation (C106_reduction_violated: axis and keepdims are attributes of the operation but expected as call arguments), vectors times matrices per sample (C106_matvec_violated), dot of two tensors (C106_dot_violated), ravel (C106_ravel_violated). That Keras stores reduction axes as attributes of the operation is taken from Keras, not from this repository."
 ],
 "C107": [
  "partial",
  "Exact arithmetic, arrays, all sequence axes attended (default attention_axes), a mask that is the same for all samples (masks per sample: C123). The softmax tables are functions per index (C18, C74). Missing: attention over some axes (C77), scores that are not masked but below -1e9 or below the tracer's bound, fused projections with different kernel shapes. False without input quantizers unless all projections are fused (C107_no_iq_violated) and for fused projections of different tensors (C107_fused_violated). SALT attention: clusters as einsums and the convolution over the scores with one group; its geometry is a function of positions (C43). Adding None as bias in the tracer leaves the array unchanged (da4ml, assumed)."
 ],
 "C108": [
  "partial",
  "Exact arithmetic. The network of a pair with its batch normalization is one function, the same in Keras and in the tracer (C74 for how the tracer gathers it). Table quantizers have no scaler and no affine map (otherwise false: C108_toq_affine_violated), the input quantizer is enabled (otherwise tracing raises: C108_no_iq_violated), patches have indices below 2^24, channels last. Missing: float32 evaluation of the network, QEinsumDenseT (no handler in the tracer)."
 ],
 "C109": [
  "partial",
  "Exact arithmetic; conditions on quantizers, masks and scores as in C107; table quantizers without scaler and affine map (otherwise false: C109_toq_affine_violated); the network of a pair with its batch normalization is one function (C74 for how it is gathered). False without input quantizers unless all projections are fused (C109_no_iq_violated) and for fused projections of different tensors (C109_fused_violated). Inherited convolution and dense code, extract_patches and the activation step of the external converter are trusted to be Keras on a batch of one. QEinsumDenseT: C111. Attention with table projections: C112."
 ],
 "C110": [
  "partial",
  "Exact arithmetic, at inference, without masks (the conversion rejects them) and with quantizers as in C105; weights already quantized; activations are elementwise functions and assumed to be converted exactly. A returned state is modelled as a layer of its own. False for stateful=True, where Keras continues from the previous batch and the conversion starts from zero (C110_stateful_violated). C110_values states the recurrences independently of the model."
 ],
 "C111": [
  "partial",
  "Exact arithmetic, at inference; square roots as computed; keras.layers.EinsumDense (shape and broadcasting of the bias) is modelled from Keras; activations are elementwise functions, assumed the same on both sides. The batch label comes first and is not a kernel label. False when biases exist and the kernel labels are not the last axes of the array before the sum in this order, or when the normalized axes (by default in the order of the kernel labels) are not in its order: Keras reshapes or broadcasts the stored weights, the plugin indexes them (C111_norm_order_violated, C111_bias_order_violated: silently different; C111_bias_gap_violated: conversion raises). Table quantizers without scaler and affine map, ranges known at conversion hold the inputs (as C108/C109)."
 ],
 "C112": [
  "partial",
  "Exact arithmetic, at inference; all sequence axes attended, a mask that is the same for all samples (masks per sample: C123), unmasked scores above the value that replaces masked ones (as C107). Conditions on tables as in C111, but the orders of axes and biases that break C111 do not occur in these equations (proved), and layers without input quantizers are covered if the ranges known at conversion hold the inputs. C112_ranges: they do with an enabled input quantizer without scaler and affine map. Missing: attention over some axes."
 ],
 "C113": [
  "partial",
  "Exact arithmetic, at inference; all sequence axes attended, a mask that is the same for all samples (masks per sample: C123), no affine map on the output quantizer of the softmax (with one, masked weights are not zero: C113_affine_violated) and no convolution over scores as in QSALTAttention (applied before the mask: C113_conv_violated). QMultiHeadAttention and QMultiHeadAttentionT. Missing: Linformer (positions are mixed before the mask), attention over some axes."
 ],
 "C114": [
  "partial",
  "Exact arithmetic, at inference. Layers: quantizers, activations, dense, einsum layers that keep the time axis, batch normalization, unary tables, merges of equal rank, sums and softmax over other axes, convolutions with causal geometry (C114_causal_padding: padding=causal, stride 1), QDenseT, attention with one sequence axis under the conditions of C113 (C114_use_causal_mask: the combined mask is causal), recurrent and spiking layers. Masks per sample: C123_causal_partial. Strides, look-ahead and pooling: C114_rates and C114_rates_models_partial give each tensor its own time; C114_conv_reach, C114_pool_reach and C114_causal_strides compute how far a window looks. Missing: QConvT, QEinsumDenseT, RNN masks and given initial states."
 ],
 "C115": [
  "partial",
  "Neighbours, mean, representable inputs, saturating modes, independence of the draws outside training, and the fit of the range to the training results (kif) are proved for all draws. False: the range fitted in training to stochastic results may be too small for the same inputs at inference, where they wrap (C115_train_inference_violated, kif); an input just above the top can be rounded out of a kbi format (C115_kbi_edge_violated). The rounding function itself is in the external package quantizers (trusted base)."
 ],
 "C116": [
  "partial",
  "Convolution in both data formats with optional bias, pooling, patches and table convolutions with channels last, images of at most 2^24 entries, one group or depthwise. C116_core: the geometry-generic convolution layer of C91/C101, instantiated with this geometry, is the convolution of the specification. False for pooling with channels first (C116_pool_channels_first_violated), table convolutions with channels first (C116_table_channels_first_violated), extract_patches without strides (C116_extract_strides_violated: Keras documents strides=None as non-overlapping patches) and with channels first (C116_extract_channels_first_violated). That extract_patches_3d of Keras pads like its convolution is taken from Keras; adding None as bias leaves a traced array unchanged (da4ml)."
 ],
 "C117": [
  "partial",
  "Proved if the sizes of normalize_axes agree with those of the same labels in the order of the array; C117_raises_iff: otherwise every training call raises. That happens for default axes if the kernel lists an output label before an input label ('bij,oij->bio'; C117_default_axes_violated). Exact rationals, any function as square root; static shapes."
 ],
 "C118": [
  "partial",
  "Config round trip: exact result for every call (C118_config_partial), kind of quantizer kept exactly unless a fixed alpha is combined with use_variables=True (C118_kind_iff, C118_use_variables_violated). quantized_relu: right for at most two positional arguments; a third one, alpha, is taken as symmetric (C118_relu_alpha_violated), four raise (C118_relu_four_violated), every text quantized_relu(...) is rejected (C118_relu_string_violated). Text of quantized_bits: C118_text_partial for every integer width and fixed alpha; a negative integer width comes back as a float and can no longer be saved (C118_negative_violated); trainable: C70. Python's float reads '-n' as -n and reads back what str prints (hypotheses); a keyword repeated in a text is not modelled."
 ],
 "C119": [
  "partial",
  "Exact criterion for every layer and call: C119_iff. Right when data tensors are positional (C119_positional_partial). Calls with keyword tensors only raise in training (C119_keyword_violated); an attention value passed by keyword is charged with the shape of the query (C119_value_keyword_violated); a positional None, mask or initial state raises in training (C119_positional_violated). `training` itself is always a keyword here; QSubtract and QDot, which unpack exactly two shapes, are not in the table."
 ],
 "C120": [
  "partial",
  "Proved after tracing for layers called at one place each, up to rounding each layer down (C120_trace_partial); exact for all models: each layer reports its last call site (C120_last_use). False for layers called at several places (C120_shared_violated: the loss charges each), after an optimizer step (C120_fit_violated: one step old; exact criterion C120_fit_iff) and for fractional costs, which are truncated per layer (C120_truncated_violated). Costs are exact rationals. The 32 bits of the variable change nothing if no call in reach costs 2^32 or more (C120_cast_partial); a layer that does is reported too low whatever the cast does (C120_overflow_violated)."
 ],
 "C121": [
  "partial",
  "Proved for all constructors of the stated form at any depth, and for the 13 classes of the library with the exact table of arguments they use themselves. False for fuse of QMultiHeadAttentionT, silently replaced by 'none' (C121_fuse_violated), and for unknown keywords of the form __name__, silently dropped (C121_dunder_violated). Fixed arguments arrive fixed and clash with the user's (C121_fixed, C121_conv_rank); unknown keywords of constructors without **kwargs raise (C121_unknown_keyword); popped defaults (C121_popped, C121_frozen_trainable). What classes then do with their arguments is not part of it; positional arguments are taken as bound to their names by Python."
 ],
 "C122": [
  "partial",
  "Proved over all histories: for an explicit factor at any shape, for the same number of positions, for axes at the same rank or counted from the front, equations at the same ranks, the same number of inputs. Exact criterion for the default factor (C122_factor_iff): a copy reports the full cost times n1/n, where n1 is the number of positions of the first build (C122_other_shape_violated: silently wrong EBOPs). Axes counted from the end name other positions at another rank (C122_axes_violated). Equations at other ranks and other numbers of inputs raise although a new layer works (C122_equation, C122_inputs). A factor of 0 means no cost for dense layers and the default for convolutions (C122_zero_factor). Equations with an ellipsis for exactly three dimensions are excluded (C42)."
 ],
 "C123": [
  "partial",
  "Exact arithmetic, at inference, all sequence axes attended; quantizer widths do not vary along the batch axis. Attention, Linformer, SALT and their table forms with a mask per sample: selections of samples (C123_selection_partial), one sample with its own mask (C123_own_mask_partial), models (C123_models_partial), replay by the tracer (C123_tracer_partial), conversion by the plugin (C123_end_to_end_partial, conditions of C112), masked positions and padding (conditions of C113) and causality (conditions of C114). The mask is given; how it is combined from padding masks, attention_mask and use_causal_mask is C79, for one sample. Missing: attention over some axes."
 ],
 "C124": [
  "partial",
  "Exact arithmetic, at inference, sequences with one sequence axis (arrays of batch, steps, features), QMultiHeadAttention and its projections, no quantizer with an affine term behind the softmax; the scores of unmasked keys are at least -1e9 for the stable softmax (below this value masked entries would win the maximum). Any two lengths, any contents of the padding, any masks on the valid steps, cross-attention with different query and key lengths (C124_attention_partial), attention without a mask on the unpadded sequences (C124_unpadded_partial), batches of sequences of different lengths (C124_batch_partial), the layer in a model (C124_layer_partial). The widths and tables are the same on both sides (they do not depend on the positions where they are read outside the stated lengths). Missing: Linformer and SALT (their projections mix positions; the claim is false), table projections (their lengths are fixed when built), several sequence axes, whole models (all other sequence layers act step by step)."
 ],
 "C125": [
  "partial",
  "Exact arithmetic, at inference, quantizer widths that do not vary along the batch axis (the hypothesis of C104). Any mask for every sample (not only padding at the end), any lengths, cells (simple, GRU with either reset, leaky integrate-and-fire), with or without initial state, either direction, all three kinds of output. The time loop with masks is that of Keras (not in /repo, trusted as modelled; two backend conventions for the output at masked steps), with zero_output_for_mask=False. Spiking layers: only for backends that repeat the output; with the first-state convention the claim is false (C125_spiking_state_violated). A sample without any valid step keeps its first state (C125_all_masked_partial). Missing: stateful layers, dropout in training, the conversion (the plugin refuses masks)."
 ],
 "C126": [
  "partial",
  "Proved for all sequences of trainings that end normally (also by early stopping), if the logs have the entries of the template. False after an interrupted training: the old bar goes on with the old total (C126_interrupted_violated), and without validation data: the default template names val_loss and the first epoch raises (C126_validation_violated). Formatting of numbers and tqdm are not modelled; every epoch is counted from one (with initial_epoch > 0 the bar ends before its total)."
 ]
}