{
 "claims": [
  {
   "property": "C01",
   "status": "proved",
   "theorems": [
    "HGQ.C01_output_representable"
   ],
   "note": "Exact rationals; external stateless quantizer modelled from its documentation."
  },
  {
   "property": "C02",
   "status": "proved",
   "theorems": [
    "HGQ.C02_idempotent"
   ],
   "note": ""
  },
  {
   "property": "C03",
   "status": "proved",
   "theorems": [
    "HGQ.C03_rounding_in_range",
    "HGQ.C03_rounded_exists"
   ],
   "note": ""
  },
  {
   "property": "C04",
   "status": "proved",
   "theorems": [
    "HGQ.C04_saturation",
    "HGQ.C04_wrap_not_monotone"
   ],
   "note": "Also shows that WRAP is not monotone."
  },
  {
   "property": "C05",
   "status": "proved",
   "theorems": [
    "HGQ.C05_wrap_modular"
   ],
   "note": ""
  },
  {
   "property": "C06",
   "status": "partial",
   "theorems": [
    "HGQ.C06_reachable_iff",
    "HGQ.C06_reachable_count",
    "HGQ.C06_fbits_partial",
    "HGQ.C06_fbits_wrap_counterexample"
   ],
   "note": "Reachable set and its size proved for all widths; 'log2 count <= fbits' is false for signed WRAP with i+f=0 (counterexample theorem: 2 outputs, fbits=0) and proved otherwise."
  },
  {
   "property": "C07",
   "status": "proved",
   "theorems": [
    "HGQ.C07_zero_width"
   ],
   "note": ""
  },
  {
   "property": "C08",
   "status": "proved",
   "theorems": [
    "HGQ.C08_calibrated_no_overflow",
    "HGQ.C08_default_constraint",
    "HGQ.C08_needs_proviso"
   ],
   "note": "Holds for any start state, any batches; the proviso (constraint does not bind from above) is shown to be necessary."
  },
  {
   "property": "C09",
   "status": "proved",
   "theorems": [
    "HGQ.C09_tight",
    "HGQ.C09_least",
    "HGQ.C09_tight_minMax"
   ],
   "note": "Unconstrained and under an integer MinMax."
  },
  {
   "property": "C10",
   "status": "proved",
   "theorems": [
    "HGQ.C10_batching_independent",
    "HGQ.C10_retrace_noop"
   ],
   "note": "For every constraint of the library."
  },
  {
   "property": "C11",
   "status": "partial",
   "theorems": [
    "HGQ.C11_calibrated_no_overflow_partial",
    "HGQ.C11_fails_at_23"
   ],
   "note": "Proved for 1<=b<=22 without constraint on i (the default); false at b=23 (counterexample theorem) because of the keras epsilon in minimal_i_given_xb."
  },
  {
   "property": "C12",
   "status": "proved",
   "theorems": [
    "HGQ.C12_kif_training_step",
    "HGQ.C12_kbi_training_step"
   ],
   "note": ""
  },
  {
   "property": "C13",
   "status": "partial",
   "theorems": [
    "HGQ.C13_kbi_constraint",
    "HGQ.C13_kif_violated",
    "HGQ.C13_kif_partial"
   ],
   "note": "kbi proved; kif is false (C13_kif_violated: the code throws the constrained value away); kif tracing and the in-range case proved."
  },
  {
   "property": "C14",
   "status": "proved",
   "theorems": [
    "HGQ.C14_flag",
    "HGQ.C14_no_state_change",
    "HGQ.C14_tracing_is_not_training"
   ],
   "note": ""
  },
  {
   "property": "C15",
   "status": "proved",
   "theorems": [
    "HGQ.C15_axes_partition",
    "HGQ.C15_weight_shape"
   ],
   "note": ""
  },
  {
   "property": "C16",
   "status": "proved",
   "theorems": [
    "HGQ.C16_reduction_is_fibre",
    "HGQ.C16_every_cell_fed",
    "HGQ.C16_tensor_calibration"
   ],
   "note": ""
  },
  {
   "property": "C17",
   "status": "partial",
   "theorems": [
    "HGQ.C17_inference",
    "HGQ.C17_noise_partial",
    "HGQ.C17_noise_with_scaler_violated"
   ],
   "note": "Inference and scaler-free noise proved; with a scaler and a noise factor the training interpolation starts from x/s instead of x (C17_noise_with_scaler_violated)."
  },
  {
   "property": "C18",
   "status": "partial",
   "theorems": [
    "HGQ.C18_replay_partial",
    "HGQ.C18_scaler_violated"
   ],
   "note": "Proved without scaler (or scaler 1); with a scaler the replay never multiplies back (C18_scaler_violated)."
  },
  {
   "property": "C19",
   "status": "proved",
   "theorems": [
    "HGQ.C19_hard_tanh",
    "HGQ.C19_hard_sigmoid"
   ],
   "note": ""
  },
  {
   "property": "C20",
   "status": "partial",
   "theorems": [
    "HGQ.C20_roundtrip_partial",
    "HGQ.C20_condition_met",
    "HGQ.C20_float_bias_violated",
    "HGQ.C20_hard_tanh_partial",
    "HGQ.C20_hard_tanh_symmetric_violated",
    "HGQ.C20_hard_sigmoid_partial"
   ],
   "note": "Round trip proved for all accepted configs with at most one axis list set; the shipped ('float','bias') default violates it; HardTanhConfig(symmetric=True) comes back with SAT (violation theorem)."
  },
  {
   "property": "C21",
   "status": "partial",
   "theorems": [
    "HGQ.C21_accept_iff_partial",
    "HGQ.C21_content",
    "HGQ.C21_dummy_accepts_anything"
   ],
   "note": "Complete acceptance criterion and content for kbi/kif/float; type 'dummy' accepts and drops any keyword (C21_dummy_accepts_anything)."
  },
  {
   "property": "C22",
   "status": "proved",
   "theorems": [
    "HGQ.C22_scopes_restore"
   ],
   "note": "Refinement of the mutable save/restore implementation to a lexical semantics, for all programs without re-entering an open scope object."
  },
  {
   "property": "C23",
   "status": "partial",
   "theorems": [
    "HGQ.C23_quantizer_scope_violated",
    "HGQ.C23_sequential_partial",
    "HGQ.C23_layer_scope_violated"
   ],
   "note": "False: proved that re-entering an open scope object always leaks (both scope classes). Sequential re-use of one object is covered by C22/C25."
  },
  {
   "property": "C24",
   "status": "proved",
   "theorems": [
    "HGQ.C24_snapshot"
   ],
   "note": ""
  },
  {
   "property": "C25",
   "status": "proved",
   "theorems": [
    "HGQ.C25_layer_scope"
   ],
   "note": ""
  },
  {
   "property": "C26",
   "status": "proved",
   "theorems": [
    "HGQ.C26_complete"
   ],
   "note": ""
  },
  {
   "property": "C27",
   "status": "proved",
   "theorems": [
    "HGQ.C27_projection"
   ],
   "note": "MinMax with lo<=hi; otherwise the claim fails (example)."
  },
  {
   "property": "C28",
   "status": "proved",
   "theorems": [
    "HGQ.C28_partition"
   ],
   "note": "Every reachable state; randomness universally quantified."
  },
  {
   "property": "C29",
   "status": "proved",
   "theorems": [
    "HGQ.C29_shuffled_epoch"
   ],
   "note": ""
  },
  {
   "property": "C30",
   "status": "partial",
   "theorems": [
    "HGQ.C30_schedule_partial",
    "HGQ.C30_log_zero_violated"
   ],
   "note": "All modes and key points except log segments starting at beta 0, which raise (C30_log_zero_violated)."
  },
  {
   "property": "C31",
   "status": "partial",
   "theorems": [
    "HGQ.C31_bounds_partial",
    "HGQ.C31_warmup_violated"
   ],
   "note": "Proved for every run if init_beta is within the bounds; otherwise warm-up assigns it unclamped (C31_warmup_violated)."
  },
  {
   "property": "C32",
   "status": "partial",
   "theorems": [
    "HGQ.C32_first_epoch_partial",
    "HGQ.C32_linear_violated"
   ],
   "note": "Log mode: exact formula and a relative error bound of (p+i)*1e-9/r; linear mode is wrong by 2(p+i)(1-r) (C32_linear_violated)."
  },
  {
   "property": "C33",
   "status": "proved",
   "theorems": [
    "HGQ.C33_monotone",
    "HGQ.C33_direction"
   ],
   "note": ""
  },
  {
   "property": "C34",
   "status": "partial",
   "theorems": [
    "HGQ.C34_fires_iff_partial",
    "HGQ.C34_off_by_one_violated"
   ],
   "note": "Exact firing condition proved; it is patience+1, not patience as documented (C34_off_by_one_violated)."
  },
  {
   "property": "C35",
   "status": "proved",
   "theorems": [
    "HGQ.C35_early_stopping"
   ],
   "note": "For an arbitrary inner early-stopping machine."
  },
  {
   "property": "C36",
   "status": "partial",
   "theorems": [
    "HGQ.C36_front_partial",
    "HGQ.C36_dominated_record_violated",
    "HGQ.C36_collision_violated"
   ],
   "note": "Invariants over all histories with distinct names; weakly dominated records stay and name collisions break the file correspondence (two violation theorems)."
  },
  {
   "property": "C37",
   "status": "partial",
   "theorems": [
    "HGQ.C37_totals_partial",
    "HGQ.C37_nested_violated",
    "HGQ.C37_linformer_violated",
    "HGQ.C37_shared_violated",
    "HGQ.C37_softmax_off_violated"
   ],
   "note": "Proved for models made of plain, softmax and attention layers with distinct layer objects; nested models, Linformer, shared projections and a softmax with EBOPs off disagree (C37_*_violated)."
  },
  {
   "property": "C38",
   "status": "proved",
   "theorems": [
    "HGQ.C38_dense_ebops"
   ],
   "note": "Equality with the executed products, linearity and monotonicity for dense layers, for all shapes and bitwidths."
  },
  {
   "property": "C39",
   "status": "partial",
   "theorems": [
    "HGQ.C39_bn_partial",
    "HGQ.C39_center_violated",
    "HGQ.C39_dense_partial",
    "HGQ.C39_dense_violated",
    "HGQ.C39_einsum_partial",
    "HGQ.C39_einsum_eps_violated",
    "HGQ.C39_einsum_order_violated"
   ],
   "note": "Proved for center=True, for zero-mean QBatchNormDense (exact criterion) and for QEinsumDenseBatchnorm with the backend epsilon and equal axis order; center=False adds 1, QBatchNormDense offset is unscaled, epsilon is ignored, other axis orders are transposed (C39_*_violated)."
  },
  {
   "property": "C40",
   "status": "proved",
   "theorems": [
    "HGQ.C40_argument_nonneg",
    "HGQ.C40_masked_zero",
    "HGQ.C40_permutation",
    "HGQ.C40_shift_invariant"
   ],
   "note": "Masked zero, non-negative argument, shift invariance and permutation equivariance for all tables, masks and inputs (homogeneous table)."
  },
  {
   "property": "C41",
   "status": "proved",
   "theorems": [
    "HGQ.C41_pow2_mean"
   ],
   "note": "Real-number statement for every n; includes absence of rounding ties."
  },
  {
   "property": "C42",
   "status": "partial",
   "theorems": [
    "HGQ.C42_ellipsis_partial",
    "HGQ.C42_capture_violated",
    "HGQ.C42_three_violated"
   ],
   "note": "Proved when all labels occur in ellipsis operands and no ellipsis stands for three dimensions; both exclusions are bugs (C42_capture_violated, C42_three_violated)."
  },
  {
   "property": "C43",
   "status": "partial",
   "theorems": [
    "HGQ.C43_conv_partial",
    "HGQ.C43_grouped_violated"
   ],
   "note": "Proved exactly for one group or depthwise (iff); other grouped convolutions are mis-traced (C43_grouped_violated). Bias, geometry and data format: C116."
  },
  {
   "property": "C44",
   "status": "partial",
   "theorems": [
    "HGQ.C44_fused_partial",
    "HGQ.C44_value_dim_violated"
   ],
   "note": "Proved for equal head sizes; value_dim != key_dim fails (C44_value_dim_violated)."
  },
  {
   "property": "C45",
   "status": "partial",
   "theorems": [
    "HGQ.C45_graph_replay",
    "HGQ.C45_keys_partial",
    "HGQ.C45_keys_violated",
    "HGQ.C45_nested_violated"
   ],
   "note": "Values proved for every acyclic graph; trace keys distinct unless layer names contain '#' (C45_keys_violated); nested multi-input models are rejected (C45_nested_violated)."
  },
  {
   "property": "C46",
   "status": "proved",
   "theorems": [
    "HGQ.C46_spike_reset"
   ],
   "note": "Forward value only; user-supplied spike_grad callables are not modelled."
  },
  {
   "property": "C47",
   "status": "proved",
   "theorems": [
    "HGQ.C47_snn_replay"
   ],
   "note": "Mirrored quantizers taken equal to the Keras ones at inference (C18); stateful=False, no mask."
  },
  {
   "property": "C48",
   "status": "partial",
   "theorems": [
    "HGQ.C48_accumulator_partial",
    "HGQ.C48_lif_violated"
   ],
   "note": "Proved for the integrate-and-fire cells (reset none/zero, subtract with non-negative on-grid thresholds). False for leaky cells: C48_lif_violated."
  },
  {
   "property": "C49",
   "status": "partial",
   "theorems": [
    "HGQ.C49_gru_bounded_partial",
    "HGQ.C49_unsigned_violated"
   ],
   "note": "Proved for every signed state quantizer. False for an unsigned wrapping state quantizer (as tracing can leave it): C49_unsigned_violated."
  },
  {
   "property": "C50",
   "status": "proved",
   "theorems": [
    "HGQ.C50_rnn_replay"
   ],
   "note": "Mirrored quantizers and numpy activations taken equal to the Keras ones (C18); stateful=False, no mask (the replay rejects masks)."
  },
  {
   "property": "C51",
   "status": "proved",
   "theorems": [
    "HGQ.C51_calls_current"
   ],
   "note": "Calls always refill the cache. Reads are C63."
  },
  {
   "property": "C52",
   "status": "partial",
   "theorems": [
    "HGQ.C52_ebops_partial",
    "HGQ.C52_no_failure_partial",
    "HGQ.C52_flags_violated"
   ],
   "note": "EBOPs are off exactly if the flags say so for plain and table layers; QUnaryFunctionLUT-like layers ignore or fail on some flag combinations (C52_flags_violated)."
  },
  {
   "property": "C53",
   "status": "partial",
   "theorems": [
    "HGQ.C53_callable_partial",
    "HGQ.C53_callable_violated",
    "HGQ.C53_default_violated",
    "HGQ.C53_inplace_violated",
    "HGQ.C53_min_max_props"
   ],
   "note": "min/max properties proved; the callable passes (bits, integer) as (i, f): disagrees for every quantized_bits on all large inputs (C53_callable_violated); raises by default (C53_default_violated); divides the caller's array in place (C53_inplace_violated)."
  },
  {
   "property": "C54",
   "status": "partial",
   "theorems": [
    "HGQ.C54_relu_partial",
    "HGQ.C54_threshold_violated"
   ],
   "note": "Proved for thresholds up to half a step above a grid point; false otherwise (C54_threshold_violated)."
  },
  {
   "property": "C55",
   "status": "partial",
   "theorems": [
    "HGQ.C55_padding",
    "HGQ.C55_key",
    "HGQ.C55_value_partial",
    "HGQ.C55_value_violated"
   ],
   "note": "Padding and key path proved for every length; the value path fails exactly when the projection size divides the length (C55_value_violated)."
  },
  {
   "property": "C56",
   "status": "partial",
   "theorems": [
    "HGQ.C56_scope_option_effect_partial",
    "HGQ.C56_ignored_violated"
   ],
   "note": "Effect proved for every parameter of a quantizer type; scaler, affine and qnoise_factor are accepted and ignored (C56_ignored_violated)."
  },
  {
   "property": "C57",
   "status": "partial",
   "theorems": [
    "HGQ.C57_one_element_list_violated"
   ],
   "note": "False: C57_one_element_list_violated."
  },
  {
   "property": "C58",
   "status": "partial",
   "theorems": [
    "HGQ.C58_no_crash_partial",
    "HGQ.C58_zero_ebops_violated"
   ],
   "note": "Proved for positive EBOPs in log mode; EBOPs 0 raises (C58_zero_ebops_violated)."
  },
  {
   "property": "C59",
   "status": "partial",
   "theorems": [
    "HGQ.C59_geometry_partial",
    "HGQ.C59_geometry_bias_iff",
    "HGQ.C59_channels_first_violated",
    "HGQ.C59_conv_ebops_partial",
    "HGQ.C59_bias_violated"
   ],
   "note": "C59_geometry_partial: from the geometry (kernel, stride, dilation, padding, groups, both data formats) the EBOPs without bias are the cost of the products that meet the image, scaled by the factor; with bias exactly right iff the number of charges equals the number of output positions (C59_geometry_bias_iff). The bias is charged per input position and not scaled (C59_bias_violated); with channels first it is charged C * prod(sp[:-1]) times (C59_channels_first_violated). Padding 'causal' not included."
  },
  {
   "property": "C60",
   "status": "partial",
   "theorems": [
    "HGQ.C60_single_step_partial",
    "HGQ.C60_sequence_violated",
    "HGQ.C60_bias_violated"
   ],
   "note": "Single-step equality proved; sequence length and the GRU recurrent bias are violated (C60_sequence_violated, C60_bias_violated)."
  },
  {
   "property": "C61",
   "status": "proved",
   "theorems": [
    "HGQ.C61_accum_table"
   ],
   "note": "For all bitwidth assignments."
  },
  {
   "property": "C62",
   "status": "partial",
   "theorems": [
    "HGQ.C62_dot_partial",
    "HGQ.C62_matrix_violated"
   ],
   "note": "Proved for vectors; for matrices the reported value is not the number of executed products (C62_matrix_violated)."
  },
  {
   "property": "C63",
   "status": "partial",
   "theorems": [
    "HGQ.C63_reads_current_partial",
    "HGQ.C63_read_violated"
   ],
   "note": "Holds if every call that raised mid-way was followed by a successful one; the cache is not dropped on exceptions: C63_read_violated."
  },
  {
   "property": "C64",
   "status": "partial",
   "theorems": [
    "HGQ.C64_patches_partial",
    "HGQ.C64_float32_violated"
   ],
   "note": "Proved for images of at most 2^24 entries, for every gather map; larger ones hit float32 rounding of the encoded index (C64_float32_violated). The concrete geometry is C116."
  },
  {
   "property": "C65",
   "status": "proved",
   "theorems": [
    "HGQ.C65_softmax_replay"
   ],
   "note": "Inputs at least the traced low bound and -1e9."
  },
  {
   "property": "C66",
   "status": "proved",
   "theorems": [
    "HGQ.C66_max_pool",
    "HGQ.C66_avg_pool"
   ],
   "note": "Entries >= -2^31 and windows with at least one entry inside the image."
  },
  {
   "property": "C67",
   "status": "partial",
   "theorems": [
    "HGQ.C67_once_partial",
    "HGQ.C67_inherited_violated",
    "HGQ.C67_super_violated"
   ],
   "note": "Exactly once if no base class was instantiated before; otherwise exactly twice (C67_inherited_violated, C67_super_violated)."
  },
  {
   "property": "C68",
   "status": "partial",
   "theorems": [
    "HGQ.C68_import_violated"
   ],
   "note": "False: importing qkeras.qlayers overrides the flags of every HGQ layer (C68_import_violated)."
  },
  {
   "property": "C69",
   "status": "proved",
   "theorems": [
    "HGQ.C69_keywords"
   ],
   "note": "String-to-quantizer conversion of values not modelled."
  },
  {
   "property": "C70",
   "status": "partial",
   "theorems": [
    "HGQ.C70_string_partial",
    "HGQ.C70_trainable_violated"
   ],
   "note": "Proved for integer >= 0 and a fixed alpha, given that Python's float reads back what str prints; the trainable form cannot be parsed (C70_trainable_violated). Negative integers and the object built from the text: C118."
  },
  {
   "property": "C71",
   "status": "partial",
   "theorems": [
    "HGQ.C71_concat_op",
    "HGQ.C71_repeat",
    "HGQ.C71_moveaxis",
    "HGQ.C71_getitem",
    "HGQ.C71_qsum",
    "HGQ.C71_reshape",
    "HGQ.C71_merge",
    "HGQ.C71_merge_ops",
    "HGQ.C71_transpose_violated",
    "HGQ.C71_repeat_vector_violated",
    "HGQ.C71_concat_layer_partial",
    "HGQ.C71_concat_layer_violated"
   ],
   "note": "Proved for concatenate op, repeat, moveaxis, subscripts, QSum/QMeanPow2, reshape/flatten and all element-wise merges with broadcasting; fails for transpose with axes (always raises), RepeatVector (axis missing), Concatenate layer with unequal sizes or positive axis."
  },
  {
   "property": "C72",
   "status": "partial",
   "theorems": [
    "HGQ.C72_reference",
    "HGQ.C72_da_dot_partial",
    "HGQ.C72_da_dot_violated",
    "HGQ.C72_alkaid_dot_partial",
    "HGQ.C72_alkaid_dot_violated"
   ],
   "note": "da4ml tracer correct for two vectors only (C72_da_dot_violated); Alkaid correct except for two vectors (C72_alkaid_dot_violated)."
  },
  {
   "property": "C73",
   "status": "partial",
   "theorems": [
    "HGQ.C73_global_avg_partial",
    "HGQ.C73_global_max_partial",
    "HGQ.C73_channels_first_violated"
   ],
   "note": "Proved for channels_last, every rank; channels_first always raises or pools the wrong axes (C73_channels_first_violated)."
  },
  {
   "property": "C74",
   "status": "partial",
   "theorems": [
    "HGQ.C74_tables",
    "HGQ.C74_dense",
    "HGQ.C74_bn_partial",
    "HGQ.C74_center_violated"
   ],
   "note": "Proved for all networks, groupings of table sizes and quantizers without scaler/affine; with bn_center=False every table is off by 1/sqrt(n_in) (C74_center_violated)."
  },
  {
   "property": "C75",
   "status": "partial",
   "theorems": [
    "HGQ.C75_einsum_partial"
   ],
   "note": "Real arithmetic; labels without repetition inside one operand. The table is a function of the kernel, normalization and presum coordinates; how Keras and the plugin each get its values from the stored weights is C111, where the two differ if normalized axes or biases are not in order (C111_norm_order_violated, C111_bias_order_violated, C111_bias_gap_violated)."
  },
  {
   "property": "C76",
   "status": "partial",
   "theorems": [
    "HGQ.C76_gelu_violated",
    "HGQ.C76_gelu_partial",
    "HGQ.C76_agree_partial",
    "HGQ.C76_hard_silu_violated"
   ],
   "note": "All activations with their own numpy version agree with Keras except hard_silu, which differs exactly on 0 < |x| < 3 (C76_hard_silu_violated), and gelu: the tanh formula is strictly below Keras' erf-based default on 0 < |x| <= 0.09 (C76_gelu_violated; equal at 0: C76_gelu_partial). Real arithmetic."
  },
  {
   "property": "C77",
   "status": "partial",
   "theorems": [
    "HGQ.C77_axes_partial",
    "HGQ.C77_default_shape",
    "HGQ.C77_subset_violated",
    "HGQ.C77_order_violated"
   ],
   "note": "Exact criterion: works iff all sequence axes are attended (C77_axes_partial), default axes always consistent; strict subsets and reordered axes fail (C77_subset_violated, C77_order_violated)."
  },
  {
   "property": "C78",
   "status": "partial",
   "theorems": [
    "HGQ.C78_ebops_partial",
    "HGQ.C78_factor_violated"
   ],
   "note": "Proved for every shape and axes without parallelization factor; a positive factor multiplies the full cost (C78_factor_violated)."
  },
  {
   "property": "C79",
   "status": "partial",
   "theorems": [
    "HGQ.C79_masks_partial",
    "HGQ.C79_combination_violated"
   ],
   "note": "Keras semantics proved for all combinations; tracing is right or raises, and raises exactly if two mask shapes differ (C79_combination_violated)."
  },
  {
   "property": "C80",
   "status": "partial",
   "theorems": [
    "HGQ.C80_attention_partial",
    "HGQ.C80_no_iq_violated",
    "HGQ.C80_separate_violated"
   ],
   "note": "Proved for every traceable call in all fusion modes; input quantizers off (unless qkv) or fused tensors passed separately raise (C80_*_violated); unequal fused head sizes: C44."
  },
  {
   "property": "C81",
   "status": "partial",
   "theorems": [
    "HGQ.C81_frozen_partial",
    "HGQ.C81_inference",
    "HGQ.C81_qbn_violated"
   ],
   "note": "Proved for QBatchNormDense, QEinsumDenseBatchnorm and table layers over all histories; QBatchNormalization ignores `trainable` (C81_qbn_violated)."
  },
  {
   "property": "C82",
   "status": "proved",
   "theorems": [
    "HGQ.C82_ema",
    "HGQ.C82_statistics",
    "HGQ.C82_var_nonneg",
    "HGQ.C82_mean_bounds"
   ],
   "note": "Closed form over every history; variance non-negative and mean bounds as invariants."
  },
  {
   "property": "C83",
   "status": "partial",
   "theorems": [
    "HGQ.C83_qbn_partial",
    "HGQ.C83_center_violated",
    "HGQ.C83_einsum_partial",
    "HGQ.C83_dense_partial",
    "HGQ.C83_dense_violated"
   ],
   "note": "Proved for QBatchNormalization with center=True and QEinsumDenseBatchnorm; center=False gives mean one (C83_center_violated); QBatchNormDense: exact criterion C83_dense_partial, false in general (C83_dense_violated)."
  },
  {
   "property": "C84",
   "status": "partial",
   "theorems": [
    "HGQ.C84_causal_partial",
    "HGQ.C84_no_future",
    "HGQ.C84_default_violated",
    "HGQ.C84_ebops_violated",
    "HGQ.C84_padding_kept"
   ],
   "note": "Proved for shared-in-time bit widths without EBOPs; causality for every successful call; the default per-time-step bit widths raise and turn the layer into a valid convolution (C84_default_violated), EBOPs raise (C84_ebops_violated)."
  },
  {
   "property": "C85",
   "status": "partial",
   "theorems": [
    "HGQ.C85_survives_partial",
    "HGQ.C85_pooling_violated",
    "HGQ.C85_einsum_bn_violated",
    "HGQ.C85_simple_rnn_violated",
    "HGQ.C85_gru_cell_violated",
    "HGQ.C85_snn_violated",
    "HGQ.C85_built",
    "HGQ.C85_rebuilt_violated"
   ],
   "note": "Proved for 33 classes under any arguments and any scopes (C85_survives_partial); exact criteria where false: pooling, QEinsumDenseBatchnorm, QSimpleRNN, QGRUCell, QSimpleSNN/QLIF."
  },
  {
   "property": "C86",
   "status": "partial",
   "theorems": [
    "HGQ.C86_fixed_partial",
    "HGQ.C86_float_violated",
    "HGQ.C86_accepted_partial",
    "HGQ.C86_none_axis_violated",
    "HGQ.C86_split_keywords"
   ],
   "note": "Exact criterion for fixed-point configs (C86_fixed_partial) and acceptance theorem under the library defaults; false for every float config (C86_float_violated) and for an axis list given as None (C86_none_axis_violated)."
  },
  {
   "property": "C87",
   "status": "partial",
   "theorems": [
    "HGQ.C87_saved_is_live_partial",
    "HGQ.C87_content_partial",
    "HGQ.C87_order_partial",
    "HGQ.C87_frame",
    "HGQ.C87_reload_partial",
    "HGQ.C87_shared_violated",
    "HGQ.C87_order_violated"
   ],
   "note": "Proved over all histories in which no object is used in two roles, with frame and reload theorems; false when an ordinary place and a table place share an object (C87_shared_violated, C87_order_violated)."
  },
  {
   "property": "C88",
   "status": "partial",
   "theorems": [
    "HGQ.C88_same_rank_partial",
    "HGQ.C88_front_axes",
    "HGQ.C88_homogeneous_violated",
    "HGQ.C88_last_axis_violated"
   ],
   "note": "Proved for equal ranks and for non-negative heterogeneous axes at any ranks; false for homogeneous_axis=(0,) and heterogeneous_axis=(-1,) at different ranks (exact criteria)."
  },
  {
   "property": "C89",
   "status": "partial",
   "theorems": [
    "HGQ.C89_rounding_is_ieee",
    "HGQ.C89_quantizer_raw_partial",
    "HGQ.C89_quantizer_grid_partial",
    "HGQ.C89_sum_partial",
    "HGQ.C89_dense_partial",
    "HGQ.C89_model_partial",
    "HGQ.C89_order_violated",
    "HGQ.C89_rnd_violated"
   ],
   "note": "Proved for quantizers, sums of products, dense layers and chains of dense layers (linear/ReLU) with conditions on formats and weights only; one float32 value per format is mis-rounded by RND (C89_rnd_violated) and beyond 24 bits results depend on the order (C89_order_violated). Convolution and einsum layers: C101."
  },
  {
   "property": "C90",
   "status": "partial",
   "theorems": [
    "HGQ.C90_calibrated_partial",
    "HGQ.C90_kbi_violated",
    "HGQ.C90_settled",
    "HGQ.C90_one_batch",
    "HGQ.C90_passes_settle",
    "HGQ.C90_calibrated_by_passes",
    "HGQ.C90_shared_kbi_violated"
   ],
   "note": "One pass: proved for models whose adapting quantizers are of type kif (the default for data) when values fit the constraint on i; for kbi/mixed models on a single batch when no kbi quantizer is called twice (C90_one_batch). False for kbi with several batches (C90_kbi_violated), but: a repetition of trace_minmax(reset=False) that leaves the kbi integer bits unchanged certifies the calibration (C90_settled), and at most as many repetitions as there are kbi quantizers reach that point (C90_passes_settle, C90_calibrated_by_passes), unless a kbi quantizer is shared: then it may never happen (C90_shared_kbi_violated)."
  },
  {
   "property": "C91",
   "status": "partial",
   "theorems": [
    "HGQ.C91_layer_stages_partial",
    "HGQ.C91_end_to_end_partial"
   ],
   "note": "Proved for the listed layers (dense, convolution, merges, reductions, batch normalization, look-up tables, windowed and global pooling, unmasked softmax, einsum layers, AveragePow2; ReLU, PReLU, reshapes, concatenation, repeat, moveaxis, abs, subscripts, dropout) with: no scaler (C18), widths in int8 range and constant along the batch axis, one group or depthwise convolutions and channels-last pooling on at most 2^24 entries (C43, C64), values of max pooling at least -2^31, no window of padding only, threshold-free ReLU (C54), a bias in dense and einsum layers. Models with attention layers: C107, with table layers: C108; recurrent and spiking layers: C110 (Alkaid only; the da4ml tracer has no handlers for them). The arithmetic of da4ml is external and taken as exact."
  },
  {
   "property": "C92",
   "status": "partial",
   "theorems": [
    "HGQ.C92_reads_last_step",
    "HGQ.C92_kif_weight_never_wraps",
    "HGQ.C92_kbi_weight_never_wraps",
    "HGQ.C92_kbi_weight_violated",
    "HGQ.C92_weight_range_violated",
    "HGQ.C92_kif_bias_partial",
    "HGQ.C92_bias_stale_violated",
    "HGQ.C92_bias_sign_violated",
    "HGQ.C92_kbi_bias_partial",
    "HGQ.C92_kbi_bias_sign_violated"
   ],
   "note": "Proved for weight quantizers (is_weight; kif in every mode, kbi with RND) and for bias quantizers when a training or tracing call follows the last optimizer step and the sign bit is there. False otherwise: right after an optimizer step (the state fit leaves behind) a bias one step above the top is read as -2^i; after a calibration on non-negative biases training never restores the sign bit."
  },
  {
   "property": "C93",
   "status": "partial",
   "theorems": [
    "HGQ.C93_widths",
    "HGQ.C93_range_partial",
    "HGQ.C93_bits_count_partial",
    "HGQ.C93_call_partial",
    "HGQ.C93_no_exponent_violated",
    "HGQ.C93_pruned_bits_violated"
   ],
   "note": "Proved for m >= 0 and e >= 1 (the call relative to the documented behaviour of the external float_quantize: nearest number of the format). False without exponent bits, allowed by the default constraint: epsilon is irrational; and for m = -1, where the quantizer is documented to give zero but reports e bits."
  },
  {
   "property": "C94",
   "status": "partial",
   "theorems": [
    "HGQ.C94_single_output_partial",
    "HGQ.C94_many_outputs_partial",
    "HGQ.C94_sample_order",
    "HGQ.C94_shapes_violated",
    "HGQ.C94_one_element_list_violated",
    "HGQ.C94_no_batches"
   ],
   "note": "Proved for one bare output tensor and for several outputs of one common shape. False for outputs of different shapes (raises) and for a model built with a one-element list of outputs (raises or returns an extra axis)."
  },
  {
   "property": "C95",
   "status": "partial",
   "theorems": [
    "HGQ.C95_free_size",
    "HGQ.C95_unknown_size",
    "HGQ.C95_parallel_factor",
    "HGQ.C95_bias",
    "HGQ.C95_repeated_label_violated"
   ],
   "note": "Proved for every equation whose input labels are distinct (any ellipsis form, any rank and sizes). False for a repeated input label (diagonal): the axis is counted twice. ops.einsum with an ellipsis that is missing in the output is modelled as a sum over the elided axes."
  },
  {
   "property": "C96",
   "status": "partial",
   "theorems": [
    "HGQ.C96_pool_partial",
    "HGQ.C96_bounds_partial",
    "HGQ.C96_global",
    "HGQ.C96_overlap_violated",
    "HGQ.C96_truncated_violated",
    "HGQ.C96_unknown_violated"
   ],
   "note": "Exact for windows without overlap and gaps (pool size = stride, 'same' padding or divisible sizes) and for global pooling; two-sided bounds for the other geometries. False for overlapping windows (each input is charged once, C96_overlap_violated), for 'valid' windows that drop trailing inputs (C96_truncated_violated), and a size unknown at build time makes every EBOPs computation raise (C96_unknown_violated)."
  },
  {
   "property": "C97",
   "status": "proved",
   "theorems": [
    "HGQ.C97_batchnorm"
   ],
   "note": "The mean offset width times the number of elements is the sum over the elements because every channel has the same number of them."
  },
  {
   "property": "C98",
   "status": "partial",
   "theorems": [
    "HGQ.C98_softmax_partial",
    "HGQ.C98_tables_partial",
    "HGQ.C98_factor_violated"
   ],
   "note": "Row costs proved for all shapes, axes, widths and factors (unstable without input quantizer excluded: its table is charged as if the input had no bits) and the composition with the tables. With a factor the tables are still charged for every row (C98_factor_violated)."
  },
  {
   "property": "C99",
   "status": "partial",
   "theorems": [
    "HGQ.C99_spiking_partial",
    "HGQ.C99_no_iq_violated"
   ],
   "note": "Proved with an input quantizer. Without one 0 is reported (C99_no_iq_violated)."
  },
  {
   "property": "C100",
   "status": "proved",
   "theorems": [
    "HGQ.C100_spike",
    "HGQ.C100_fire",
    "HGQ.C100_sequence_quantized",
    "HGQ.C100_sequence_integrate",
    "HGQ.C100_replay",
    "HGQ.C100_24bits_violated"
   ],
   "note": "Spike function and firing for all finite float32 values (with inhibition only if the accumulators fit: differences may be rounded together otherwise); sequences under explicit 24-bit conditions, which are needed (C100_24bits_violated). Gradual underflow is assumed (no flush to zero)."
  },
  {
   "property": "C101",
   "status": "partial",
   "theorems": [
    "HGQ.C101_layer_partial",
    "HGQ.C101_static_partial",
    "HGQ.C101_static_merge_partial",
    "HGQ.C101_end_to_end_partial",
    "HGQ.C101_24bits_violated"
   ],
   "note": "The demands (LayerSafe) are on the values that flow; static conditions from quantizer formats are proved for dense, convolution, einsum-dense and additive merges. Weights enter quantized, as in C91 (float32 weight quantization is C89). Layers outside the list of C91 are missing. Without the 24-bit condition it is false (C101_24bits_violated)."
  },
  {
   "property": "C102",
   "status": "partial",
   "theorems": [
    "HGQ.C102_nonneg_partial",
    "HGQ.C102_monotone_partial",
    "HGQ.C102_dead_cell_partial",
    "HGQ.C102_run_partial",
    "HGQ.C102_ebops_run_partial",
    "HGQ.C102_wrap_int_bits_partial",
    "HGQ.C102_monoL1_partial",
    "HGQ.C102_dense_derivative_partial",
    "HGQ.C102_products_derivative_partial",
    "HGQ.C102_lut_derivative_partial",
    "HGQ.C102_unconstrained_b_violated"
   ],
   "note": "Exact reals, not float32; spiking layers, GRU with iq disabled and minifloat quantizers are not among the layers; derivatives of the smooth layers are proved equal to the true ones away from the kink at zero bits (dense, convolution, einsum-dense, attention, lookup tables), for the others their sign. KBI widths must be constrained to be non-negative: with bc=None it is false (C102_unconstrained_b_violated). Initial values must satisfy the constraint."
  },
  {
   "property": "C103",
   "status": "partial",
   "theorems": [
    "HGQ.C103_forward",
    "HGQ.C103_slope_partial",
    "HGQ.C103_signs_partial",
    "HGQ.C103_bypass",
    "HGQ.C103_detached",
    "HGQ.C103_attached_bounded_partial",
    "HGQ.C103_attached_violated",
    "HGQ.C103_alpha_violated"
   ],
   "note": "Cells without quantizers, exact reals; a user-supplied spike_grad is not modelled; the bound for attached resets covers subtract/none, threshold*alpha <= 4. It is false for detach_reset=False with threshold*alpha > 4 (C103_attached_violated: growth 3^n) and for a negative alpha, which ATan accepts (C103_alpha_violated)."
  },
  {
   "property": "C104",
   "status": "partial",
   "theorems": [
    "HGQ.C104_table_attention_partial",
    "HGQ.C104_table_attention_models_partial",
    "HGQ.C104_layer_partial",
    "HGQ.C104_batching_partial",
    "HGQ.C104_batch_axis_violated",
    "HGQ.C104_repeat_batch_violated",
    "HGQ.C104_attention_tables_partial",
    "HGQ.C104_attention_models_partial",
    "HGQ.C104_einsum_tables_partial",
    "HGQ.C104_einsum_tables_models_partial",
    "HGQ.C104_recurrent_partial",
    "HGQ.C104_recurrent_models_partial"
   ],
   "note": "Exact arithmetic (rationals), the layers of C91 (dense, convolution, einsum, merges, sums, pooling, softmax, batch norm, tables, ReLU, structural operations) and the attention and table layers of C107 and C108. Recurrent and spiking layers: C104_recurrent_partial (without masks, not stateful). QEinsumDenseT: C104_einsum_tables_partial. Attention with table projections: C104_table_attention_partial. Quantizers must not be heterogeneous along the batch axis, operations must not act along it: there it is false (C104_batch_axis_violated, C104_repeat_batch_violated)."
  },
  {
   "property": "C105",
   "status": "partial",
   "theorems": [
    "HGQ.C105_layer_stages_partial",
    "HGQ.C105_layer_partial",
    "HGQ.C105_alkaid_end_to_end_partial",
    "HGQ.C105_scaler_violated",
    "HGQ.C105_batch_axis_violated"
   ],
   "note": "Exact arithmetic, the layers of C91. What the plugin inherits from the external converter (ReplayDense, ReplayConv, ReplayPool, ReplayMerge, ReplayBatchNormalization, plain Keras layers, activation, graph walk) is trusted to be Keras on a batch of one; quantizers, QSum/QMeanPow2, QAveragePow2, QEinsum, tables, QSoftmax and the wrapper are modelled from the code. False with a scaler (C105_scaler_violated) and with widths along the batch axis (C105_batch_axis_violated). Attention and table layers: C109. Recurrent and spiking layers: C110. QEinsumDenseT: C111."
  },
  {
   "property": "C106",
   "status": "partial",
   "theorems": [
    "HGQ.C106_arith_partial",
    "HGQ.C106_rank_violated",
    "HGQ.C106_constant_violated",
    "HGQ.C106_reduction_violated",
    "HGQ.C106_reduction_call",
    "HGQ.C106_reshape_layer",
    "HGQ.C106_reshape_op_partial",
    "HGQ.C106_ravel_violated",
    "HGQ.C106_matmul_partial",
    "HGQ.C106_matmul_dense_partial",
    "HGQ.C106_matvec_violated",
    "HGQ.C106_dot_partial",
    "HGQ.C106_dot_violated"
   ],
   "note": "Exact arithmetic. Proved for operands of equal sample rank (or constants of at most this rank), matrix products of matrices, dense products, reshapes that keep the batch axis. False for tensors of different ranks (C106_rank_violated), constants with a batch axis of size one (C106_constant_violated), every reduction operation (C106_reduction_violated: axis and keepdims are attributes of the operation but expected as call arguments), vectors times matrices per sample (C106_matvec_violated), dot of two tensors (C106_dot_violated), ravel (C106_ravel_violated). That Keras stores reduction axes as attributes of the operation is taken from Keras, not from this repository."
  },
  {
   "property": "C107",
   "status": "partial",
   "theorems": [
    "HGQ.C107_letters",
    "HGQ.C107_attention_partial",
    "HGQ.C107_end_to_end_partial",
    "HGQ.C107_no_iq_violated",
    "HGQ.C107_fused_violated"
   ],
   "note": "Exact arithmetic, arrays, all sequence axes attended (default attention_axes), a mask that is the same for all samples (masks per sample: C123). The softmax tables are functions per index (C18, C74). Missing: attention over some axes (C77), scores that are not masked but below -1e9 or below the tracer's bound, fused projections with different kernel shapes. False without input quantizers unless all projections are fused (C107_no_iq_violated) and for fused projections of different tensors (C107_fused_violated). SALT attention: clusters as einsums and the convolution over the scores with one group; its geometry is a function of positions (C43). Adding None as bias in the tracer leaves the array unchanged (da4ml, assumed)."
  },
  {
   "property": "C108",
   "status": "partial",
   "theorems": [
    "HGQ.C108_table_partial",
    "HGQ.C108_end_to_end_partial",
    "HGQ.C108_values",
    "HGQ.C108_ranges",
    "HGQ.C108_no_iq_violated",
    "HGQ.C108_toq_affine_violated"
   ],
   "note": "Exact arithmetic. The network of a pair with its batch normalization is one function, the same in Keras and in the tracer (C74 for how the tracer gathers it). Table quantizers have no scaler and no affine map (otherwise false: C108_toq_affine_violated), the input quantizer is enabled (otherwise tracing raises: C108_no_iq_violated), patches have indices below 2^24, channels last. Missing: float32 evaluation of the network, QEinsumDenseT (no handler in the tracer)."
  },
  {
   "property": "C109",
   "status": "partial",
   "theorems": [
    "HGQ.C109_layer_partial",
    "HGQ.C109_end_to_end_partial",
    "HGQ.C109_no_iq_violated",
    "HGQ.C109_fused_violated",
    "HGQ.C109_toq_affine_violated"
   ],
   "note": "Exact arithmetic; conditions on quantizers, masks and scores as in C107; table quantizers without scaler and affine map (otherwise false: C109_toq_affine_violated); the network of a pair with its batch normalization is one function (C74 for how it is gathered). False without input quantizers unless all projections are fused (C109_no_iq_violated) and for fused projections of different tensors (C109_fused_violated). Inherited convolution and dense code, extract_patches and the activation step of the external converter are trusted to be Keras on a batch of one. QEinsumDenseT: C111. Attention with table projections: C112."
  },
  {
   "property": "C110",
   "status": "partial",
   "theorems": [
    "HGQ.C110_layer_partial",
    "HGQ.C110_end_to_end_partial",
    "HGQ.C110_values",
    "HGQ.C110_stateful_violated"
   ],
   "note": "Exact arithmetic, at inference, without masks (the conversion rejects them) and with quantizers as in C105; weights already quantized; activations are elementwise functions and assumed to be converted exactly. A returned state is modelled as a layer of its own. False for stateful=True, where Keras continues from the previous batch and the conversion starts from zero (C110_stateful_violated). C110_values states the recurrences independently of the model."
  },
  {
   "property": "C111",
   "status": "partial",
   "theorems": [
    "HGQ.C111_layer_partial",
    "HGQ.C111_end_to_end_partial",
    "HGQ.C111_values_partial",
    "HGQ.C111_norm_order_violated",
    "HGQ.C111_bias_order_violated",
    "HGQ.C111_bias_gap_violated"
   ],
   "note": "Exact arithmetic, at inference; square roots as computed; keras.layers.EinsumDense (shape and broadcasting of the bias) is modelled from Keras; activations are elementwise functions, assumed the same on both sides. The batch label comes first and is not a kernel label. False when biases exist and the kernel labels are not the last axes of the array before the sum in this order, or when the normalized axes (by default in the order of the kernel labels) are not in its order: Keras reshapes or broadcasts the stored weights, the plugin indexes them (C111_norm_order_violated, C111_bias_order_violated: silently different; C111_bias_gap_violated: conversion raises). Table quantizers without scaler and affine map, ranges known at conversion hold the inputs (as C108/C109)."
  },
  {
   "property": "C112",
   "status": "partial",
   "theorems": [
    "HGQ.C112_layer_partial",
    "HGQ.C112_end_to_end_partial",
    "HGQ.C112_ranges"
   ],
   "note": "Exact arithmetic, at inference; all sequence axes attended, a mask that is the same for all samples (masks per sample: C123), unmasked scores above the value that replaces masked ones (as C107). Conditions on tables as in C111, but the orders of axes and biases that break C111 do not occur in these equations (proved), and layers without input quantizers are covered if the ranges known at conversion hold the inputs. C112_ranges: they do with an enabled input quantizer without scaler and affine map. Missing: attention over some axes."
  },
  {
   "property": "C113",
   "status": "partial",
   "theorems": [
    "HGQ.C113_attention_partial",
    "HGQ.C113_table_attention_partial",
    "HGQ.C113_affine_violated",
    "HGQ.C113_conv_violated"
   ],
   "note": "Exact arithmetic, at inference; all sequence axes attended, a mask that is the same for all samples (masks per sample: C123), no affine map on the output quantizer of the softmax (with one, masked weights are not zero: C113_affine_violated) and no convolution over scores as in QSALTAttention (applied before the mask: C113_conv_violated). QMultiHeadAttention and QMultiHeadAttentionT. Missing: Linformer (positions are mixed before the mask), attention over some axes."
  },
  {
   "property": "C114",
   "status": "partial",
   "theorems": [
    "HGQ.C114_layers_partial",
    "HGQ.C114_models_partial",
    "HGQ.C114_causal_padding",
    "HGQ.C114_use_causal_mask",
    "HGQ.C114_rates",
    "HGQ.C114_rates_models_partial",
    "HGQ.C114_conv_reach",
    "HGQ.C114_pool_reach",
    "HGQ.C114_causal_strides"
   ],
   "note": "Exact arithmetic, at inference. Layers: quantizers, activations, dense, einsum layers that keep the time axis, batch normalization, unary tables, merges of equal rank, sums and softmax over other axes, convolutions with causal geometry (C114_causal_padding: padding=causal, stride 1), QDenseT, attention with one sequence axis under the conditions of C113 (C114_use_causal_mask: the combined mask is causal), recurrent and spiking layers. Masks per sample: C123_causal_partial. Strides, look-ahead and pooling: C114_rates and C114_rates_models_partial give each tensor its own time; C114_conv_reach, C114_pool_reach and C114_causal_strides compute how far a window looks. Missing: QConvT, QEinsumDenseT, RNN masks and given initial states."
  },
  {
   "property": "C115",
   "status": "partial",
   "theorems": [
    "HGQ.C115_neighbours",
    "HGQ.C115_unbiased",
    "HGQ.C115_inference",
    "HGQ.C115_kif_training_step",
    "HGQ.C115_kbi_training_step",
    "HGQ.C115_saturating",
    "HGQ.C115_train_inference_violated",
    "HGQ.C115_kbi_edge_violated"
   ],
   "note": "Neighbours, mean, representable inputs, saturating modes, independence of the draws outside training, and the fit of the range to the training results (kif) are proved for all draws. False: the range fitted in training to stochastic results may be too small for the same inputs at inference, where they wrap (C115_train_inference_violated, kif); an input just above the top can be rounded out of a kbi format (C115_kbi_edge_violated). The rounding function itself is in the external package quantizers (trusted base)."
  },
  {
   "property": "C116",
   "status": "partial",
   "theorems": [
    "HGQ.C116_conv_partial",
    "HGQ.C116_core",
    "HGQ.C116_pool_partial",
    "HGQ.C116_pool_channels_first_violated",
    "HGQ.C116_extract_partial",
    "HGQ.C116_extract_strides_violated",
    "HGQ.C116_extract_channels_first_violated",
    "HGQ.C116_table_partial",
    "HGQ.C116_table_channels_first_violated"
   ],
   "note": "Convolution in both data formats with optional bias, pooling, patches and table convolutions with channels last, images of at most 2^24 entries, one group or depthwise. C116_core: the geometry-generic convolution layer of C91/C101, instantiated with this geometry, is the convolution of the specification. False for pooling with channels first (C116_pool_channels_first_violated), table convolutions with channels first (C116_table_channels_first_violated), extract_patches without strides (C116_extract_strides_violated: Keras documents strides=None as non-overlapping patches) and with channels first (C116_extract_channels_first_violated). That extract_patches_3d of Keras pads like its convolution is taken from Keras; adding None as bias leaves a traced array unchanged (da4ml)."
  },
  {
   "property": "C117",
   "status": "partial",
   "theorems": [
    "HGQ.C117_train",
    "HGQ.C117_infer",
    "HGQ.C117_order",
    "HGQ.C117_default",
    "HGQ.C117_raises_iff",
    "HGQ.C117_history",
    "HGQ.C117_default_axes_violated"
   ],
   "note": "Proved if the sizes of normalize_axes agree with those of the same labels in the order of the array; C117_raises_iff: otherwise every training call raises. That happens for default axes if the kernel lists an output label before an input label ('bij,oij->bio'; C117_default_axes_violated). Exact rationals, any function as square root; static shapes."
  },
  {
   "property": "C118",
   "status": "partial",
   "theorems": [
    "HGQ.C118_arguments",
    "HGQ.C118_accepts",
    "HGQ.C118_config_partial",
    "HGQ.C118_kind_iff",
    "HGQ.C118_use_variables_violated",
    "HGQ.C118_relu_partial",
    "HGQ.C118_relu_unsigned",
    "HGQ.C118_relu_alpha_violated",
    "HGQ.C118_relu_four_violated",
    "HGQ.C118_relu_string_violated",
    "HGQ.C118_text_partial",
    "HGQ.C118_negative_violated"
   ],
   "note": "Config round trip: exact result for every call (C118_config_partial), kind of quantizer kept exactly unless a fixed alpha is combined with use_variables=True (C118_kind_iff, C118_use_variables_violated). quantized_relu: right for at most two positional arguments; a third one, alpha, is taken as symmetric (C118_relu_alpha_violated), four raise (C118_relu_four_violated), every text quantized_relu(...) is rejected (C118_relu_string_violated). Text of quantized_bits: C118_text_partial for every integer width and fixed alpha; a negative integer width comes back as a float and can no longer be saved (C118_negative_violated); trainable: C70. Python's float reads '-n' as -n and reads back what str prints (hypotheses); a keyword repeated in a text is not modelled."
  },
  {
   "property": "C119",
   "status": "partial",
   "theorems": [
    "HGQ.C119_iff",
    "HGQ.C119_positional_partial",
    "HGQ.C119_keyword_violated",
    "HGQ.C119_value_keyword_violated",
    "HGQ.C119_positional_violated"
   ],
   "note": "Exact criterion for every layer and call: C119_iff. Right when data tensors are positional (C119_positional_partial). Calls with keyword tensors only raise in training (C119_keyword_violated); an attention value passed by keyword is charged with the shape of the query (C119_value_keyword_violated); a positional None, mask or initial state raises in training (C119_positional_violated). `training` itself is always a keyword here; QSubtract and QDot, which unpack exactly two shapes, are not in the table."
  },
  {
   "property": "C120",
   "status": "partial",
   "theorems": [
    "HGQ.C120_trace_partial",
    "HGQ.C120_last_use",
    "HGQ.C120_losses",
    "HGQ.C120_shared_violated",
    "HGQ.C120_fit_violated",
    "HGQ.C120_fit_iff",
    "HGQ.C120_truncated_violated",
    "HGQ.C120_cast_partial",
    "HGQ.C120_overflow_violated"
   ],
   "note": "Proved after tracing for layers called at one place each, up to rounding each layer down (C120_trace_partial); exact for all models: each layer reports its last call site (C120_last_use). False for layers called at several places (C120_shared_violated: the loss charges each), after an optimizer step (C120_fit_violated: one step old; exact criterion C120_fit_iff) and for fractional costs, which are truncated per layer (C120_truncated_violated). Costs are exact rationals. The 32 bits of the variable change nothing if no call in reach costs 2^32 or more (C120_cast_partial); a layer that does is reported too low whatever the cast does (C120_overflow_violated)."
  },
  {
   "property": "C121",
   "status": "partial",
   "theorems": [
    "HGQ.C121_arrives_partial",
    "HGQ.C121_kept_value",
    "HGQ.C121_default",
    "HGQ.C121_nothing_else",
    "HGQ.C121_library_partial",
    "HGQ.C121_library_own",
    "HGQ.C121_fixed",
    "HGQ.C121_conv_rank",
    "HGQ.C121_unknown_keyword",
    "HGQ.C121_popped",
    "HGQ.C121_frozen_trainable",
    "HGQ.C121_fuse_violated",
    "HGQ.C121_dunder_violated"
   ],
   "note": "Proved for all constructors of the stated form at any depth, and for the 13 classes of the library with the exact table of arguments they use themselves. False for fuse of QMultiHeadAttentionT, silently replaced by 'none' (C121_fuse_violated), and for unknown keywords of the form __name__, silently dropped (C121_dunder_violated). Fixed arguments arrive fixed and clash with the user's (C121_fixed, C121_conv_rank); unknown keywords of constructors without **kwargs raise (C121_unknown_keyword); popped defaults (C121_popped, C121_frozen_trainable). What classes then do with their arguments is not part of it; positional arguments are taken as bound to their names by Python."
  },
  {
   "property": "C122",
   "status": "partial",
   "theorems": [
    "HGQ.C122_given_factor",
    "HGQ.C122_default_factor",
    "HGQ.C122_factor_iff",
    "HGQ.C122_same_positions",
    "HGQ.C122_other_shape_violated",
    "HGQ.C122_zero_factor",
    "HGQ.C122_axes_fresh",
    "HGQ.C122_mean_fresh",
    "HGQ.C122_axes_same_rank",
    "HGQ.C122_axes_front",
    "HGQ.C122_axes_reused",
    "HGQ.C122_axes_violated",
    "HGQ.C122_inputs",
    "HGQ.C122_equation"
   ],
   "note": "Proved over all histories: for an explicit factor at any shape, for the same number of positions, for axes at the same rank or counted from the front, equations at the same ranks, the same number of inputs. Exact criterion for the default factor (C122_factor_iff): a copy reports the full cost times n1/n, where n1 is the number of positions of the first build (C122_other_shape_violated: silently wrong EBOPs). Axes counted from the end name other positions at another rank (C122_axes_violated). Equations at other ranks and other numbers of inputs raise although a new layer works (C122_equation, C122_inputs). A factor of 0 means no cost for dense layers and the default for convolutions (C122_zero_factor). Equations with an ellipsis for exactly three dimensions are excluded (C42)."
  },
  {
   "property": "C123",
   "status": "partial",
   "theorems": [
    "HGQ.C123_selection_partial",
    "HGQ.C123_own_mask_partial",
    "HGQ.C123_models_partial",
    "HGQ.C123_end_to_end_partial",
    "HGQ.C123_tracer_partial",
    "HGQ.C123_visible_partial",
    "HGQ.C123_table_visible_partial",
    "HGQ.C123_padding_partial",
    "HGQ.C123_causal_partial"
   ],
   "note": "Exact arithmetic, at inference, all sequence axes attended; quantizer widths do not vary along the batch axis. Attention, Linformer, SALT and their table forms with a mask per sample: selections of samples (C123_selection_partial), one sample with its own mask (C123_own_mask_partial), models (C123_models_partial), replay by the tracer (C123_tracer_partial), conversion by the plugin (C123_end_to_end_partial, conditions of C112), masked positions and padding (conditions of C113) and causality (conditions of C114). The mask is given; how it is combined from padding masks, attention_mask and use_causal_mask is C79, for one sample. Missing: attention over some axes."
  },
  {
   "property": "C124",
   "status": "partial",
   "theorems": [
    "HGQ.C124_attention_partial",
    "HGQ.C124_unpadded_partial",
    "HGQ.C124_batch_partial",
    "HGQ.C124_layer_partial"
   ],
   "note": "Exact arithmetic, at inference, sequences with one sequence axis (arrays of batch, steps, features), QMultiHeadAttention and its projections, no quantizer with an affine term behind the softmax; the scores of unmasked keys are at least -1e9 for the stable softmax (below this value masked entries would win the maximum). Any two lengths, any contents of the padding, any masks on the valid steps, cross-attention with different query and key lengths (C124_attention_partial), attention without a mask on the unpadded sequences (C124_unpadded_partial), batches of sequences of different lengths (C124_batch_partial), the layer in a model (C124_layer_partial). The widths and tables are the same on both sides (they do not depend on the positions where they are read outside the stated lengths). Missing: Linformer and SALT (their projections mix positions; the claim is false), table projections (their lengths are fixed when built), several sequence axes, whole models (all other sequence layers act step by step)."
  },
  {
   "property": "C125",
   "status": "partial",
   "theorems": [
    "HGQ.C125_last_partial",
    "HGQ.C125_sequence_partial",
    "HGQ.C125_all_masked_partial",
    "HGQ.C125_padding_partial",
    "HGQ.C125_spiking_state_violated"
   ],
   "note": "Exact arithmetic, at inference, quantizer widths that do not vary along the batch axis (the hypothesis of C104). Any mask for every sample (not only padding at the end), any lengths, cells (simple, GRU with either reset, leaky integrate-and-fire), with or without initial state, either direction, all three kinds of output. The time loop with masks is that of Keras (not in /repo, trusted as modelled; two backend conventions for the output at masked steps), with zero_output_for_mask=False. Spiking layers: only for backends that repeat the output; with the first-state convention the claim is false (C125_spiking_state_violated). A sample without any valid step keeps its first state (C125_all_masked_partial). Missing: stateful layers, dropout in training, the conversion (the plugin refuses masks)."
  },
  {
   "property": "C126",
   "status": "partial",
   "theorems": [
    "HGQ.C126_partial",
    "HGQ.C126_interrupted_violated",
    "HGQ.C126_validation_violated"
   ],
   "note": "Proved for all sequences of trainings that end normally (also by early stopping), if the logs have the entries of the template. False after an interrupted training: the old bar goes on with the old total (C126_interrupted_violated), and without validation data: the default template names val_loss and the first epoch raises (C126_validation_violated). Formatting of numbers and tqdm are not modelled; every epoch is counted from one (with initial_epoch > 0 the bar ends before its total)."
  }
 ]
}