{"id": "C01", "title": "Fixed-point output is always a representable value", "statement": "Calling a built fixed-point Quantizer (kif or kbi, WRAP/SAT/SAT_SYM, any deterministic rounding mode) outside training returns, for every input element, an integer multiple of 2^-f lying in the interval [min, max] that the quantizer itself reports.", "quantifier": "every real input, every k in {0,1}, every integer i and f with k+i+f>0, all overflow and rounding modes", "why_tests_cant": "the input and bit-width spaces are unbounded; a test samples finitely many of them", "anchors": ["src/hgq/quantizer/internal/fixed_point_quantizer.py::FixedPointQuantizerBase.call", "src/hgq/quantizer/internal/fixed_point_quantizer.py::FixedPointQuantizerBase.min", "src/hgq/quantizer/internal/fixed_point_quantizer.py::FixedPointQuantizerBase.max"]}
{"id": "C02", "title": "Quantizing twice equals quantizing once", "statement": "Applying a fixed-point quantizer to its own inference output returns that output unchanged.", "quantifier": "every real input, every k,i,f, all overflow and rounding modes (also for zero or negative total width)", "why_tests_cant": "idempotence must hold at every rounding tie and every wrap boundary", "anchors": ["src/hgq/quantizer/internal/fixed_point_quantizer.py::FixedPointQuantizerBase.call"]}
{"id": "C03", "title": "Rounding error bound inside the range", "statement": "For an input whose rounded value is within [min,max], inference output differs from the input by at most half of epsilon (RND, RND_CONV) or lies in (x-epsilon, x] (TRN); ties go up for RND and to the even multiple for RND_CONV.", "quantifier": "every real input in range, every k,i,f", "why_tests_cant": "ties and range edges form infinite families", "anchors": ["src/hgq/quantizer/internal/fixed_point_quantizer.py::FixedPointQuantizerBase.call", "src/hgq/quantizer/internal/fixed_point_quantizer.py::FixedPointQuantizerBase.epsilon"]}
{"id": "C04", "title": "Saturation returns the nearest end of the range and is monotone", "statement": "With SAT or SAT_SYM an input above max maps to max, below min maps to min, and a larger input never produces a smaller output.", "quantifier": "every pair of real inputs, every k,i,f", "why_tests_cant": "monotonicity is a statement over all pairs of inputs", "anchors": ["src/hgq/quantizer/internal/fixed_point_quantizer.py::FixedPointQuantizerBase.call"]}
{"id": "C05", "title": "WRAP is exact modular arithmetic", "statement": "With WRAP the inference output is congruent to the rounded input modulo 2^(k+i) and equals the rounded input exactly when the rounded input is in [min,max].", "quantifier": "every real input, every k,i,f with k+i+f>0", "why_tests_cant": "wrap-around distance is unbounded", "anchors": ["src/hgq/quantizer/internal/fixed_point_quantizer.py::FixedPointQuantizerBase.call"]}
{"id": "C06", "title": "min, max, epsilon describe exactly the reachable outputs", "statement": "The set of values a fixed-point quantizer can output at inference is exactly the set of multiples of epsilon in [min,max]; it has 2^(k+i+f) elements for SAT and WRAP and 2^(k+i+f)-k for SAT_SYM; the log2 of that count never exceeds fbits.", "quantifier": "every k in {0,1}, every integer i,f with i+f>=0 and k+i+f>0", "why_tests_cant": "counting the whole output set for every width is not a sample-able claim", "anchors": ["src/hgq/quantizer/internal/fixed_point_quantizer.py::FixedPointQuantizerBase.fbits", "src/hgq/quantizer/internal/fixed_point_quantizer.py::FixedPointQuantizerBase.bits", "src/hgq/quantizer/internal/fixed_point_quantizer.py::FixedPointQuantizerBase.min", "src/hgq/quantizer/internal/fixed_point_quantizer.py::FixedPointQuantizerBase.max"]}
{"id": "C07", "title": "Zero-width channels are pruned at inference", "statement": "If k+i+f<=0 for an element, the inference output for that element is 0 whatever the input and whatever the mode.", "quantifier": "every real input, every k,i,f with k+i+f<=0", "why_tests_cant": "unbounded inputs and widths", "anchors": ["src/hgq/quantizer/internal/fixed_point_quantizer.py::FixedPointQuantizerBase.call"]}
{"id": "C08", "title": "Calibration makes the calibration set overflow-free (kif)", "statement": "After trace_minmax(reset=True) on any finite sequence of batches, inference of a WRAP kif quantizer on any value that occurred in calibration equals plain rounding at f (no wrap, sign kept), provided the constraint on i does not bind from above.", "quantifier": "every finite sequence of batches of reals, every f, every rounding mode, every order of batches", "why_tests_cant": "quantifies over whole calibration histories", "anchors": ["src/hgq/quantizer/internal/fixed_point_quantizer.py::FixedPointQuantizerKIF.call", "src/hgq/utils/minmax_trace.py::trace_minmax", "src/hgq/quantizer/internal/fixed_point_quantizer.py::minimal_i_given_xf"]}
{"id": "C09", "title": "Calibration does not waste integer bits", "statement": "The integer width produced by calibrating a kif quantizer is the least one under which no calibration value exceeds max in magnitude; equivalently lowering it by one makes some calibration value exceed max.", "quantifier": "every non-empty finite calibration history, every f", "why_tests_cant": "minimality is a claim about all smaller widths and all histories", "anchors": ["src/hgq/quantizer/internal/fixed_point_quantizer.py::minimal_i_given_xf", "src/hgq/quantizer/internal/fixed_point_quantizer.py::FixedPointQuantizerKIF.call"]}
{"id": "C10", "title": "Calibration is independent of batching and order", "statement": "The calibrated i and k of a kif quantizer depend only on the multiset (indeed the set) of values seen, not on how they were split into batches or ordered, and re-tracing with reset=False on data already seen changes nothing.", "quantifier": "every two batch sequences with the same elements", "why_tests_cant": "all permutations and splits", "anchors": ["src/hgq/quantizer/internal/fixed_point_quantizer.py::FixedPointQuantizerKIF.call", "src/hgq/utils/minmax_trace.py::trace_minmax"]}
{"id": "C11", "title": "Calibration makes the calibration set overflow-free (kbi)", "statement": "After trace_minmax on any finite sequence of batches, inference of a WRAP kbi quantizer on any calibration value equals plain rounding with the final f=b-i.", "quantifier": "every finite sequence of batches, every b allowed by the default constraint MinMax(0,24)", "why_tests_cant": "quantifies over histories; fails only in a thin set of inputs for b>=23", "anchors": ["src/hgq/quantizer/internal/fixed_point_quantizer.py::FixedPointQuantizerKBI.call", "src/hgq/quantizer/internal/fixed_point_quantizer.py::minimal_i_given_xb", "src/hgq/quantizer/config.py::kbi_datalane_default"]}
{"id": "C12", "title": "Training step never leaves the range behind", "statement": "After one training step on a batch the stored i of a WRAP quantizer is at least the minimum needed by that batch and at least the previous i minus the decay, and is exactly the larger of the two when unconstrained.", "quantifier": "every state, every batch, every decay speed", "why_tests_cant": "history dependent", "anchors": ["src/hgq/quantizer/internal/fixed_point_quantizer.py::FixedPointQuantizerKIF.call", "src/hgq/quantizer/internal/fixed_point_quantizer.py::FixedPointQuantizerKBI.call"]}
{"id": "C13", "title": "User constraint on i is honoured while training", "statement": "After a training step of a WRAP quantizer the stored i satisfies the user-supplied constraint ic.", "quantifier": "every state, batch, decay and MinMax/Min/Max constraint", "why_tests_cant": "needs all batches whose magnitude exceeds the constraint", "anchors": ["src/hgq/quantizer/internal/fixed_point_quantizer.py::FixedPointQuantizerKIF.call", "src/hgq/quantizer/internal/fixed_point_quantizer.py::FixedPointQuantizerKBI.call"]}
{"id": "C14", "title": "Training flag dispatch", "statement": "trace_minmax runs the model such that quantizers calibrate but nothing behaves as in training: the flag it passes is false in a boolean test, equals \"tracing\", and is not the literal True; only True trains, and False/None leave every quantizer state unchanged.", "quantifier": "every quantizer state, every input, the four flag values", "why_tests_cant": "state preservation must hold for all states", "anchors": ["src/hgq/utils/minmax_trace.py::TrainingFlagWrapper", "src/hgq/quantizer/internal/fixed_point_quantizer.py::FixedPointQuantizerKIF.call", "src/hgq/quantizer/internal/fixed_point_quantizer.py::FixedPointQuantizerKBI.call"]}
{"id": "C15", "title": "Bit-width tensor shape and axis resolution", "statement": "For any input shape and any valid axis list, the bit-width tensor has the input rank, equals the input size on heterogeneous axes and 1 elsewhere, broadcasts to the input shape, and heterogeneous_axis and homogeneous_axis partition all axes; negative axes mean counting from the end; axes out of range are rejected.", "quantifier": "every rank, shape and axis list", "why_tests_cant": "unbounded ranks and axis lists", "anchors": ["src/hgq/quantizer/internal/base.py::DefaultBitwidthMapper.inference_weight_shape", "src/hgq/quantizer/internal/base.py::check_axis"]}
{"id": "C16", "title": "Each bit-width cell is calibrated by exactly the elements that use it", "statement": "The reduction used for calibration assigns to each bit-width cell the maximum magnitude (and sign presence) over precisely those input elements that read that cell when quantized.", "quantifier": "every shape, axis list and tensor", "why_tests_cant": "all shapes and positions", "anchors": ["src/hgq/quantizer/internal/base.py::DefaultBitwidthMapper.x_to_bw_absmax", "src/hgq/quantizer/internal/base.py::DefaultBitwidthMapper.x_to_bw_sign", "src/hgq/quantizer/internal/base.py::DefaultBitwidthMapper.bw_to_x"]}
{"id": "C17", "title": "Scaler, affine and quantization-noise semantics of Quantizer", "statement": "At inference Quantizer(scaler=s, affine=(a,b)) computes a*s*q(x/s)+b; with qnoise_factor=r in training it interpolates between the unquantized input (r=0) and the fully quantized value (r=1).", "quantifier": "every input, non-zero s, a, b, r in [0,1]", "why_tests_cant": "interaction of three options over all values", "anchors": ["src/hgq/quantizer/quantizer.py::Quantizer.call"]}
{"id": "C18", "title": "Hardware replay of a quantizer equals the Keras quantizer", "statement": "Replaying a Quantizer through the DAIS/Alkaid tracer gives the same number as Quantizer at inference for every input.", "quantifier": "every input, every scaler, affine, k,i,f (within int8), modes", "why_tests_cant": "must hold bit-exactly for all inputs", "anchors": ["src/hgq/_dais_tracer/layers/_base.py::mirror_quantizer", "src/hgq/_alkaid_keras_plugin/_base.py::mirror_quantizer", "src/hgq/quantizer/quantizer.py::Quantizer.call"]}
{"id": "C19", "title": "HardTanhConfig and HardSigmoidConfig ranges", "statement": "A quantizer built from HardTanhConfig outputs values in [-1, 1-2^-f] ([-1+2^-f,1-2^-f] if symmetric) and from HardSigmoidConfig in [0,1), and both are monotone in the input.", "quantifier": "every input and every f", "why_tests_cant": "all reals", "anchors": ["src/hgq/quantizer/config.py::HardTanhConfig", "src/hgq/quantizer/config.py::HardSigmoidConfig"]}
{"id": "C20", "title": "Quantizer config survives serialization", "statement": "from_config(get_config()) of QuantizerConfig, HardTanhConfig, HardSigmoidConfig yields a config with the same type, place, parameters, scaler, affine and noise factor.", "quantifier": "every accepted constructor argument set and every default table at load time", "why_tests_cant": "arbitrary overrides and arbitrary default tables", "anchors": ["src/hgq/quantizer/config.py::QuantizerConfig.get_config", "src/hgq/quantizer/config.py::QuantizerConfig.from_config", "src/hgq/quantizer/config.py::HardTanhConfig.get_config", "src/hgq/quantizer/config.py::HardSigmoidConfig.get_config"]}
{"id": "C21", "title": "Unknown or conflicting quantizer options are rejected", "statement": "QuantizerConfig accepts a keyword only if it is a parameter of the selected type, never ends with both axis lists set by the user, and an accepted config reflects every keyword the user passed and the current default for the rest.", "quantifier": "every keyword set, type, place and default table", "why_tests_cant": "all keyword combinations", "anchors": ["src/hgq/quantizer/config.py::QuantizerConfig.__init__"]}
{"id": "C22", "title": "QuantizerConfigScope restores the defaults on exit", "statement": "For any properly nested sequence of scopes (distinct scope objects), with arbitrary code creating configs inside and exceptions included, the default tables after the outermost exit equal those before the outermost enter; inside, the innermost scope wins for the keys, types and places it names and nothing else changes.", "quantifier": "every nesting depth and every scope arguments", "why_tests_cant": "unbounded nesting", "anchors": ["src/hgq/quantizer/config.py::QuantizerConfigScope"]}
{"id": "C23", "title": "Re-entering one scope object", "statement": "Using the same QuantizerConfigScope (or LayerConfigScope) object in two nested with-statements also restores the defaults.", "quantifier": "every default table and scope", "why_tests_cant": "depends on aliasing history", "anchors": ["src/hgq/quantizer/config.py::QuantizerConfigScope", "src/hgq/config/layer.py::LayerConfigScope"]}
{"id": "C24", "title": "Configs created in a scope do not leak and are not affected later", "statement": "A QuantizerConfig built from the defaults is a snapshot: later scopes, overrides or changes of the defaults do not change it, and changing it does not change the defaults or other configs.", "quantifier": "every history of scope/config operations", "why_tests_cant": "aliasing over all histories", "anchors": ["src/hgq/quantizer/config.py::QuantizerConfig.__init__", "src/hgq/quantizer/config.py::QuantizerConfigScope"]}
{"id": "C25", "title": "LayerConfigScope restores the global layer config", "statement": "For any nesting of distinct LayerConfigScope objects the global layer configuration after exit equals that before enter, including removal of keys that did not exist before.", "quantifier": "every nesting and keyword set", "why_tests_cant": "unbounded nesting", "anchors": ["src/hgq/config/layer.py::LayerConfigScope"]}
{"id": "C26", "title": "Scope completes i0, f0, b0 consistently", "statement": "If exactly two of i0,f0,b0 are given to a QuantizerConfigScope the third is derived so that b0=i0+f0; otherwise nothing is changed.", "quantifier": "every combination of numbers", "why_tests_cant": "unbounded", "anchors": ["src/hgq/quantizer/config.py::QuantizerConfigScope.__init__"]}
{"id": "C27", "title": "Bit-width constraints are projections", "statement": "MinMax, Min, Max and Constant map every weight into their admissible set, leave admissible weights unchanged and are idempotent and monotone.", "quantifier": "every weight and every bounds with min<=max", "why_tests_cant": "all reals", "anchors": ["src/hgq/constraints/__init__.py"]}
{"id": "C28", "title": "Dataset batches partition the data", "statement": "With drop_last=False the batches of an unshuffled Dataset, in index order, concatenate to exactly the data in order (each sample once, targets aligned); with drop_last=True all batches have exactly batch_size samples and together give one contiguous block of floor(n/batch_size)*batch_size samples; negative indices count from the end and any other out-of-range index raises.", "quantifier": "every data length, batch size, flag, random draw and history of epochs/re-batching", "why_tests_cant": "infinite family of lengths and histories", "anchors": ["src/hgq/utils/dataset.py::Dataset"]}
{"id": "C29", "title": "Shuffled Dataset epochs are permutations", "statement": "With shuffle=True every epoch visits each sample exactly once, x and y stay aligned, and the sequence of epochs never loses a sample.", "quantifier": "every sequence of epoch starts and every random permutation", "why_tests_cant": "all permutations and histories", "anchors": ["src/hgq/utils/dataset.py::Dataset.on_epoch_end"]}
{"id": "C30", "title": "Beta schedule interpolation", "statement": "PieceWiseSchedule returns the first beta before the first key epoch, exactly beta_i at key epoch i, stays between the two neighbouring betas and is monotone between two key epochs, and is constant after the last.", "quantifier": "every sorted interval list and epoch", "why_tests_cant": "all schedules and epochs", "anchors": ["src/hgq/utils/sugar/beta_scheduler.py::PieceWiseSchedule"]}
{"id": "C31", "title": "BetaPID keeps beta within its bounds", "statement": "At every epoch of every run the beta assigned by BetaPID lies in [min_beta,max_beta], is 0 in no epoch unless min_beta is 0, and BaseBetaPID never assigns a negative beta.", "quantifier": "every sequence of measured EBOPs", "why_tests_cant": "feedback over unbounded histories", "anchors": ["src/hgq/utils/sugar/beta_pid.py::BetaPID", "src/hgq/utils/sugar/beta_pid.py::BaseBetaPID"]}
{"id": "C32", "title": "BetaPID starts from the requested initial beta", "statement": "In the first epoch after warm-up (init_beta given) the assigned beta equals init_beta clamped to the bounds.", "quantifier": "every init_beta, gain and measured EBOPs", "why_tests_cant": "depends on real-valued feedback", "anchors": ["src/hgq/utils/sugar/beta_pid.py::BetaPID.on_epoch_begin"]}
{"id": "C33", "title": "BetaPID drives beta in the right direction", "statement": "With non-negative gains, d=0, damping in [0,1] and min_beta>=0: for one and the same history a larger current EBOPs value never yields a smaller beta, and while EBOPs stay constant above (below) the target the controller output keeps rising (falling).", "quantifier": "every controller state, gain, bound and EBOPs value", "why_tests_cant": "all histories", "anchors": ["src/hgq/utils/sugar/beta_pid.py::PID", "src/hgq/utils/sugar/beta_pid.py::BetaPID.on_epoch_begin"]}
{"id": "C34", "title": "StopIf fires after the documented number of consecutive hits", "statement": "StopIf(patience=p) stops training exactly when its condition held on p consecutive checks, a miss resets the count.", "quantifier": "every sequence of condition outcomes", "why_tests_cant": "all histories", "anchors": ["src/hgq/utils/sugar/stop_if.py::StopIf"]}
{"id": "C35", "title": "Early stopping respects the EBOPs threshold", "statement": "EarlyStoppingWithEbopsThres never requests a stop in an epoch whose EBOPs exceed the threshold, and otherwise behaves like keras EarlyStopping.", "quantifier": "every history of metrics and EBOPs", "why_tests_cant": "all histories", "anchors": ["src/hgq/utils/sugar/early_stopping_ebops.py::EarlyStoppingWithEbopsThres"]}
{"id": "C36", "title": "ParetoFront keeps a Pareto front", "statement": "After any history the recorded points are mutually non-dominated, every checkpointed point seen is weakly dominated by a recorded one, and the files kept correspond one-to-one to the records.", "quantifier": "every sequence of metric vectors and sides", "why_tests_cant": "all histories and metric values", "anchors": ["src/hgq/utils/sugar/pareto.py::ParetoFront"]}
{"id": "C37", "title": "All EBOPs totals agree", "statement": "The total EBOPs reported by FreeEBOPs/EarlyStoppingWithEbopsThres, trace_minmax and BetaPID agree for every model.", "quantifier": "every tree of layers", "why_tests_cant": "all model trees", "anchors": ["src/hgq/utils/sugar/ebops.py::FreeEBOPs", "src/hgq/utils/minmax_trace.py::trace_minmax", "src/hgq/utils/sugar/beta_pid.py::BaseBetaPID.get_ebops", "src/hgq/layers/attn/linformer.py::QLinformerAttention.ebops"]}
{"id": "C38", "title": "EBOPs of dense layers", "statement": "The EBOPs of QDense/QEinsumDense equal the sum over all multiplications executed of input bits times kernel bits (plus bias bits), are non-negative, monotone in every bit-width and scale linearly with parallelization_factor.", "quantifier": "every shape, bit-width assignment", "why_tests_cant": "all shapes and widths", "anchors": ["src/hgq/layers/core/dense.py::QDense._compute_ebops", "src/hgq/layers/core/einsum_dense.py::QEinsumDense._compute_ebops"]}
{"id": "C39", "title": "Batch-norm folding preserves the function", "statement": "QBatchNormalization at inference computes gamma*(x-mean)/sqrt(var+eps)+beta (with gamma=1 / beta=0 when scale/center is off) when scale and offset are represented exactly; the fused QBatchNormDense (whose statistics are those of its inputs) computes the dense layer applied to the normalised inputs, and QEinsumDenseBatchnorm computes the einsum followed by batch-norm with its own epsilon.", "quantifier": "every mean, variance, gamma, beta, kernel, bias, input", "why_tests_cant": "real parameters", "anchors": ["src/hgq/layers/batch_normalization.py::QBatchNormalization", "src/hgq/layers/core/dense.py::QBatchNormDense", "src/hgq/layers/einsum_dense_batchnorm.py::QEinsumDenseBatchnorm"]}
{"id": "C40", "title": "Softmax structural guarantees", "statement": "For any tables, QSoftmax outputs exactly 0 at masked positions, applies exp only to non-negative arguments in stable mode, is invariant under adding a constant on an axis in stable mode (unmasked values staying at or above the -1e9 that encodes a masked position), and is permutation-equivariant on the axis.", "quantifier": "every input vector, mask and table functions", "why_tests_cant": "all vectors and tables", "anchors": ["src/hgq/layers/softmax.py::QSoftmax.call"]}
{"id": "C41", "title": "Power-of-two mean layers", "statement": "QMeanPow2/QAveragePow2 multiply the sum by a power of two, which equals the true mean iff the number of summands is a power of two, and is otherwise within a factor sqrt(2) of it; QSum rejects non power-of-two scales.", "quantifier": "every number of summands", "why_tests_cant": "all sizes", "anchors": ["src/hgq/layers/ops/accum.py::QMeanPow2", "src/hgq/layers/ops/merge.py::QAveragePow2", "src/hgq/layers/ops/accum.py::QSum"]}
{"id": "C42", "title": "QEinsum ellipsis expansion preserves the contraction", "statement": "For any equation with ellipsis accepted by QEinsum the expanded equation denotes the same contraction, in particular introduces no index already used elsewhere in the equation.", "quantifier": "every equation and rank", "why_tests_cant": "all equations", "anchors": ["src/hgq/layers/ops/einsum.py::QEinsum.build"]}
{"id": "C43", "title": "Replay of grouped convolution", "statement": "The traced convolution (im2col and grouped einsum) equals the Keras grouped convolution for every group count.", "quantifier": "every channel count, group count, kernel, input", "why_tests_cant": "all shapes", "anchors": ["src/hgq/_dais_tracer/layers/conv.py::ReplayQConv", "src/hgq/_alkaid_keras_plugin/core.py::_QConv"]}
{"id": "C44", "title": "Fused attention projections split back correctly", "statement": "With fuse=\"qkv\" or \"kv\" the traced attention layer recovers the same Q,K,V as separate projections for every accepted key_dim and value_dim.", "quantifier": "every head size and projection", "why_tests_cant": "all dims", "anchors": ["src/hgq/_dais_tracer/layers/attn.py::_fused_qkv_proj", "src/hgq/_alkaid_keras_plugin/attn.py::_fused_qkv_proj"]}
{"id": "C45", "title": "Trace keys are unique and the graph replay is faithful", "statement": "Tracing any acyclic model stores one entry per operation output without overwriting, evaluates each operation exactly once after its inputs, and returns the value the functional model computes.", "quantifier": "every model graph and layer naming", "why_tests_cant": "all graphs", "anchors": ["src/hgq/_dais_tracer/main.py::_trace_model", "src/hgq/_dais_tracer/main.py::MaybeRename"]}
{"id": "C46", "title": "Spiking cells: spike and reset semantics", "statement": "A SpikingNeuralCell emits 0 or its graded factor; it fires iff the membrane exceeds the threshold; subtract/zero/none reset act as documented; with inhibition at most one unit fires per sample.", "quantifier": "every membrane vector, threshold and factor", "why_tests_cant": "all reals and widths", "anchors": ["src/hgq/layers/snn/base.py::SpikingNeuralCell"]}
{"id": "C47", "title": "Replay of spiking layers", "statement": "The traced SNN step (fire, inhibit, reset) equals the Keras cell for every membrane state over every sequence length.", "quantifier": "every input sequence", "why_tests_cant": "all sequences", "anchors": ["src/hgq/_alkaid_keras_plugin/snn.py", "src/hgq/layers/snn/base.py::QSimpleSNNCell"]}
{"id": "C48", "title": "Accumulator width of spiking layers suffices", "statement": "The accumulator width used for SNN EBOPs (input bits + ceil(log2 T)) can represent every membrane value reachable in T steps from the zero state.", "quantifier": "every T and every input sequence of the given width", "why_tests_cant": "all sequences", "anchors": ["src/hgq/layers/snn/base.py::QSimpleSNNCell._accumulator_bits"]}
{"id": "C49", "title": "GRU state stays bounded", "statement": "With the default hard-sigmoid/hard-tanh quantizers the QGRU state stays in [-1,1) for every input sequence, starting from the zero state.", "quantifier": "every sequence length and input", "why_tests_cant": "unbounded sequences", "anchors": ["src/hgq/layers/rnn/gru.py::QGRUCell.call"]}
{"id": "C50", "title": "RNN replay equals the Keras cell", "statement": "The traced QSimpleRNN/QGRU equals the Keras layer step by step for every sequence, direction and return option.", "quantifier": "every sequence", "why_tests_cant": "unbounded sequences", "anchors": ["src/hgq/_alkaid_keras_plugin/rnn.py", "src/hgq/layers/rnn/simple_rnn.py::QSimpleRNNCell.call", "src/hgq/layers/rnn/gru.py::QGRUCell.call"]}
{"id": "C51", "title": "RNN weight cache is never stale", "statement": "Every call of a QRNN layer uses the quantized value of the current weights, including calls after an earlier call raised.", "quantifier": "every history of weight updates, successful and failing calls", "why_tests_cant": "all histories", "anchors": ["src/hgq/layers/rnn/simple_rnn.py::QRNN.call", "src/hgq/layers/rnn/simple_rnn.py::QSimpleRNNCell._set_weight_cache"]}
{"id": "C52", "title": "EBOPs enablement and layer wrapper", "statement": "A Q-layer computes EBOPs only if EBOPs are enabled and its input quantizer is; constructing or calling any layer with an allowed combination of enable_iq/enable_oq/enable_ebops never fails for that reason.", "quantifier": "every combination of flags and global defaults", "why_tests_cant": "all flag/global combinations and histories", "anchors": ["src/hgq/layers/core/base.py::QLayerBase", "src/hgq/layers/activation.py::QUnaryFunctionLUT"]}
{"id": "C53", "title": "quantized_bits callable equals the quantizer it configures", "statement": "Calling a quantized_bits object on an array returns what the quantizer built from it returns, and does not modify the array.", "quantifier": "every bits, integer, keep_negative, symmetric, alpha and input", "why_tests_cant": "all inputs", "anchors": ["src/qkeras/quantizers/quantized_bits.py::quantized_bits.__call__"]}
{"id": "C54", "title": "Replay of ReLU variants", "statement": "The traced ReLU/LeakyReLU/PReLU equals the Keras layer on every fixed-point input.", "quantifier": "every grid value, threshold, slope, max_value", "why_tests_cant": "all grids", "anchors": ["src/hgq/_dais_tracer/layers/activation.py::ReplayReLU"]}
{"id": "C55", "title": "SALT cluster padding", "statement": "QSALTAttention pads key and value to the smallest multiple of the projection size and the clustered projection runs for every sequence length.", "quantifier": "every sequence length and projection size", "why_tests_cant": "all sizes", "anchors": ["src/hgq/layers/attn/salt.py::QSALTAttention"]}
{"id": "C56", "title": "Scope options take effect or are rejected", "statement": "Every keyword accepted by QuantizerConfigScope changes the configs created inside the scope for the named types that have that parameter; other keywords are rejected.", "quantifier": "every keyword list, types, places and current defaults", "why_tests_cant": "all keyword combinations", "anchors": ["src/hgq/quantizer/config.py::QuantizerConfigScope.__init__", "src/hgq/quantizer/config.py::all_quantizer_keys"]}
{"id": "C57", "title": "One-element input list", "statement": "Passing the single input of a model as a one-element list or tuple gives the same Dataset as passing the array itself.", "quantifier": "every array", "why_tests_cant": "all data lengths", "anchors": ["src/hgq/utils/dataset.py::Dataset.__init__"]}
{"id": "C58", "title": "BetaPID never aborts a training", "statement": "For every sequence of measured EBOPs (including zero) no BetaPID callback raises.", "quantifier": "every run and EBOPs history", "why_tests_cant": "all histories", "anchors": ["src/hgq/utils/sugar/beta_pid.py::BetaPID.on_epoch_begin"]}
{"id": "C59", "title": "Convolution EBOPs equal the executed products", "statement": "For every convolution (geometry, padding, parallelization factor) the reported EBOPs is the sum, over the products executed per unrolled position, of input bits times kernel bits, plus the bits of every bias addition, and is proportional to the parallelization factor.", "quantifier": "every geometry, bitwidth assignment and parallelization factor", "why_tests_cant": "all shapes and bitwidths", "anchors": ["src/hgq/layers/conv.py::QBaseConv._compute_ebops"]}
{"id": "C60", "title": "Recurrent EBOPs equal steps times the cost of one step", "statement": "The EBOPs reported for a QSimpleRNN or QGRU over T steps is T (or the unrolled parallel factor) times the EBOPs of one step, and one step counts every kernel product and every bias entry.", "quantifier": "every sequence length, unit number and bitwidth assignment", "why_tests_cant": "all shapes and bitwidths", "anchors": ["src/hgq/layers/rnn/simple_rnn.py::QSimpleRNN._compute_ebops", "src/hgq/layers/rnn/gru.py::QGRUCell._compute_ebops"]}
{"id": "C61", "title": "Accumulator, merge and table EBOPs are sane", "statement": "The EBOPs of sums, element-wise merges and table layers is never negative and never decreases when any input or output bitwidth increases.", "quantifier": "every bitwidth assignment", "why_tests_cant": "all bitwidth arrays", "anchors": ["src/hgq/layers/ops/accum.py::QSum._compute_ebops", "src/hgq/layers/ops/merge.py::QMerge._compute_ebops", "src/hgq/layers/table/dense.py::QDenseT._compute_ebops"]}
{"id": "C62", "title": "QDot EBOPs equal the executed products", "statement": "The EBOPs of a QDot layer is the sum over the executed scalar products of the products of the two bitwidths.", "quantifier": "every pair of shapes, axes and bitwidths", "why_tests_cant": "all shapes and bitwidths", "anchors": ["src/hgq/layers/ops/merge.py::QDot._compute_ebops"]}
{"id": "C63", "title": "Quantized weights read from a recurrent layer are current", "statement": "Reading qkernel, qrecurrent_kernel or qbias of a recurrent cell (as the hardware export does) returns the quantized value of the current weights, after every history of calls, including failed ones, and weight updates.", "quantifier": "every history of weight updates, successful and failing calls and reads", "why_tests_cant": "all histories", "anchors": ["src/hgq/layers/rnn/simple_rnn.py::QSimpleRNNCell.qkernel", "src/hgq/layers/rnn/simple_rnn.py::QRNN.call", "src/hgq/_alkaid_keras_plugin/rnn.py::_QSimpleRNN"]}
{"id": "C64", "title": "Symbolic patch extraction", "statement": "Tracing a convolution or pooling gathers exactly the patches Keras extracts, for every geometry and padding value.", "quantifier": "every image, geometry, padding value", "why_tests_cant": "all image sizes and geometries", "anchors": ["src/hgq/_dais_tracer/layers/conv.py::symbolic_extract_patches_3d"]}
{"id": "C65", "title": "Traced softmax equals the layer", "statement": "For every mask, stable or not, and all exponential and inverse tables, the traced QSoftmax gives the values of the layer.", "quantifier": "every input, mask and table", "why_tests_cant": "all inputs and masks", "anchors": ["src/hgq/_dais_tracer/layers/activation.py::ReplayQSoftmax", "src/hgq/_alkaid_keras_plugin/activation.py::_QSoftmax"]}
{"id": "C66", "title": "Traced pooling equals the layer", "statement": "Traced max pooling is the maximum, and average pooling the mean, of the entries of the window that are inside the image.", "quantifier": "every window and image", "why_tests_cant": "all values", "anchors": ["src/hgq/_dais_tracer/layers/pool.py::ReplayPool"]}
{"id": "C67", "title": "EBOPs loss is added exactly once per training call", "statement": "Whatever layers of whatever classes were created before, one training call of a layer with EBOPs enabled adds its beta times EBOPs loss exactly once.", "quantifier": "every class hierarchy and every order of layer creation", "why_tests_cant": "all creation histories", "anchors": ["src/hgq/layers/core/base.py::QLayerMeta", "src/hgq/layers/ops/accum.py::QMeanPow2", "src/hgq/layers/attn/linformer.py::QLinformerAttention.call"]}
{"id": "C68", "title": "Importing the QKeras layer compatibility module changes nothing for HGQ layers", "statement": "A layer constructed through hgq.layers resolves its enable flags in the same way whether or not qkeras.qlayers has been imported.", "quantifier": "every global configuration and argument combination", "why_tests_cant": "all flag combinations", "anchors": ["src/qkeras/qlayers/__init__.py::qkeras_layer_wrap"]}
{"id": "C69", "title": "QKeras keyword names map one-to-one", "statement": "A QKeras layer constructor accepts a keyword dictionary exactly if no two keywords mean the same parameter, and then the layer receives every given value under its canonical name.", "quantifier": "every keyword dictionary", "why_tests_cant": "all keyword combinations", "anchors": ["src/qkeras/qlayers/__init__.py::qkeras_layer_wrap"]}
{"id": "C70", "title": "quantized_bits survives its own string form", "statement": "For every quantized_bits q, quantized_bits.from_string(str(q)) has the same bits, integer, flags and alpha.", "quantifier": "every quantized_bits", "why_tests_cant": "all parameter values", "anchors": ["src/qkeras/quantizers/quantized_bits.py::quantized_bits.__str__", "src/qkeras/quantizers/utils.py::parse_string_to_args"]}
{"id": "C71", "title": "Structural operations are traced sample by sample", "statement": "Tracing a reshape, flatten, concatenation, repetition, transposition, axis move, subscript, sum over axes or element-wise merge (with broadcasting over different ranks) computes, for every sample of a batch, exactly the entries Keras computes for that sample.", "quantifier": "every array, shape, axis argument and sample", "why_tests_cant": "all shapes, ranks and axes", "anchors": ["src/hgq/_dais_tracer/layers/ops.py::ReplayReshape", "src/hgq/_dais_tracer/layers/ops.py::ReplayMerge", "src/hgq/_dais_tracer/layers/ops.py::ReplayTranspose", "src/hgq/_dais_tracer/layers/ops.py::ReplayRepeatVector"]}
{"id": "C72", "title": "Traced dot products equal the layer", "statement": "Tracing Dot or QDot of two inputs along given axes gives the shape and the values of the Keras layer for every pair of ranks.", "quantifier": "every pair of shapes and axes", "why_tests_cant": "all ranks and values", "anchors": ["src/hgq/_dais_tracer/layers/ops.py::ReplayEinsum", "src/hgq/_alkaid_keras_plugin/ops.py::_QEinsum"]}
{"id": "C73", "title": "Traced global pooling equals the layer", "statement": "Tracing a global average or max pooling gives, for each channel, the mean or the maximum over all spatial positions, for each data format and with or without keepdims.", "quantifier": "every image shape, data format and value", "why_tests_cant": "all shapes and values", "anchors": ["src/hgq/_dais_tracer/layers/pool.py::ReplayPool"]}
{"id": "C74", "title": "Traced table layers equal the layer", "statement": "Tracing QDenseT or a table convolution replaces each input-output network by a lookup table which, for every quantized input value, every network depth, activation, batch normalization setting and mixture of table sizes, returns the value of the layer.", "quantifier": "every input, network and bitwidth assignment", "why_tests_cant": "all inputs and weights", "anchors": ["src/hgq/_dais_tracer/layers/table.py::ReplayDenseTable", "src/hgq/_alkaid_keras_plugin/table.py::_QDenseTable", "src/hgq/layers/table/dense.py::QDenseT.call"]}
{"id": "C75", "title": "QEinsumDenseT computes the einsum with tables", "statement": "For every equation accepted by QEinsumDenseT, each output entry is the activation of the sum over all values of the contracted labels of the table at the kernel coordinates applied to the input entry at the input coordinates.", "quantifier": "every equation, shape, table and input", "why_tests_cant": "all equations and shapes", "anchors": ["src/hgq/layers/table/dense.py::QEinsumDenseT.build", "src/hgq/layers/table/dense.py::QEinsumDenseT.call", "src/hgq/_alkaid_keras_plugin/table.py::_QEinsumDenseTable"]}
{"id": "C76", "title": "Activations inside traced tables are the Keras activations", "statement": "The numpy functions used to fill traced tables have the values of the Keras activations at every point.", "quantifier": "every activation with a numpy version and every real input", "why_tests_cant": "all real inputs", "anchors": ["src/hgq/_dais_tracer/layers/table.py::keras_act_to_numpy", "src/hgq/_alkaid_keras_plugin/table.py::keras_act_to_numpy"]}
{"id": "C77", "title": "Attention axes", "statement": "QMultiHeadAttention computes its output for every selection of attention axes Keras accepts, and its softmax and quantizers are built for the shape the scores have.", "quantifier": "every number and size of sequence axes and every list of attended axes", "why_tests_cant": "all shapes and axis lists", "anchors": ["src/hgq/layers/attn/mha.py::QMultiHeadAttention._build_attention"]}
{"id": "C78", "title": "Attention EBOPs equal the executed products", "statement": "The EBOPs of an attention layer, apart from its projections and softmax, are the sum over all executed scalar products, for the scores and for the output, of the product of the bit widths of both factors, and never exceed that of the fully parallel implementation.", "quantifier": "every shape, attention axes, bit widths and parallelization factor", "why_tests_cant": "all shapes and bit widths", "anchors": ["src/hgq/layers/attn/mha.py::QMultiHeadAttention._compute_ebops"]}
{"id": "C79", "title": "Attention masks in traced models", "statement": "For every combination of query, value, key, causal and attention masks, a traced attention layer lets exactly the pairs of positions through that Keras lets through.", "quantifier": "every combination and content of masks and all sequence lengths", "why_tests_cant": "all masks and lengths", "anchors": ["src/hgq/_dais_tracer/layers/attn.py::ReplayMHA._compute_attention_mask", "src/hgq/_alkaid_keras_plugin/attn.py::_QMHA._compute_attention_mask"]}
{"id": "C80", "title": "Traced attention equals the layer", "statement": "Tracing QMultiHeadAttention with fuse none, kv or qkv gives the value of the layer at every position for every input, kernel, bias, quantizer, table and mask.", "quantifier": "every attention layer configuration and input", "why_tests_cant": "all inputs, weights and masks", "anchors": ["src/hgq/_dais_tracer/layers/attn.py::_fused_qkv_proj", "src/hgq/_dais_tracer/layers/attn.py::ReplayMHA.call", "src/hgq/layers/attn/mha.py::QMultiHeadAttention.call"]}
{"id": "C81", "title": "Frozen batch norm", "statement": "A batch normalisation layer with trainable=False behaves as in inference, whatever the training flag: it uses and keeps its running statistics.", "quantifier": "every history of calls, batches, flags and stored statistics", "why_tests_cant": "all histories and batches", "anchors": ["src/hgq/layers/batch_normalization.py::QBatchNormalization.call", "src/hgq/layers/core/dense.py::QBatchNormDense.call", "src/hgq/layers/einsum_dense_batchnorm.py::QEinsumDenseBatchnorm.call"]}
{"id": "C82", "title": "Running statistics", "statement": "After any history of calls the stored mean and variance are the exponential moving averages of the batch means and variances of the training calls only; the variance never becomes negative and the mean stays within the range of the batch means.", "quantifier": "every history of training, inference and calibration calls", "why_tests_cant": "all histories", "anchors": ["src/hgq/layers/batch_normalization.py::QBatchNormalization.call", "src/hgq/layers/core/dense.py::QBatchNormDense.call", "src/hgq/layers/einsum_dense_batchnorm.py::QEinsumDenseBatchnorm.call"]}
{"id": "C83", "title": "Training-mode normalisation", "statement": "In a training call the outputs of a batch normalisation layer, before quantization, have mean beta and variance gamma^2 * var/(var+eps).", "quantifier": "every batch, kernel, gamma, beta, epsilon and stored statistics", "why_tests_cant": "all batches", "anchors": ["src/hgq/layers/batch_normalization.py::QBatchNormalization.call", "src/hgq/layers/core/dense.py::QBatchNormDense.get_fused_qkernel_and_qbias"]}
{"id": "C84", "title": "Causal convolution", "statement": "QConv1D with padding causal computes the causal convolution of its quantized input: ceil(T/stride) outputs, none depending on later inputs, in inference and in training, and calling it does not change the layer.", "quantifier": "every kernel, dilation, stride, input length, input, quantizer and history of calls", "why_tests_cant": "all inputs and call histories", "anchors": ["src/hgq/layers/conv.py::QConv1D.call", "src/hgq/layers/conv.py::QBaseConv._compute_ebops"]}
{"id": "C85", "title": "Layer config round trip", "statement": "A layer rebuilt from its saved config has every attribute the original had, whatever the constructor arguments and whatever global configuration and quantizer scope is active when saving and when loading; rebuilding on the same shape keeps the parallelization factor.", "quantifier": "every layer class, every set of constructor arguments, every pair of scopes", "why_tests_cant": "all arguments and all save/load scopes", "anchors": ["src/hgq/layers/core/base.py::QLayerBase.get_config", "src/hgq/layers/core/base.py::QLayerBase.from_config", "src/hgq/layers/core/dense.py::QDense.get_config", "src/hgq/layers/pooling.py::QBasePooling", "src/hgq/layers/einsum_dense_batchnorm.py::QEinsumDenseBatchnorm", "src/hgq/layers/rnn/simple_rnn.py::QSimpleRNN", "src/hgq/layers/rnn/gru.py::QGRUCell", "src/hgq/layers/snn/base.py::_QSNN"]}
{"id": "C86", "title": "Accepted configs yield quantizers", "statement": "Every quantizer config that is accepted with legal values can be turned into a quantizer, which has exactly the values and axes of the config; keywords given to Quantizer directly reach either the config or the layer, none is lost.", "quantifier": "every quantizer type, place, set of keywords and values", "why_tests_cant": "all keyword combinations", "anchors": ["src/hgq/quantizer/config.py::QuantizerConfig.get_quantizer", "src/hgq/quantizer/internal/base.py::TrainableQuantizerBase", "src/hgq/quantizer/internal/fixed_point_quantizer.py::FixedPointQuantizerKBI", "src/hgq/quantizer/internal/fixed_point_quantizer.py::FixedPointQuantizerKIF", "src/hgq/quantizer/internal/float_point_quantizer.py::FloatPointQuantizer", "src/hgq/quantizer/quantizer.py::Quantizer.get_quantizer_config_kwargs"]}
{"id": "C87", "title": "Sharing a quantizer config", "statement": "Giving one QuantizerConfig object to several layers is safe: constructing a layer changes neither what another layer saves nor the quantizers another layer gets, whatever the order of construction.", "quantifier": "every history of layer constructions, every assignment of config objects to places, every config content", "why_tests_cant": "all construction histories", "anchors": ["src/hgq/layers/softmax.py::QSoftmax", "src/hgq/layers/activation.py::QUnaryFunctionLUT", "src/hgq/layers/core/base.py::QLayerBase.get_config", "src/hgq/quantizer/quantizer.py::Quantizer"]}
{"id": "C88", "title": "Sharing a bit-width mapper", "statement": "Giving one bit-width mapper to several quantizers (through a config or a scope) gives each the bit-width shape it would get from a mapper of its own, whatever was built before.", "quantifier": "every axis specification and every history of built shapes", "why_tests_cant": "all build histories", "anchors": ["src/hgq/quantizer/internal/base.py::DefaultBitwidthMapper.inference_weight_shape", "src/hgq/quantizer/internal/base.py::check_axis"]}
{"id": "C89", "title": "The float32 forward pass is exact", "statement": "Running a quantized dense model in float32 gives, bit for bit, the values of exact fixed-point arithmetic (what the hardware computes), whatever the order in which the backend adds, as long as every accumulator fits into 24 bits.", "quantifier": "every float32 input, every set of formats and weights, every order and association of the sums, fused or not, every number of layers", "why_tests_cant": "all inputs, all summation orders", "anchors": ["src/hgq/layers/core/dense.py::QDense.call", "src/hgq/quantizer/internal/fixed_point_quantizer.py::FixedPointQuantizerBase.call"]}
{"id": "C90", "title": "Calibration makes the whole model overflow-free on its data", "statement": "After trace_minmax, running the model on any batch of the calibration data gives, at every node, exactly the values seen while tracing; so the values returned with return_results=True are those of the calibrated model and no quantizer overflows on calibration data.", "quantifier": "every model graph (any number of layers, shared quantizers, arbitrary operations between them), every state, every list of batches, with and without reset", "why_tests_cant": "all graphs, all data sets and batchings; later batches must not invalidate what earlier batches established", "anchors": ["src/hgq/utils/minmax_trace.py::trace_minmax", "src/hgq/utils/minmax_trace.py::_reset_minmax", "src/hgq/quantizer/internal/fixed_point_quantizer.py::FixedPointQuantizerKIF.call"]}
{"id": "C91", "title": "The traced model equals the Keras model, sample by sample", "statement": "Tracing a functional model symbolically (trace_model) and evaluating the result on the inputs of one sample gives, for every output and every intermediate operation, exactly the numbers the Keras model computes for that sample inside any batch at inference; for a quantized layer this holds for every recorded stage (post_iq, post_call, post_oq, final).", "quantifier": "every acyclic model graph of quantizers, quantized dense/convolution/merge/sum/batch-normalization/table/pooling/softmax/einsum layers, ReLUs, PReLUs, reshapes, concatenations, repeats, moved axes and subscripts, every bit width tensor, every batch and sample", "why_tests_cant": "all graphs, shapes, widths and inputs: the composition of all layer replays, which no list of test models covers", "anchors": ["src/hgq/_dais_tracer/main.py::_trace_model", "src/hgq/_dais_tracer/layers/_base.py::ReplayOperationBase", "src/hgq/_dais_tracer/layers/_base.py::mirror_quantizer", "src/hgq/layers/core/base.py::QLayerBase"]}
{"id": "C92", "title": "Quantized parameters are not wrapped", "statement": "Whatever sequence of optimizer steps, calls and calibrations a model has seen, the quantized kernel or bias its layers use at inference is the stored parameter rounded to the precision of its quantizer: it is never wrapped around, keeps its sign, and lies in the range the quantizer reports.", "quantifier": "every history of optimizer steps (any new parameter values and widths), layer calls with any training flag and calibration resets, every rounding mode, kif and kbi quantizers with overflow_mode WRAP (the default of biases)", "why_tests_cant": "all histories: the integer bits of a WRAP quantizer lag behind the parameters, so a test sees only the histories it runs", "anchors": ["src/hgq/quantizer/internal/fixed_point_quantizer.py::FixedPointQuantizerKIF", "src/hgq/quantizer/internal/fixed_point_quantizer.py::FixedPointQuantizerKBI", "src/hgq/layers/core/dense.py::QDense", "src/hgq/utils/minmax_trace.py::trace_minmax", "src/hgq/quantizer/config.py::kbi_bias_default"]}
{"id": "C93", "title": "The minifloat quantizer reports its own format", "statement": "A float quantizer with m mantissa bits, e exponent bits and exponent offset e0 reports as max, min and epsilon exactly the largest, smallest and smallest positive number of the documented format (IEEE 754 with subnormals, without infinities and NaNs), and as bits the width that counts its numbers; its outputs lie in that range, numbers of the format are unchanged, values beyond it saturate, and a pruned cell (m = -1) costs no bits.", "quantifier": "every value of the trained variables m, e, e0 (rounded to integers), every input", "why_tests_cant": "all widths and offsets: formulas with powers of powers of two that tests only sample", "anchors": ["src/hgq/quantizer/internal/float_point_quantizer.py::FloatPointQuantizer", "src/hgq/quantizer/config.py::float_weight_default"]}
{"id": "C94", "title": "Outputs returned by trace_minmax", "statement": "trace_minmax(model, data, return_results=True) returns, for every output of the model, one array whose row j is the output on sample j of the data, for every batch size.", "quantifier": "every number of batches and batch sizes, every number and shape of the model outputs, every dataset", "why_tests_cant": "all batchings and output structures", "anchors": ["src/hgq/utils/minmax_trace.py::trace_minmax", "src/hgq/utils/dataset.py::Dataset"]}
{"id": "C95", "title": "Parallel positions of an einsum layer", "statement": "For every equation EinsumDense accepts and every input shape, the number of positions at which QEinsumDense (and QEinsumDenseT) applies one kernel is the product of the sizes of the non-batch input axes that stay in the output and do not occur in the kernel; hence with homogeneous input widths the EBOPs for parallelization_factor=p are p times the cost of one kernel application, with the default factor the cost of all executed products plus the bias width of every output element; a free axis of unknown size is rejected when the layer is built.", "quantifier": "every equation without, with leading or with trailing ellipsis, every rank, every axis size, all widths and factors", "why_tests_cant": "all equations and shapes", "anchors": ["src/hgq/layers/core/einsum_dense.py::_einsum_free0_size", "src/hgq/layers/core/einsum_dense.py::QEinsumDense"]}
{"id": "C96", "title": "EBOPs of pooling layers", "statement": "The EBOPs a pooling layer reports are the bits of all inputs read by all executed windows: with parallelization_factor <= 0 for every output position, with a factor p in proportion p to the number of output positions; for global pooling the bits of all inputs; in any number of dimensions and both paddings.", "quantifier": "every pool size, stride, padding, size and number of axes, all bit widths, channels and factors", "why_tests_cant": "all geometries, sizes and widths", "anchors": ["src/hgq/layers/pooling.py::QBasePooling"]}
{"id": "C97", "title": "EBOPs of batch normalization", "statement": "A QBatchNormalization layer reports, for every element of a sample, the product of the input bits and the scale bits of its channel plus the offset bits of its channel.", "quantifier": "every shape, every normalised axis, all bit widths", "why_tests_cant": "all shapes, axes and widths", "anchors": ["src/hgq/layers/batch_normalization.py::QBatchNormalization"]}
{"id": "C98", "title": "EBOPs of softmax", "statement": "A QSoftmax layer reports, for every row it normalises, the subtraction from the maximum (stable only), the accumulation of the exponentials, one product per entry, and the tables; with parallelization_factor=p the share p / number of rows of that.", "quantifier": "every shape, every set of axes, all bit widths, every factor, stable or not", "why_tests_cant": "all shapes, axes and widths", "anchors": ["src/hgq/layers/softmax.py::QSoftmax", "src/hgq/layers/activation.py::QUnaryFunctionLUT"]}
{"id": "C99", "title": "EBOPs of spiking layers", "statement": "A spiking layer reports, for every unit and every time step (or parallelization_factor of them), the cost of leak, input addition, threshold comparison, spike scaling and reset, with a membrane wide enough for the sum over the sequence or as wide as the state quantizer.", "quantifier": "every number of units and steps, every bit width, reset mechanism and factor", "why_tests_cant": "all sizes and widths", "anchors": ["src/hgq/layers/snn/base.py::QSimpleSNNCell", "src/hgq/layers/snn/base.py::QLIFCell", "src/hgq/layers/snn/base.py::_QSNN"]}
{"id": "C100", "title": "Spikes are exact in float32", "statement": "The spiking cells emit exactly 0 or exactly the graded spike factor in float32, although the surrogate of the gradient is subtracted and added back: a unit fires exactly if its membrane value exceeds the threshold. If the accumulators fit into 24 bits and the quantizers are exact, whole sequences of QSimpleSNN and QLIF are computed in float32 exactly as in exact arithmetic, and exactly as by the hardware replay.", "quantifier": "every float32 membrane value, threshold, alpha and factor; every sequence, number of units, reset mechanism, inhibition, fused or separate multiply-add; any arctan implementation with bounded results", "why_tests_cant": "all float32 numbers and all sequences", "anchors": ["src/hgq/layers/snn/base.py::ATan", "src/hgq/layers/snn/base.py::QSimpleSNNCell", "src/hgq/layers/snn/base.py::QLIFCell", "src/hgq/layers/snn/base.py::LIFCell"]}
{"id": "C101", "title": "The float32 Keras model is bit-exact with the traced model", "statement": "For a functional model of quantized layers (dense, convolution, einsum, merges, sums, batch normalization, pooling, softmax, tables), quantizers, ReLUs and structural operations: if every accumulator fits into 24 bits and every quantizer is exact on what it receives, the results Keras computes in float32 on a batch — in any order of summation, fused or not — are, sample by sample and for every intermediate tensor, exactly the results of the traced hardware program.", "quantifier": "every acyclic model of these layers, every batch, every order and association of every sum chosen by the backend", "why_tests_cant": "all models, batches and summation orders", "anchors": ["src/hgq/_dais_tracer/main.py::_trace_model", "src/hgq/quantizer/quantizer.py::Quantizer", "src/hgq/layers/core/dense.py::QDense", "src/hgq/layers/conv.py::QConv2D", "src/hgq/layers/core/einsum_dense.py::QEinsumDense"]}
{"id": "C102", "title": "The EBOPs loss and the bit-width regularizers only push bit widths down", "statement": "Training a model on its EBOPs losses and MonoL1 regularizers alone never raises a trainable bit-width variable, keeps it within its constraint, and (as long as the data do not raise the integer bits of WRAP quantizers) never raises the EBOPs of any layer; the derivative used for each bit width is the derivative of the documented cost at the current integer widths, it is never negative, and it is zero for a pruned cell.", "quantifier": "every layer type and size, every assignment of cells to elements, every state of the widths, every optimizer that moves against a non-negative combination of past gradients, every schedule of beta, any number of steps", "why_tests_cant": "all states, optimizers and numbers of steps", "anchors": ["src/hgq/layers/core/base.py::QLayerMeta", "src/hgq/layers/core/dense.py::QDense", "src/hgq/quantizer/internal/fixed_point_quantizer.py::FixedPointQuantizerKIF", "src/hgq/quantizer/internal/fixed_point_quantizer.py::FixedPointQuantizerKBI", "src/hgq/quantizer/internal/base.py::round_conv", "src/hgq/regularizers/__init__.py::MonoL1", "src/hgq/constraints/__init__.py::MinMax"]}
{"id": "C103", "title": "Surrogate gradients of spiking cells", "statement": "The surrogate gradient never changes what a spiking cell computes; the derivative it propagates is the slope of the documented arc-tangent curve at the distance to the threshold (positive, at most alpha/2, largest exactly at the threshold), none passes when surrogates are disabled, and training through any number of time steps carries derivatives by at most beta per step: with the default detached reset the derivative of the membrane is the leaky sum of those of the inputs.", "quantifier": "every input sequence of any length, every state, every alpha, decay, threshold and spike factor, with and without inhibition", "why_tests_cant": "all sequences and lengths", "anchors": ["src/hgq/layers/snn/base.py::ATan", "src/hgq/layers/snn/base.py::SpikingNeuralCell", "src/hgq/layers/snn/base.py::LIFCell"]}
{"id": "C104", "title": "Predictions do not depend on how samples are batched", "statement": "At inference a model gives for any selection of the samples of a batch (a subset, another order, repetitions) exactly the selection of what it gives for the whole batch: predictions do not depend on the batch size, on the order, or on which other samples are in the batch.", "quantifier": "every functional model of the modelled layers (any acyclic graph, shared layers), every batch, every selection of samples", "why_tests_cant": "all models, batches and selections", "anchors": ["src/hgq/quantizer/quantizer.py::Quantizer", "src/hgq/quantizer/internal/base.py::DefaultBitwidthMapper", "src/hgq/layers/core/base.py::QLayerMeta", "src/hgq/layers/softmax.py::QSoftmax", "src/hgq/layers/batch_normalization.py::QBatchNormalization"]}
{"id": "C105", "title": "A model converted by the Alkaid plugin computes what the Keras model computes", "statement": "For every functional model and every sample, the model converted through the Alkaid plugin, fed with this sample as a batch of one, gives exactly this sample of the output of the Keras model on any batch containing it; for a quantized layer the recorded stages post_iq and final are the quantized inputs and the output of Keras.", "quantifier": "every functional model of the modelled layers (any acyclic graph, shared layers), every batch, every sample of it", "why_tests_cant": "all models, batches and samples", "anchors": ["src/hgq/_alkaid_keras_plugin/_base.py::mirror_quantizer", "src/hgq/_alkaid_keras_plugin/_base.py::QLayerMixin", "src/hgq/_alkaid_keras_plugin/ops.py::_QReduction", "src/hgq/_alkaid_keras_plugin/ops.py::_QAveragePow2", "src/hgq/_alkaid_keras_plugin/ops.py::_QEinsum", "src/hgq/_alkaid_keras_plugin/activation.py::_QSoftmax", "src/hgq/_alkaid_keras_plugin/activation.py::_QFunctionLUT", "src/hgq/_alkaid_keras_plugin/core.py::ReplayQuantizer"]}
{"id": "C106", "title": "Arithmetic, reductions, matrix products and reshapes of tensors are traced sample by sample", "statement": "For keras.ops add, subtract, multiply, divide, maximum, minimum, sum, max, min, matmul, dot, reshape, ravel and the Reshape layer in a functional model, on tensors and constants: whenever Keras computes the operation on a batch, the tracer, given one sample of every tensor argument, gives this sample of the result.", "quantifier": "every operation, every shape, batch size, constant, target shape (with -1), every sample", "why_tests_cant": "all shapes, values and target shapes", "anchors": ["src/hgq/_dais_tracer/layers/ops.py::ReplayArithmetic", "src/hgq/_dais_tracer/layers/ops.py::ReplayReduction", "src/hgq/_dais_tracer/layers/ops.py::ReplayMatmul", "src/hgq/_dais_tracer/layers/ops.py::ReplayReshape", "src/hgq/_dais_tracer/main.py::replace_tensors"]}
{"id": "C107", "title": "Models with attention layers are traced exactly", "statement": "For every functional model with QMultiHeadAttention, QLinformerAttention and QSALTAttention layers among the other supported layers: whenever Keras computes the model on a batch, tracing each sample succeeds and gives, for every tensor, exactly this sample of what Keras computes, whether the projections are fused or not, with or without mask.", "quantifier": "every graph of layers, every number of sequence axes, heads and head sizes, every weight, bit width, mask, batch and sample", "why_tests_cant": "all models, shapes and inputs", "anchors": ["src/hgq/layers/attn/mha.py::QMultiHeadAttention", "src/hgq/layers/attn/linformer.py::QLinformerAttention", "src/hgq/layers/attn/salt.py::QSALTAttention", "src/hgq/_dais_tracer/layers/attn.py::ReplaySALTAttention", "src/hgq/_dais_tracer/layers/attn.py::ReplayMHA", "src/hgq/_dais_tracer/layers/attn.py::ReplayQLinformerAttention", "src/hgq/_dais_tracer/layers/attn.py::_fused_qkv_proj", "src/hgq/_dais_tracer/layers/activation.py::ReplayQSoftmax"]}
{"id": "C108", "title": "Models with table layers are traced exactly", "statement": "For every functional model with QDenseT, QConvT1D and QConvT2D layers among the other supported layers: if the tracer knows, for every pair of input and output, a range and step that holds the quantized input, then whenever Keras computes the model on a batch, tracing each sample succeeds and gives, for every tensor, exactly this sample of what Keras computes. Knowing the range of the input quantizer is enough. A table layer outputs, for every output, the sum over the inputs of the quantized network of the pair at the input quantized for the pair.", "quantifier": "every graph of layers, every number of inputs and outputs, every network, bit width, rounding and overflow mode, patch geometry, batch and sample", "why_tests_cant": "all models, shapes and inputs", "anchors": ["src/hgq/layers/table/dense.py::QDenseT", "src/hgq/layers/table/conv.py::QConvT1D", "src/hgq/layers/table/conv.py::QConvT2D", "src/hgq/_dais_tracer/layers/table.py::ReplayDenseTable", "src/hgq/_dais_tracer/layers/table.py::ReplayConvTable"]}
{"id": "C109", "title": "Models with attention and table layers converted by the Alkaid plugin", "statement": "For every functional model with QMultiHeadAttention, QLinformerAttention, QSALTAttention, QDenseT, QConvT1D and QConvT2D layers among the other supported layers: whenever Keras computes the model on a batch, the model converted by the Alkaid plugin computes on each sample of the batch and its outputs are exactly this sample of the outputs of Keras. Table layers need a known range and step that holds their (quantized) input; attention layers need input quantizers unless all projections are fused, and fused projections need the same tensor.", "quantifier": "every graph of layers, every batch and sample, number of heads, sizes, bit width, rounding and overflow mode, mask, network of the tables and patch geometry", "why_tests_cant": "all models, shapes and inputs", "anchors": ["src/hgq/_alkaid_keras_plugin/attn.py::_QMHA", "src/hgq/_alkaid_keras_plugin/attn.py::_QLinformerAttention", "src/hgq/_alkaid_keras_plugin/attn.py::ReplaySALTAttention", "src/hgq/_alkaid_keras_plugin/table.py::_QDenseTable", "src/hgq/_alkaid_keras_plugin/table.py::_QConvTable", "src/hgq/_alkaid_keras_plugin/activation.py::_QSoftmax"]}
{"id": "C110", "title": "Models with recurrent and spiking layers converted by the Alkaid plugin", "statement": "For every functional model with QSimpleRNN, QGRU, QSimpleSNN and QLIF layers among the other supported layers: Keras computes, for every sample of a batch of sequences, the recurrence of the cell from a zero or the given initial state, forwards or backwards; and the model converted by the Alkaid plugin gives on each sample of the batch exactly this sample of the outputs of Keras - sequences, last outputs and states.", "quantifier": "every graph of layers, every batch and sample, sequence length, number of units, weights, activation, bit width, rounding and overflow mode, reset mechanism, lateral inhibition and position of the reset gate", "why_tests_cant": "all models, lengths, shapes and inputs", "anchors": ["src/hgq/_alkaid_keras_plugin/rnn.py::_QSimpleRNN", "src/hgq/_alkaid_keras_plugin/rnn.py::_QGRU", "src/hgq/_alkaid_keras_plugin/snn.py::_QSNNReplay", "src/hgq/layers/rnn/simple_rnn.py::QSimpleRNN", "src/hgq/layers/rnn/gru.py::QGRU", "src/hgq/layers/snn/base.py::QLIF"]}
{"id": "C111", "title": "Models with QEinsumDenseT layers converted by the Alkaid plugin", "statement": "For every functional model with QEinsumDenseT layers among the other supported layers: Keras computes at every output position the (rectified, quantized) sum over the contracted labels of the small network of the pair, batch-normalized and quantized, applied to the quantized input; and the model converted by the Alkaid plugin gives on each sample of a batch exactly this sample of the outputs of Keras.", "quantifier": "every graph of layers, every batch and sample, equation, sizes, number and width of hidden layers, weights, biases, batch normalization over any axes, bit width, rounding and overflow mode", "why_tests_cant": "all equations, models, shapes and inputs", "anchors": ["src/hgq/layers/table/dense.py::QEinsumDenseT", "src/hgq/layers/table/dense.py::QEinsumDenseT._build_module", "src/hgq/layers/table/dense.py::QEinsumDenseT._apply_batch_norm", "src/hgq/_alkaid_keras_plugin/table.py::_QEinsumDenseTable"]}
{"id": "C112", "title": "Models with table attention converted by the Alkaid plugin", "statement": "For every functional model with QMultiHeadAttentionT and QLinformerAttentionT layers (projections by tables, along the sequence by tables or dense layers) among the other supported layers, the model converted by the Alkaid plugin gives on each sample of a batch exactly this sample of the outputs of Keras.", "quantifier": "every graph of layers, every batch and sample, number of sequence axes and heads, weights, mask, bit width, rounding and overflow mode", "why_tests_cant": "all models, shapes and inputs", "anchors": ["src/hgq/layers/attn/mha.py::QMultiHeadAttentionT", "src/hgq/layers/attn/linformer.py::QLinformerAttentionT", "src/hgq/_alkaid_keras_plugin/attn.py::_QMHAT", "src/hgq/_alkaid_keras_plugin/attn.py::_QLinformerAttentionT"]}
{"id": "C113", "title": "Masked positions do not influence attention", "statement": "For every attention layer called with a mask, the output at a query position depends only on the query at this position and on the keys and values at the positions that the mask lets it see: any change of the inputs elsewhere, of any size, leaves the output exactly as it was.", "quantifier": "every mask, layer, weights, number of sequence axes and heads, bit width, rounding and overflow mode, and every pair of batches that agree on what is visible", "why_tests_cant": "two runs on any pair of inputs", "anchors": ["src/hgq/layers/attn/mha.py::QMultiHeadAttention._compute_attention", "src/hgq/layers/attn/mha.py::QMultiHeadAttention.call", "src/hgq/layers/attn/mha.py::QMultiHeadAttentionT", "src/hgq/layers/softmax.py::QSoftmax.call"]}
{"id": "C114", "title": "Causal models do not look ahead", "statement": "In every functional model of layers that do not look ahead (attention with use_causal_mask=True, Conv1D with padding=causal, recurrent layers that run forwards and return sequences, layers that act on each time step), the outputs up to time T depend only on the inputs up to time T.", "quantifier": "every graph of layers, every time T, weights, bit width, and every pair of batches that agree up to time T", "why_tests_cant": "two runs on any pair of inputs, of any length", "anchors": ["src/hgq/layers/attn/mha.py::QMultiHeadAttention.call", "src/hgq/layers/conv.py::QConv1D", "src/hgq/layers/rnn/simple_rnn.py::QRNN", "src/hgq/layers/core/dense.py::QDense"]}
{"id": "C115", "title": "Stochastic rounding", "statement": "With round_mode S_RND or S_RND_CONV, every training result is one of the two representable neighbours of the input whatever the random numbers are, its mean over the random numbers is the input (inside the range), representable inputs do not change, the range fitted in training holds the results and the inputs at inference; outside training the random numbers have no influence and the quantizer is that of RND or RND_CONV.", "quantifier": "every input, format, overflow mode, training flag, quantizer state and every sequence of random numbers", "why_tests_cant": "all random numbers; means over a continuous distribution", "anchors": ["src/hgq/quantizer/internal/fixed_point_quantizer.py::FixedPointQuantizerBase.call", "src/hgq/quantizer/internal/fixed_point_quantizer.py::FixedPointQuantizerKIF.call", "src/hgq/quantizer/internal/fixed_point_quantizer.py::FixedPointQuantizerKBI.call"]}
{"id": "C116", "title": "Geometry of traced convolutions, pooling and patches", "statement": "A traced QConv1D/2D/3D, windowed pooling layer or extract_patches operation has, for every kernel size, stride, dilation, padding and data format, the output shape of the Keras layer, and its value at every output position and channel is the convolution (greatest entry, mean, window) over the zero-extended sample at the positions p*stride + k*dilation - padding.", "quantifier": "one to three spatial axes of every size; all kernel sizes, strides, dilations, paddings, data formats, kernels, biases, inputs", "why_tests_cant": "all geometries and images", "anchors": ["src/hgq/_dais_tracer/layers/conv.py::symbolic_extract_patches", "src/hgq/_dais_tracer/layers/conv.py::ReplayQConv", "src/hgq/_dais_tracer/layers/conv.py::ReplayExtractPatches", "src/hgq/_dais_tracer/layers/pool.py::ReplayPool"]}
{"id": "C117", "title": "Batch normalization of QEinsumDenseT in training", "statement": "A training call of QEinsumDenseT with batch normalization moves the stored mean and variance of each channel towards those of the batch by the momentum, leaves every other weight alone and normalizes by the moments of the batch; an inference call, or a call of a frozen layer, writes nothing and uses the stored moments of the same channel.", "quantifier": "all equations, sizes, normalize_axes, momenta, weights, inputs and numbers of training calls", "why_tests_cant": "all axis orders and histories", "anchors": ["src/hgq/layers/table/dense.py::QEinsumDenseT"]}
{"id": "C118", "title": "quantized_bits and quantized_relu keep their arguments", "statement": "quantized_relu called with arguments of its signature is quantized_bits with the same arguments and keep_negative=False; an object rebuilt from its config or from its text has the widths, flags, scaler, constraints and kind of quantizer of the original; texts of both names are accepted.", "quantifier": "all positional and keyword arguments, widths, scalers, texts", "why_tests_cant": "all calls and all widths", "anchors": ["src/qkeras/quantizers/quantized_bits.py::quantized_bits", "src/qkeras/quantizers/quantized_bits.py::quantized_relu", "src/qkeras/quantizers/__init__.py::get_quantizer", "src/qkeras/quantizers/frozen_quantizer.py::FrozenFixedPointQuantizer", "src/qkeras/quantizers/utils.py::parse_string_to_args"]}
{"id": "C119", "title": "How tensors are passed does not matter", "statement": "A layer called in training or tracing reports the EBOPs of the tensors it works on, whether they are passed positionally or by keyword, and a call that works at inference works in training.", "quantifier": "all layers, all shapes, all splits of the arguments into positional and keyword", "why_tests_cant": "all calls and shapes", "anchors": ["src/hgq/layers/core/base.py::QLayerMeta", "src/hgq/layers/attn/mha.py::QMultiHeadAttention", "src/hgq/layers/attn/linformer.py::QLinformerAttention", "src/hgq/layers/rnn/simple_rnn.py::QRNN"]}
{"id": "C120", "title": "The reported EBOPs belong to the current bit widths", "statement": "After trace_minmax (and after training) the reported total is the cost of the model at the bit widths it has now, with every use of a layer charged, as in the loss.", "quantifier": "all models, batches, effects of data and optimizer on the widths", "why_tests_cant": "all histories of calls and steps", "anchors": ["src/hgq/layers/core/base.py::QLayerMeta", "src/hgq/utils/minmax_trace.py::trace_minmax", "src/hgq/utils/sugar/ebops.py::FreeEBOPs"]}
{"id": "C121", "title": "Constructor arguments arrive", "statement": "An argument given to a layer, attention, callback or frozen-quantizer constructor - named in its signature or passed through **kwargs - reaches, with the user's value, either the class of the library that uses it or the constructor of Keras or the base layer; arguments not given arrive with the default of the class called; nothing else arrives, and unknown arguments are not swallowed.", "quantifier": "every class built on gather_vars_to_kwargs, every set of arguments with any values, every depth of the class hierarchy", "why_tests_cant": "arguments are collected from the local variables of a frame by a regular expression; tests cover the few arguments they pass", "anchors": ["src/hgq/utils/misc.py::gather_vars_to_kwargs", "src/hgq/layers/attn/mha.py::QMultiHeadAttentionT", "src/hgq/layers/attn/linformer.py::QLinformerAttentionT", "src/hgq/layers/conv.py::QConv1D"]}
{"id": "C122", "title": "The config of a built layer can be reused at another shape", "statement": "A layer made from the config of a built layer (get_config/from_config, clone_model, reload), possibly several times over, behaves on every input shape like a layer made from the arguments the user gave: it reports the same EBOPs, reduces over the same axes, computes the same equation, accepts the same inputs.", "quantifier": "every layer with a parallelization factor, axes, an equation or input configs; every history of builds, configs and shapes; every cost", "why_tests_cant": "build writes resolved values into attributes that get_config saves; a test of one layer at one shape sees none of it", "anchors": ["src/hgq/layers/core/dense.py::QDense", "src/hgq/layers/conv.py::QBaseConv", "src/hgq/layers/pooling.py::QBasePooling", "src/hgq/layers/rnn/simple_rnn.py::QRNN", "src/hgq/layers/ops/accum.py::QSum", "src/hgq/layers/softmax.py::QSoftmax", "src/hgq/layers/ops/einsum.py::QEinsum", "src/hgq/layers/core/base.py::QLayerBaseMultiInputs"]}
{"id": "C123", "title": "Every sample uses its own mask", "statement": "With a mask per sample (padding masks, attention_mask with a batch axis), what an attention layer, or a whole model, gives for a sample of a batch is what it gives on this sample alone with its own mask: samples do not see each other's masks, reordering a batch together with its masks reorders the results, the valid steps of a padded sequence do not depend on what stands behind its end, causal masks per sample keep the model causal, and tracing or converting the model with the mask of a sample reproduces exactly that sample of the batch.", "quantifier": "every attention layer and model of such layers, every batch size, sequence lengths, masks per sample, weights, tables, bit widths, inputs, selection of samples", "why_tests_cant": "Tests use one mask and a few samples; leaks between samples or from padding show only for particular masks, scores and values.", "anchors": ["src/hgq/layers/attn/mha.py::QMultiHeadAttention", "src/hgq/layers/softmax.py::QSoftmax", "src/hgq/_dais_tracer/layers/attn.py::ReplayMHA"]}
{"id": "C124", "title": "Padding does not change the valid steps", "statement": "The same attention layer gives the same results at the valid steps of a sequence whether the sequence is fed alone, without a mask, or padded to any greater length with any contents, with a mask that hides the padding, in a batch with any other sequences: neither the amount of padding, nor its contents, nor the other samples have an influence, bit for bit.", "quantifier": "every attention layer on sequences, every length and amount of padding, contents of padding, masks of the valid steps, batch, weights, tables, bit widths, inputs", "why_tests_cant": "Tests pad by one amount; the influence of padding depends on the scores (maximum in the stable softmax, sum of exponentials after quantization), the amount of padding and its contents.", "anchors": ["src/hgq/layers/attn/mha.py::QMultiHeadAttention", "src/hgq/layers/softmax.py::QSoftmax"]}
{"id": "C125", "title": "Masked steps of a recurrent layer are skipped", "statement": "A recurrent or spiking layer called with a mask treats the masked steps of a sample as if they were not there: its last output and state are those of the same layer, without a mask, on the steps of this sample that are not masked, alone; with return_sequences every output is that of the steps seen so far. Contents and number of the masked steps and the other samples have no influence, bit for bit.", "quantifier": "every recurrent or spiking layer, direction and kind of output, every mask of every sample, batch, number of steps, initial state, weights, bit widths, inputs", "why_tests_cant": "Tests mask one tail of one sequence; a state that leaks through a masked step shows only for some masks, directions, initial states and quantizer settings.", "anchors": ["src/hgq/layers/rnn/simple_rnn.py::QRNN", "src/hgq/layers/rnn/simple_rnn.py::QSimpleRNN", "src/hgq/layers/rnn/gru.py::QGRU", "src/hgq/layers/snn/base.py::_QSNN"]}
{"id": "C126", "title": "The progress bar counts the epochs of the current training", "statement": "With PBar as a callback, after any number of earlier trainings the bar shows how many epochs of the current one are done out of those asked for, with the entries of the last log and the EBOPs if there are any and they are not disabled; the bar of every earlier training was closed with its own count.", "quantifier": "every sequence of calls of fit, numbers of epochs asked for and run, logs, templates", "why_tests_cant": "Tests run one training; what is left in the callback between trainings depends on how the earlier ones ended.", "anchors": ["src/hgq/utils/sugar/pbar.py::PBar"]}
