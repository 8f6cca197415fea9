#!/usr/bin/env python3
"""Generates /verif/properties.jsonl (single source of the property list)."""
import json, os
Q='src/hgq/quantizer/internal/fixed_point_quantizer.py'
B='src/hgq/quantizer/internal/base.py'
W='src/hgq/quantizer/quantizer.py'
CFG='src/hgq/quantizer/config.py'
P=[]
def p(title, statement, quantifier, why, *anchors):
    P.append(dict(id=f'C{len(P)+1:02d}', title=title, statement=statement, quantifier=quantifier,
                  why_tests_cant=why, anchors=list(anchors)))

p('Fixed-point output is always a representable value',
  'Calling a built fixed-point Quantizer (kif or kbi, WRAP/SAT/SAT_SYM, any deterministic rounding mode) outside training returns, for every input element, an integer multiple of 2^-f lying in the interval [min, max] that the quantizer itself reports.',
  'every real input, every k in {0,1}, every integer i and f with k+i+f>0, all overflow and rounding modes',
  'the input and bit-width spaces are unbounded; a test samples finitely many of them',
  f'{Q}::FixedPointQuantizerBase.call', f'{Q}::FixedPointQuantizerBase.min', f'{Q}::FixedPointQuantizerBase.max')
p('Quantizing twice equals quantizing once',
  'Applying a fixed-point quantizer to its own inference output returns that output unchanged.',
  'every real input, every k,i,f, all overflow and rounding modes (also for zero or negative total width)',
  'idempotence must hold at every rounding tie and every wrap boundary',
  f'{Q}::FixedPointQuantizerBase.call')
p('Rounding error bound inside the range',
  'For an input whose rounded value is within [min,max], inference output differs from the input by at most half of epsilon (RND, RND_CONV) or lies in (x-epsilon, x] (TRN); ties go up for RND and to the even multiple for RND_CONV.',
  'every real input in range, every k,i,f',
  'ties and range edges form infinite families',
  f'{Q}::FixedPointQuantizerBase.call', f'{Q}::FixedPointQuantizerBase.epsilon')
p('Saturation returns the nearest end of the range and is monotone',
  'With SAT or SAT_SYM an input above max maps to max, below min maps to min, and a larger input never produces a smaller output.',
  'every pair of real inputs, every k,i,f',
  'monotonicity is a statement over all pairs of inputs',
  f'{Q}::FixedPointQuantizerBase.call')
p('WRAP is exact modular arithmetic',
  'With WRAP the inference output is congruent to the rounded input modulo 2^(k+i) and equals the rounded input exactly when the rounded input is in [min,max].',
  'every real input, every k,i,f with k+i+f>0',
  'wrap-around distance is unbounded',
  f'{Q}::FixedPointQuantizerBase.call')
p('min, max, epsilon describe exactly the reachable outputs',
  'The set of values a fixed-point quantizer can output at inference is exactly the set of multiples of epsilon in [min,max]; it has 2^(k+i+f) elements for SAT and WRAP and 2^(k+i+f)-k for SAT_SYM; the log2 of that count never exceeds fbits.',
  'every k in {0,1}, every integer i,f with i+f>=0 and k+i+f>0',
  'counting the whole output set for every width is not a sample-able claim',
  f'{Q}::FixedPointQuantizerBase.fbits', f'{Q}::FixedPointQuantizerBase.bits', f'{Q}::FixedPointQuantizerBase.min', f'{Q}::FixedPointQuantizerBase.max')
p('Zero-width channels are pruned at inference',
  'If k+i+f<=0 for an element, the inference output for that element is 0 whatever the input and whatever the mode.',
  'every real input, every k,i,f with k+i+f<=0',
  'unbounded inputs and widths', f'{Q}::FixedPointQuantizerBase.call')
p('Calibration makes the calibration set overflow-free (kif)',
  'After trace_minmax(reset=True) on any finite sequence of batches, inference of a WRAP kif quantizer on any value that occurred in calibration equals plain rounding at f (no wrap, sign kept), provided the constraint on i does not bind from above.',
  'every finite sequence of batches of reals, every f, every rounding mode, every order of batches',
  'quantifies over whole calibration histories',
  f'{Q}::FixedPointQuantizerKIF.call', 'src/hgq/utils/minmax_trace.py::trace_minmax', f'{Q}::minimal_i_given_xf')
p('Calibration does not waste integer bits',
  'The integer width produced by calibrating a kif quantizer is the least one under which no calibration value exceeds max in magnitude; equivalently lowering it by one makes some calibration value exceed max.',
  'every non-empty finite calibration history, every f',
  'minimality is a claim about all smaller widths and all histories',
  f'{Q}::minimal_i_given_xf', f'{Q}::FixedPointQuantizerKIF.call')
p('Calibration is independent of batching and order',
  'The calibrated i and k of a kif quantizer depend only on the multiset (indeed the set) of values seen, not on how they were split into batches or ordered, and re-tracing with reset=False on data already seen changes nothing.',
  'every two batch sequences with the same elements', 'all permutations and splits',
  f'{Q}::FixedPointQuantizerKIF.call', 'src/hgq/utils/minmax_trace.py::trace_minmax')
p('Calibration makes the calibration set overflow-free (kbi)',
  'After trace_minmax on any finite sequence of batches, inference of a WRAP kbi quantizer on any calibration value equals plain rounding with the final f=b-i.',
  'every finite sequence of batches, every b allowed by the default constraint MinMax(0,24)',
  'quantifies over histories; fails only in a thin set of inputs for b>=23',
  f'{Q}::FixedPointQuantizerKBI.call', f'{Q}::minimal_i_given_xb', f'{CFG}::kbi_datalane_default')
p('Training step never leaves the range behind',
  'After one training step on a batch the stored i of a WRAP quantizer is at least the minimum needed by that batch and at least the previous i minus the decay, and is exactly the larger of the two when unconstrained.',
  'every state, every batch, every decay speed', 'history dependent',
  f'{Q}::FixedPointQuantizerKIF.call', f'{Q}::FixedPointQuantizerKBI.call')
p('User constraint on i is honoured while training',
  'After a training step of a WRAP quantizer the stored i satisfies the user-supplied constraint ic.',
  'every state, batch, decay and MinMax/Min/Max constraint', 'needs all batches whose magnitude exceeds the constraint',
  f'{Q}::FixedPointQuantizerKIF.call', f'{Q}::FixedPointQuantizerKBI.call')
p('Training flag dispatch',
  'trace_minmax runs the model such that quantizers calibrate but nothing behaves as in training: the flag it passes is false in a boolean test, equals "tracing", and is not the literal True; only True trains, and False/None leave every quantizer state unchanged.',
  'every quantizer state, every input, the four flag values', 'state preservation must hold for all states',
  'src/hgq/utils/minmax_trace.py::TrainingFlagWrapper', f'{Q}::FixedPointQuantizerKIF.call', f'{Q}::FixedPointQuantizerKBI.call')
p('Bit-width tensor shape and axis resolution',
  'For any input shape and any valid axis list, the bit-width tensor has the input rank, equals the input size on heterogeneous axes and 1 elsewhere, broadcasts to the input shape, and heterogeneous_axis and homogeneous_axis partition all axes; negative axes mean counting from the end; axes out of range are rejected.',
  'every rank, shape and axis list', 'unbounded ranks and axis lists',
  f'{B}::DefaultBitwidthMapper.inference_weight_shape', f'{B}::check_axis')
p('Each bit-width cell is calibrated by exactly the elements that use it',
  'The reduction used for calibration assigns to each bit-width cell the maximum magnitude (and sign presence) over precisely those input elements that read that cell when quantized.',
  'every shape, axis list and tensor', 'all shapes and positions',
  f'{B}::DefaultBitwidthMapper.x_to_bw_absmax', f'{B}::DefaultBitwidthMapper.x_to_bw_sign', f'{B}::DefaultBitwidthMapper.bw_to_x')
p('Scaler, affine and quantization-noise semantics of Quantizer',
  'At inference Quantizer(scaler=s, affine=(a,b)) computes a*s*q(x/s)+b; with qnoise_factor=r in training it interpolates between the unquantized input (r=0) and the fully quantized value (r=1).',
  'every input, non-zero s, a, b, r in [0,1]', 'interaction of three options over all values',
  f'{W}::Quantizer.call')
p('Hardware replay of a quantizer equals the Keras quantizer',
  'Replaying a Quantizer through the DAIS/Alkaid tracer gives the same number as Quantizer at inference for every input.',
  'every input, every scaler, affine, k,i,f (within int8), modes', 'must hold bit-exactly for all inputs',
  'src/hgq/_dais_tracer/layers/_base.py::mirror_quantizer', 'src/hgq/_alkaid_keras_plugin/_base.py::mirror_quantizer', f'{W}::Quantizer.call')
p('HardTanhConfig and HardSigmoidConfig ranges',
  'A quantizer built from HardTanhConfig outputs values in [-1, 1-2^-f] ([-1+2^-f,1-2^-f] if symmetric) and from HardSigmoidConfig in [0,1), and both are monotone in the input.',
  'every input and every f', 'all reals', f'{CFG}::HardTanhConfig', f'{CFG}::HardSigmoidConfig')
p('Quantizer config survives serialization',
  'from_config(get_config()) of QuantizerConfig, HardTanhConfig, HardSigmoidConfig yields a config with the same type, place, parameters, scaler, affine and noise factor.',
  'every accepted constructor argument set and every default table at load time', 'arbitrary overrides and arbitrary default tables',
  f'{CFG}::QuantizerConfig.get_config', f'{CFG}::QuantizerConfig.from_config', f'{CFG}::HardTanhConfig.get_config', f'{CFG}::HardSigmoidConfig.get_config')
p('Unknown or conflicting quantizer options are rejected',
  'QuantizerConfig accepts a keyword only if it is a parameter of the selected type, never ends with both axis lists set by the user, and an accepted config reflects every keyword the user passed and the current default for the rest.',
  'every keyword set, type, place and default table', 'all keyword combinations', f'{CFG}::QuantizerConfig.__init__')
p('QuantizerConfigScope restores the defaults on exit',
  'For any properly nested sequence of scopes (distinct scope objects), with arbitrary code creating configs inside and exceptions included, the default tables after the outermost exit equal those before the outermost enter; inside, the innermost scope wins for the keys, types and places it names and nothing else changes.',
  'every nesting depth and every scope arguments', 'unbounded nesting', f'{CFG}::QuantizerConfigScope')
p('Re-entering one scope object',
  'Using the same QuantizerConfigScope (or LayerConfigScope) object in two nested with-statements also restores the defaults.',
  'every default table and scope', 'depends on aliasing history', f'{CFG}::QuantizerConfigScope', 'src/hgq/config/layer.py::LayerConfigScope')
p('Configs created in a scope do not leak and are not affected later',
  'A QuantizerConfig built from the defaults is a snapshot: later scopes, overrides or changes of the defaults do not change it, and changing it does not change the defaults or other configs.',
  'every history of scope/config operations', 'aliasing over all histories', f'{CFG}::QuantizerConfig.__init__', f'{CFG}::QuantizerConfigScope')
p('LayerConfigScope restores the global layer config',
  'For any nesting of distinct LayerConfigScope objects the global layer configuration after exit equals that before enter, including removal of keys that did not exist before.',
  'every nesting and keyword set', 'unbounded nesting', 'src/hgq/config/layer.py::LayerConfigScope')
p('Scope completes i0, f0, b0 consistently',
  'If exactly two of i0,f0,b0 are given to a QuantizerConfigScope the third is derived so that b0=i0+f0; otherwise nothing is changed.',
  'every combination of numbers', 'unbounded', f'{CFG}::QuantizerConfigScope.__init__')
p('Bit-width constraints are projections',
  'MinMax, Min, Max and Constant map every weight into their admissible set, leave admissible weights unchanged and are idempotent and monotone.',
  'every weight and every bounds with min<=max', 'all reals', 'src/hgq/constraints/__init__.py')
p('Dataset batches partition the data',
  'With drop_last=False the batches of an unshuffled Dataset, in index order, concatenate to exactly the data in order (each sample once, targets aligned); with drop_last=True all batches have exactly batch_size samples and together give one contiguous block of floor(n/batch_size)*batch_size samples; negative indices count from the end and any other out-of-range index raises.',
  'every data length, batch size, flag, random draw and history of epochs/re-batching', 'infinite family of lengths and histories', 'src/hgq/utils/dataset.py::Dataset')
p('Shuffled Dataset epochs are permutations',
  'With shuffle=True every epoch visits each sample exactly once, x and y stay aligned, and the sequence of epochs never loses a sample.',
  'every sequence of epoch starts and every random permutation', 'all permutations and histories', 'src/hgq/utils/dataset.py::Dataset.on_epoch_end')
p('Beta schedule interpolation',
  'PieceWiseSchedule returns the first beta before the first key epoch, exactly beta_i at key epoch i, stays between the two neighbouring betas and is monotone between two key epochs, and is constant after the last.',
  'every sorted interval list and epoch', 'all schedules and epochs', 'src/hgq/utils/sugar/beta_scheduler.py::PieceWiseSchedule')
p('BetaPID keeps beta within its bounds',
  'At every epoch of every run the beta assigned by BetaPID lies in [min_beta,max_beta], is 0 in no epoch unless min_beta is 0, and BaseBetaPID never assigns a negative beta.',
  'every sequence of measured EBOPs', 'feedback over unbounded histories', 'src/hgq/utils/sugar/beta_pid.py::BetaPID', 'src/hgq/utils/sugar/beta_pid.py::BaseBetaPID')
p('BetaPID starts from the requested initial beta',
  'In the first epoch after warm-up (init_beta given) the assigned beta equals init_beta clamped to the bounds.',
  'every init_beta, gain and measured EBOPs', 'depends on real-valued feedback', 'src/hgq/utils/sugar/beta_pid.py::BetaPID.on_epoch_begin')
p('BetaPID drives beta in the right direction',
  'With non-negative gains, d=0, damping in [0,1] and min_beta>=0: for one and the same history a larger current EBOPs value never yields a smaller beta, and while EBOPs stay constant above (below) the target the controller output keeps rising (falling).',
  'every controller state, gain, bound and EBOPs value', 'all histories', 'src/hgq/utils/sugar/beta_pid.py::PID', 'src/hgq/utils/sugar/beta_pid.py::BetaPID.on_epoch_begin')
p('StopIf fires after the documented number of consecutive hits',
  'StopIf(patience=p) stops training exactly when its condition held on p consecutive checks, a miss resets the count.',
  'every sequence of condition outcomes', 'all histories', 'src/hgq/utils/sugar/stop_if.py::StopIf')
p('Early stopping respects the EBOPs threshold',
  'EarlyStoppingWithEbopsThres never requests a stop in an epoch whose EBOPs exceed the threshold, and otherwise behaves like keras EarlyStopping.',
  'every history of metrics and EBOPs', 'all histories', 'src/hgq/utils/sugar/early_stopping_ebops.py::EarlyStoppingWithEbopsThres')
p('ParetoFront keeps a Pareto front',
  'After any history the recorded points are mutually non-dominated, every checkpointed point seen is weakly dominated by a recorded one, and the files kept correspond one-to-one to the records.',
  'every sequence of metric vectors and sides', 'all histories and metric values', 'src/hgq/utils/sugar/pareto.py::ParetoFront')
p('All EBOPs totals agree',
  'The total EBOPs reported by FreeEBOPs/EarlyStoppingWithEbopsThres, trace_minmax and BetaPID agree for every model.',
  'every tree of layers', 'all model trees', 'src/hgq/utils/sugar/ebops.py::FreeEBOPs', 'src/hgq/utils/minmax_trace.py::trace_minmax', 'src/hgq/utils/sugar/beta_pid.py::BaseBetaPID.get_ebops', 'src/hgq/layers/attn/linformer.py::QLinformerAttention.ebops')
p('EBOPs of dense layers',
  'The EBOPs of QDense/QEinsumDense equal the sum over all multiplications executed of input bits times kernel bits (plus bias bits), are non-negative, monotone in every bit-width and scale linearly with parallelization_factor.',
  'every shape, bit-width assignment', 'all shapes and widths', 'src/hgq/layers/core/dense.py::QDense._compute_ebops', 'src/hgq/layers/core/einsum_dense.py::QEinsumDense._compute_ebops')
p('Batch-norm folding preserves the function',
  'QBatchNormalization at inference computes gamma*(x-mean)/sqrt(var+eps)+beta (with gamma=1 / beta=0 when scale/center is off) when scale and offset are represented exactly; the fused QBatchNormDense (whose statistics are those of its inputs) computes the dense layer applied to the normalised inputs, and QEinsumDenseBatchnorm computes the einsum followed by batch-norm with its own epsilon.',
  'every mean, variance, gamma, beta, kernel, bias, input', 'real parameters', 'src/hgq/layers/batch_normalization.py::QBatchNormalization', 'src/hgq/layers/core/dense.py::QBatchNormDense', 'src/hgq/layers/einsum_dense_batchnorm.py::QEinsumDenseBatchnorm')
p('Softmax structural guarantees',
  'For any tables, QSoftmax outputs exactly 0 at masked positions, applies exp only to non-negative arguments in stable mode, is invariant under adding a constant on an axis in stable mode (unmasked values staying at or above the -1e9 that encodes a masked position), and is permutation-equivariant on the axis.',
  'every input vector, mask and table functions', 'all vectors and tables', 'src/hgq/layers/softmax.py::QSoftmax.call')
p('Power-of-two mean layers',
  'QMeanPow2/QAveragePow2 multiply the sum by a power of two, which equals the true mean iff the number of summands is a power of two, and is otherwise within a factor sqrt(2) of it; QSum rejects non power-of-two scales.',
  'every number of summands', 'all sizes', 'src/hgq/layers/ops/accum.py::QMeanPow2', 'src/hgq/layers/ops/merge.py::QAveragePow2', 'src/hgq/layers/ops/accum.py::QSum')
p('QEinsum ellipsis expansion preserves the contraction',
  'For any equation with ellipsis accepted by QEinsum the expanded equation denotes the same contraction, in particular introduces no index already used elsewhere in the equation.',
  'every equation and rank', 'all equations', 'src/hgq/layers/ops/einsum.py::QEinsum.build')
p('Replay of grouped convolution',
  'The traced convolution (im2col and grouped einsum) equals the Keras grouped convolution for every group count.',
  'every channel count, group count, kernel, input', 'all shapes', 'src/hgq/_dais_tracer/layers/conv.py::ReplayQConv', 'src/hgq/_alkaid_keras_plugin/core.py::_QConv')
p('Fused attention projections split back correctly',
  'With fuse="qkv" or "kv" the traced attention layer recovers the same Q,K,V as separate projections for every accepted key_dim and value_dim.',
  'every head size and projection', 'all dims', 'src/hgq/_dais_tracer/layers/attn.py::_fused_qkv_proj', 'src/hgq/_alkaid_keras_plugin/attn.py::_fused_qkv_proj')
p('Trace keys are unique and the graph replay is faithful',
  'Tracing any acyclic model stores one entry per operation output without overwriting, evaluates each operation exactly once after its inputs, and returns the value the functional model computes.',
  'every model graph and layer naming', 'all graphs', 'src/hgq/_dais_tracer/main.py::_trace_model', 'src/hgq/_dais_tracer/main.py::MaybeRename')
p('Spiking cells: spike and reset semantics',
  'A SpikingNeuralCell emits 0 or its graded factor; it fires iff the membrane exceeds the threshold; subtract/zero/none reset act as documented; with inhibition at most one unit fires per sample.',
  'every membrane vector, threshold and factor', 'all reals and widths', 'src/hgq/layers/snn/base.py::SpikingNeuralCell')
p('Replay of spiking layers',
  'The traced SNN step (fire, inhibit, reset) equals the Keras cell for every membrane state over every sequence length.',
  'every input sequence', 'all sequences', 'src/hgq/_alkaid_keras_plugin/snn.py', 'src/hgq/layers/snn/base.py::QSimpleSNNCell')
p('Accumulator width of spiking layers suffices',
  'The accumulator width used for SNN EBOPs (input bits + ceil(log2 T)) can represent every membrane value reachable in T steps from the zero state.',
  'every T and every input sequence of the given width', 'all sequences', 'src/hgq/layers/snn/base.py::QSimpleSNNCell._accumulator_bits')
p('GRU state stays bounded',
  'With the default hard-sigmoid/hard-tanh quantizers the QGRU state stays in [-1,1) for every input sequence, starting from the zero state.',
  'every sequence length and input', 'unbounded sequences', 'src/hgq/layers/rnn/gru.py::QGRUCell.call')
p('RNN replay equals the Keras cell',
  'The traced QSimpleRNN/QGRU equals the Keras layer step by step for every sequence, direction and return option.',
  'every sequence', 'unbounded sequences', 'src/hgq/_alkaid_keras_plugin/rnn.py', 'src/hgq/layers/rnn/simple_rnn.py::QSimpleRNNCell.call', 'src/hgq/layers/rnn/gru.py::QGRUCell.call')
p('RNN weight cache is never stale',
  'Every call of a QRNN layer uses the quantized value of the current weights, including calls after an earlier call raised.',
  'every history of weight updates, successful and failing calls', 'all histories', 'src/hgq/layers/rnn/simple_rnn.py::QRNN.call', 'src/hgq/layers/rnn/simple_rnn.py::QSimpleRNNCell._set_weight_cache')
p('EBOPs enablement and layer wrapper',
  'A Q-layer computes EBOPs only if EBOPs are enabled and its input quantizer is; constructing or calling any layer with an allowed combination of enable_iq/enable_oq/enable_ebops never fails for that reason.',
  'every combination of flags and global defaults', 'all flag/global combinations and histories', 'src/hgq/layers/core/base.py::QLayerBase', 'src/hgq/layers/activation.py::QUnaryFunctionLUT')
p('quantized_bits callable equals the quantizer it configures',
  'Calling a quantized_bits object on an array returns what the quantizer built from it returns, and does not modify the array.',
  'every bits, integer, keep_negative, symmetric, alpha and input', 'all inputs', 'src/qkeras/quantizers/quantized_bits.py::quantized_bits.__call__')
p('Replay of ReLU variants',
  'The traced ReLU/LeakyReLU/PReLU equals the Keras layer on every fixed-point input.',
  'every grid value, threshold, slope, max_value', 'all grids', 'src/hgq/_dais_tracer/layers/activation.py::ReplayReLU')
p('SALT cluster padding',
  'QSALTAttention pads key and value to the smallest multiple of the projection size and the clustered projection runs for every sequence length.',
  'every sequence length and projection size', 'all sizes', 'src/hgq/layers/attn/salt.py::QSALTAttention')

try:
    from props_extra import extend  # later additions
    extend(p)
except ImportError:
    pass
if __name__ == '__main__':
    out = os.path.join(os.path.dirname(__file__), '..', 'properties.jsonl')
    with open(out, 'w') as fh:
        for x in P: fh.write(json.dumps(x, ensure_ascii=False) + '\n')
    print(len(P))
