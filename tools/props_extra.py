def extend(p):
    p('Scope options take effect or are rejected',
      'Every keyword accepted by QuantizerConfigScope changes the configs created inside the scope for the named types that have that parameter; other keywords are rejected.',
      'every keyword list, types, places and current defaults', 'all keyword combinations', 'src/hgq/quantizer/config.py::QuantizerConfigScope.__init__', 'src/hgq/quantizer/config.py::all_quantizer_keys')
    p('One-element input list',
      'Passing the single input of a model as a one-element list or tuple gives the same Dataset as passing the array itself.',
      'every array', 'all data lengths', 'src/hgq/utils/dataset.py::Dataset.__init__')
    p('BetaPID never aborts a training',
      'For every sequence of measured EBOPs (including zero) no BetaPID callback raises.',
      'every run and EBOPs history', 'all histories', 'src/hgq/utils/sugar/beta_pid.py::BetaPID.on_epoch_begin')
    p('Convolution EBOPs equal the executed products',
      'For every convolution (geometry, padding, parallelization factor) the reported EBOPs is the sum, over the products executed per unrolled position, of input bits times kernel bits, plus the bits of every bias addition, and is proportional to the parallelization factor.',
      'every geometry, bitwidth assignment and parallelization factor', 'all shapes and bitwidths', 'src/hgq/layers/conv.py::QBaseConv._compute_ebops')
    p('Recurrent EBOPs equal steps times the cost of one step',
      'The EBOPs reported for a QSimpleRNN or QGRU over T steps is T (or the unrolled parallel factor) times the EBOPs of one step, and one step counts every kernel product and every bias entry.',
      'every sequence length, unit number and bitwidth assignment', 'all shapes and bitwidths', 'src/hgq/layers/rnn/simple_rnn.py::QSimpleRNN._compute_ebops', 'src/hgq/layers/rnn/gru.py::QGRUCell._compute_ebops')
    p('Accumulator, merge and table EBOPs are sane',
      'The EBOPs of sums, element-wise merges and table layers is never negative and never decreases when any input or output bitwidth increases.',
      'every bitwidth assignment', 'all bitwidth arrays', 'src/hgq/layers/ops/accum.py::QSum._compute_ebops', 'src/hgq/layers/ops/merge.py::QMerge._compute_ebops', 'src/hgq/layers/table/dense.py::QDenseT._compute_ebops')
    p('QDot EBOPs equal the executed products',
      'The EBOPs of a QDot layer is the sum over the executed scalar products of the products of the two bitwidths.',
      'every pair of shapes, axes and bitwidths', 'all shapes and bitwidths', 'src/hgq/layers/ops/merge.py::QDot._compute_ebops')
    p('Quantized weights read from a recurrent layer are current',
      'Reading qkernel, qrecurrent_kernel or qbias of a recurrent cell (as the hardware export does) returns the quantized value of the current weights, after every history of calls, including failed ones, and weight updates.',
      'every history of weight updates, successful and failing calls and reads', 'all histories', 'src/hgq/layers/rnn/simple_rnn.py::QSimpleRNNCell.qkernel', 'src/hgq/layers/rnn/simple_rnn.py::QRNN.call', 'src/hgq/_alkaid_keras_plugin/rnn.py::_QSimpleRNN')
    p('Symbolic patch extraction',
      'Tracing a convolution or pooling gathers exactly the patches Keras extracts, for every geometry and padding value.',
      'every image, geometry, padding value', 'all image sizes and geometries', 'src/hgq/_dais_tracer/layers/conv.py::symbolic_extract_patches_3d')
    p('Traced softmax equals the layer',
      'For every mask, stable or not, and all exponential and inverse tables, the traced QSoftmax gives the values of the layer.',
      'every input, mask and table', 'all inputs and masks', 'src/hgq/_dais_tracer/layers/activation.py::ReplayQSoftmax', 'src/hgq/_alkaid_keras_plugin/activation.py::_QSoftmax')
    p('Traced pooling equals the layer',
      'Traced max pooling is the maximum, and average pooling the mean, of the entries of the window that are inside the image.',
      'every window and image', 'all values', 'src/hgq/_dais_tracer/layers/pool.py::ReplayPool')
    p('EBOPs loss is added exactly once per training call',
      'Whatever layers of whatever classes were created before, one training call of a layer with EBOPs enabled adds its beta times EBOPs loss exactly once.',
      'every class hierarchy and every order of layer creation', 'all creation histories', 'src/hgq/layers/core/base.py::QLayerMeta', 'src/hgq/layers/ops/accum.py::QMeanPow2', 'src/hgq/layers/attn/linformer.py::QLinformerAttention.call')
    p('Importing the QKeras layer compatibility module changes nothing for HGQ layers',
      'A layer constructed through hgq.layers resolves its enable flags in the same way whether or not qkeras.qlayers has been imported.',
      'every global configuration and argument combination', 'all flag combinations', 'src/qkeras/qlayers/__init__.py::qkeras_layer_wrap')
    p('QKeras keyword names map one-to-one',
      'A QKeras layer constructor accepts a keyword dictionary exactly if no two keywords mean the same parameter, and then the layer receives every given value under its canonical name.',
      'every keyword dictionary', 'all keyword combinations', 'src/qkeras/qlayers/__init__.py::qkeras_layer_wrap')
    p('quantized_bits survives its own string form',
      'For every quantized_bits q, quantized_bits.from_string(str(q)) has the same bits, integer, flags and alpha.',
      'every quantized_bits', 'all parameter values', 'src/qkeras/quantizers/quantized_bits.py::quantized_bits.__str__', 'src/qkeras/quantizers/utils.py::parse_string_to_args')
    p('Structural operations are traced sample by sample',
      'Tracing a reshape, flatten, concatenation, repetition, transposition, axis move, subscript, sum over axes or element-wise merge (with broadcasting over different ranks) computes, for every sample of a batch, exactly the entries Keras computes for that sample.',
      'every array, shape, axis argument and sample', 'all shapes, ranks and axes', 'src/hgq/_dais_tracer/layers/ops.py::ReplayReshape', 'src/hgq/_dais_tracer/layers/ops.py::ReplayMerge', 'src/hgq/_dais_tracer/layers/ops.py::ReplayTranspose', 'src/hgq/_dais_tracer/layers/ops.py::ReplayRepeatVector')
    p('Traced dot products equal the layer',
      'Tracing Dot or QDot of two inputs along given axes gives the shape and the values of the Keras layer for every pair of ranks.',
      'every pair of shapes and axes', 'all ranks and values', 'src/hgq/_dais_tracer/layers/ops.py::ReplayEinsum', 'src/hgq/_alkaid_keras_plugin/ops.py::_QEinsum')
    p('Traced global pooling equals the layer',
      'Tracing a global average or max pooling gives, for each channel, the mean or the maximum over all spatial positions, for each data format and with or without keepdims.',
      'every image shape, data format and value', 'all shapes and values', 'src/hgq/_dais_tracer/layers/pool.py::ReplayPool')
    p('Traced table layers equal the layer',
      'Tracing QDenseT or a table convolution replaces each input-output network by a lookup table which, for every quantized input value, every network depth, activation, batch normalization setting and mixture of table sizes, returns the value of the layer.',
      'every input, network and bitwidth assignment', 'all inputs and weights', 'src/hgq/_dais_tracer/layers/table.py::ReplayDenseTable', 'src/hgq/_alkaid_keras_plugin/table.py::_QDenseTable', 'src/hgq/layers/table/dense.py::QDenseT.call')
    p('QEinsumDenseT computes the einsum with tables',
      'For every equation accepted by QEinsumDenseT, each output entry is the activation of the sum over all values of the contracted labels of the table at the kernel coordinates applied to the input entry at the input coordinates.',
      'every equation, shape, table and input', 'all equations and shapes', 'src/hgq/layers/table/dense.py::QEinsumDenseT.build', 'src/hgq/layers/table/dense.py::QEinsumDenseT.call', 'src/hgq/_alkaid_keras_plugin/table.py::_QEinsumDenseTable')
    p('Activations inside traced tables are the Keras activations',
      'The numpy functions used to fill traced tables have the values of the Keras activations at every point.',
      'every activation with a numpy version and every real input', 'all real inputs', 'src/hgq/_dais_tracer/layers/table.py::keras_act_to_numpy', 'src/hgq/_alkaid_keras_plugin/table.py::keras_act_to_numpy')
    p('Attention axes',
      'QMultiHeadAttention computes its output for every selection of attention axes Keras accepts, and its softmax and quantizers are built for the shape the scores have.',
      'every number and size of sequence axes and every list of attended axes', 'all shapes and axis lists', 'src/hgq/layers/attn/mha.py::QMultiHeadAttention._build_attention')
    p('Attention EBOPs equal the executed products',
      'The EBOPs of an attention layer, apart from its projections and softmax, are the sum over all executed scalar products, for the scores and for the output, of the product of the bit widths of both factors, and never exceed that of the fully parallel implementation.',
      'every shape, attention axes, bit widths and parallelization factor', 'all shapes and bit widths', 'src/hgq/layers/attn/mha.py::QMultiHeadAttention._compute_ebops')
    p('Attention masks in traced models',
      'For every combination of query, value, key, causal and attention masks, a traced attention layer lets exactly the pairs of positions through that Keras lets through.',
      'every combination and content of masks and all sequence lengths', 'all masks and lengths', 'src/hgq/_dais_tracer/layers/attn.py::ReplayMHA._compute_attention_mask', 'src/hgq/_alkaid_keras_plugin/attn.py::_QMHA._compute_attention_mask')
    p('Traced attention equals the layer',
      'Tracing QMultiHeadAttention with fuse none, kv or qkv gives the value of the layer at every position for every input, kernel, bias, quantizer, table and mask.',
      'every attention layer configuration and input', 'all inputs, weights and masks', 'src/hgq/_dais_tracer/layers/attn.py::_fused_qkv_proj', 'src/hgq/_dais_tracer/layers/attn.py::ReplayMHA.call', 'src/hgq/layers/attn/mha.py::QMultiHeadAttention.call')
    p('Frozen batch norm',
      'A batch normalisation layer with trainable=False behaves as in inference, whatever the training flag: it uses and keeps its running statistics.',
      'every history of calls, batches, flags and stored statistics', 'all histories and batches', 'src/hgq/layers/batch_normalization.py::QBatchNormalization.call', 'src/hgq/layers/core/dense.py::QBatchNormDense.call', 'src/hgq/layers/einsum_dense_batchnorm.py::QEinsumDenseBatchnorm.call')
    p('Running statistics',
      'After any history of calls the stored mean and variance are the exponential moving averages of the batch means and variances of the training calls only; the variance never becomes negative and the mean stays within the range of the batch means.',
      'every history of training, inference and calibration calls', 'all histories', 'src/hgq/layers/batch_normalization.py::QBatchNormalization.call', 'src/hgq/layers/core/dense.py::QBatchNormDense.call', 'src/hgq/layers/einsum_dense_batchnorm.py::QEinsumDenseBatchnorm.call')
    p('Training-mode normalisation',
      'In a training call the outputs of a batch normalisation layer, before quantization, have mean beta and variance gamma^2 * var/(var+eps).',
      'every batch, kernel, gamma, beta, epsilon and stored statistics', 'all batches', 'src/hgq/layers/batch_normalization.py::QBatchNormalization.call', 'src/hgq/layers/core/dense.py::QBatchNormDense.get_fused_qkernel_and_qbias')
    p('Causal convolution',
      'QConv1D with padding causal computes the causal convolution of its quantized input: ceil(T/stride) outputs, none depending on later inputs, in inference and in training, and calling it does not change the layer.',
      'every kernel, dilation, stride, input length, input, quantizer and history of calls', 'all inputs and call histories', 'src/hgq/layers/conv.py::QConv1D.call', 'src/hgq/layers/conv.py::QBaseConv._compute_ebops')
    p('Layer config round trip',
      'A layer rebuilt from its saved config has every attribute the original had, whatever the constructor arguments and whatever global configuration and quantizer scope is active when saving and when loading; rebuilding on the same shape keeps the parallelization factor.',
      'every layer class, every set of constructor arguments, every pair of scopes', 'all arguments and all save/load scopes', 'src/hgq/layers/core/base.py::QLayerBase.get_config', 'src/hgq/layers/core/base.py::QLayerBase.from_config', 'src/hgq/layers/core/dense.py::QDense.get_config', 'src/hgq/layers/pooling.py::QBasePooling', 'src/hgq/layers/einsum_dense_batchnorm.py::QEinsumDenseBatchnorm', 'src/hgq/layers/rnn/simple_rnn.py::QSimpleRNN', 'src/hgq/layers/rnn/gru.py::QGRUCell', 'src/hgq/layers/snn/base.py::_QSNN')
    p('Accepted configs yield quantizers',
      'Every quantizer config that is accepted with legal values can be turned into a quantizer, which has exactly the values and axes of the config; keywords given to Quantizer directly reach either the config or the layer, none is lost.',
      'every quantizer type, place, set of keywords and values', 'all keyword combinations', 'src/hgq/quantizer/config.py::QuantizerConfig.get_quantizer', 'src/hgq/quantizer/internal/base.py::TrainableQuantizerBase', 'src/hgq/quantizer/internal/fixed_point_quantizer.py::FixedPointQuantizerKBI', 'src/hgq/quantizer/internal/fixed_point_quantizer.py::FixedPointQuantizerKIF', 'src/hgq/quantizer/internal/float_point_quantizer.py::FloatPointQuantizer', 'src/hgq/quantizer/quantizer.py::Quantizer.get_quantizer_config_kwargs')
    p('Sharing a quantizer config',
      'Giving one QuantizerConfig object to several layers is safe: constructing a layer changes neither what another layer saves nor the quantizers another layer gets, whatever the order of construction.',
      'every history of layer constructions, every assignment of config objects to places, every config content', 'all construction histories', 'src/hgq/layers/softmax.py::QSoftmax', 'src/hgq/layers/activation.py::QUnaryFunctionLUT', 'src/hgq/layers/core/base.py::QLayerBase.get_config', 'src/hgq/quantizer/quantizer.py::Quantizer')
    p('Sharing a bit-width mapper',
      'Giving one bit-width mapper to several quantizers (through a config or a scope) gives each the bit-width shape it would get from a mapper of its own, whatever was built before.',
      'every axis specification and every history of built shapes', 'all build histories', 'src/hgq/quantizer/internal/base.py::DefaultBitwidthMapper.inference_weight_shape', 'src/hgq/quantizer/internal/base.py::check_axis')
    p('The float32 forward pass is exact',
      'Running a quantized dense model in float32 gives, bit for bit, the values of exact fixed-point arithmetic (what the hardware computes), whatever the order in which the backend adds, as long as every accumulator fits into 24 bits.',
      'every float32 input, every set of formats and weights, every order and association of the sums, fused or not, every number of layers', 'all inputs, all summation orders', 'src/hgq/layers/core/dense.py::QDense.call', 'src/hgq/quantizer/internal/fixed_point_quantizer.py::FixedPointQuantizerBase.call')
    p('Calibration makes the whole model overflow-free on its data',
      'After trace_minmax, running the model on any batch of the calibration data gives, at every node, exactly the values seen while tracing; so the values returned with return_results=True are those of the calibrated model and no quantizer overflows on calibration data.',
      'every model graph (any number of layers, shared quantizers, arbitrary operations between them), every state, every list of batches, with and without reset', 'all graphs, all data sets and batchings; later batches must not invalidate what earlier batches established', 'src/hgq/utils/minmax_trace.py::trace_minmax', 'src/hgq/utils/minmax_trace.py::_reset_minmax', 'src/hgq/quantizer/internal/fixed_point_quantizer.py::FixedPointQuantizerKIF.call')
    p('The traced model equals the Keras model, sample by sample',
      'Tracing a functional model symbolically (trace_model) and evaluating the result on the inputs of one sample gives, for every output and every intermediate operation, exactly the numbers the Keras model computes for that sample inside any batch at inference; for a quantized layer this holds for every recorded stage (post_iq, post_call, post_oq, final).',
      'every acyclic model graph of quantizers, quantized dense/convolution/merge/sum/batch-normalization/table/pooling/softmax/einsum layers, ReLUs, PReLUs, reshapes, concatenations, repeats, moved axes and subscripts, every bit width tensor, every batch and sample', 'all graphs, shapes, widths and inputs: the composition of all layer replays, which no list of test models covers', 'src/hgq/_dais_tracer/main.py::_trace_model', 'src/hgq/_dais_tracer/layers/_base.py::ReplayOperationBase', 'src/hgq/_dais_tracer/layers/_base.py::mirror_quantizer', 'src/hgq/layers/core/base.py::QLayerBase')
    p('Quantized parameters are not wrapped',
      'Whatever sequence of optimizer steps, calls and calibrations a model has seen, the quantized kernel or bias its layers use at inference is the stored parameter rounded to the precision of its quantizer: it is never wrapped around, keeps its sign, and lies in the range the quantizer reports.',
      'every history of optimizer steps (any new parameter values and widths), layer calls with any training flag and calibration resets, every rounding mode, kif and kbi quantizers with overflow_mode WRAP (the default of biases)', 'all histories: the integer bits of a WRAP quantizer lag behind the parameters, so a test sees only the histories it runs', 'src/hgq/quantizer/internal/fixed_point_quantizer.py::FixedPointQuantizerKIF', 'src/hgq/quantizer/internal/fixed_point_quantizer.py::FixedPointQuantizerKBI', 'src/hgq/layers/core/dense.py::QDense', 'src/hgq/utils/minmax_trace.py::trace_minmax', 'src/hgq/quantizer/config.py::kbi_bias_default')
    p('The minifloat quantizer reports its own format',
      'A float quantizer with m mantissa bits, e exponent bits and exponent offset e0 reports as max, min and epsilon exactly the largest, smallest and smallest positive number of the documented format (IEEE 754 with subnormals, without infinities and NaNs), and as bits the width that counts its numbers; its outputs lie in that range, numbers of the format are unchanged, values beyond it saturate, and a pruned cell (m = -1) costs no bits.',
      'every value of the trained variables m, e, e0 (rounded to integers), every input', 'all widths and offsets: formulas with powers of powers of two that tests only sample', 'src/hgq/quantizer/internal/float_point_quantizer.py::FloatPointQuantizer', 'src/hgq/quantizer/config.py::float_weight_default')
    p('Outputs returned by trace_minmax',
      'trace_minmax(model, data, return_results=True) returns, for every output of the model, one array whose row j is the output on sample j of the data, for every batch size.',
      'every number of batches and batch sizes, every number and shape of the model outputs, every dataset', 'all batchings and output structures', 'src/hgq/utils/minmax_trace.py::trace_minmax', 'src/hgq/utils/dataset.py::Dataset')
    p('Parallel positions of an einsum layer',
      'For every equation EinsumDense accepts and every input shape, the number of positions at which QEinsumDense (and QEinsumDenseT) applies one kernel is the product of the sizes of the non-batch input axes that stay in the output and do not occur in the kernel; hence with homogeneous input widths the EBOPs for parallelization_factor=p are p times the cost of one kernel application, with the default factor the cost of all executed products plus the bias width of every output element; a free axis of unknown size is rejected when the layer is built.',
      'every equation without, with leading or with trailing ellipsis, every rank, every axis size, all widths and factors', 'all equations and shapes', 'src/hgq/layers/core/einsum_dense.py::_einsum_free0_size', 'src/hgq/layers/core/einsum_dense.py::QEinsumDense')
    p('EBOPs of pooling layers',
      'The EBOPs a pooling layer reports are the bits of all inputs read by all executed windows: with parallelization_factor <= 0 for every output position, with a factor p in proportion p to the number of output positions; for global pooling the bits of all inputs; in any number of dimensions and both paddings.',
      'every pool size, stride, padding, size and number of axes, all bit widths, channels and factors', 'all geometries, sizes and widths', 'src/hgq/layers/pooling.py::QBasePooling')
    p('EBOPs of batch normalization',
      'A QBatchNormalization layer reports, for every element of a sample, the product of the input bits and the scale bits of its channel plus the offset bits of its channel.',
      'every shape, every normalised axis, all bit widths', 'all shapes, axes and widths', 'src/hgq/layers/batch_normalization.py::QBatchNormalization')
    p('EBOPs of softmax',
      'A QSoftmax layer reports, for every row it normalises, the subtraction from the maximum (stable only), the accumulation of the exponentials, one product per entry, and the tables; with parallelization_factor=p the share p / number of rows of that.',
      'every shape, every set of axes, all bit widths, every factor, stable or not', 'all shapes, axes and widths', 'src/hgq/layers/softmax.py::QSoftmax', 'src/hgq/layers/activation.py::QUnaryFunctionLUT')
    p('EBOPs of spiking layers',
      'A spiking layer reports, for every unit and every time step (or parallelization_factor of them), the cost of leak, input addition, threshold comparison, spike scaling and reset, with a membrane wide enough for the sum over the sequence or as wide as the state quantizer.',
      'every number of units and steps, every bit width, reset mechanism and factor', 'all sizes and widths', 'src/hgq/layers/snn/base.py::QSimpleSNNCell', 'src/hgq/layers/snn/base.py::QLIFCell', 'src/hgq/layers/snn/base.py::_QSNN')
    p('Spikes are exact in float32',
      'The spiking cells emit exactly 0 or exactly the graded spike factor in float32, although the surrogate of the gradient is subtracted and added back: a unit fires exactly if its membrane value exceeds the threshold. If the accumulators fit into 24 bits and the quantizers are exact, whole sequences of QSimpleSNN and QLIF are computed in float32 exactly as in exact arithmetic, and exactly as by the hardware replay.',
      'every float32 membrane value, threshold, alpha and factor; every sequence, number of units, reset mechanism, inhibition, fused or separate multiply-add; any arctan implementation with bounded results', 'all float32 numbers and all sequences', 'src/hgq/layers/snn/base.py::ATan', 'src/hgq/layers/snn/base.py::QSimpleSNNCell', 'src/hgq/layers/snn/base.py::QLIFCell', 'src/hgq/layers/snn/base.py::LIFCell')
    p('The float32 Keras model is bit-exact with the traced model',
      'For a functional model of quantized layers (dense, convolution, einsum, merges, sums, batch normalization, pooling, softmax, tables), quantizers, ReLUs and structural operations: if every accumulator fits into 24 bits and every quantizer is exact on what it receives, the results Keras computes in float32 on a batch — in any order of summation, fused or not — are, sample by sample and for every intermediate tensor, exactly the results of the traced hardware program.',
      'every acyclic model of these layers, every batch, every order and association of every sum chosen by the backend', 'all models, batches and summation orders', 'src/hgq/_dais_tracer/main.py::_trace_model', 'src/hgq/quantizer/quantizer.py::Quantizer', 'src/hgq/layers/core/dense.py::QDense', 'src/hgq/layers/conv.py::QConv2D', 'src/hgq/layers/core/einsum_dense.py::QEinsumDense')
    p('The EBOPs loss and the bit-width regularizers only push bit widths down',
      'Training a model on its EBOPs losses and MonoL1 regularizers alone never raises a trainable bit-width variable, keeps it within its constraint, and (as long as the data do not raise the integer bits of WRAP quantizers) never raises the EBOPs of any layer; the derivative used for each bit width is the derivative of the documented cost at the current integer widths, it is never negative, and it is zero for a pruned cell.',
      'every layer type and size, every assignment of cells to elements, every state of the widths, every optimizer that moves against a non-negative combination of past gradients, every schedule of beta, any number of steps', 'all states, optimizers and numbers of steps', 'src/hgq/layers/core/base.py::QLayerMeta', 'src/hgq/layers/core/dense.py::QDense', 'src/hgq/quantizer/internal/fixed_point_quantizer.py::FixedPointQuantizerKIF', 'src/hgq/quantizer/internal/fixed_point_quantizer.py::FixedPointQuantizerKBI', 'src/hgq/quantizer/internal/base.py::round_conv', 'src/hgq/regularizers/__init__.py::MonoL1', 'src/hgq/constraints/__init__.py::MinMax')
    p('Surrogate gradients of spiking cells',
      'The surrogate gradient never changes what a spiking cell computes; the derivative it propagates is the slope of the documented arc-tangent curve at the distance to the threshold (positive, at most alpha/2, largest exactly at the threshold), none passes when surrogates are disabled, and training through any number of time steps carries derivatives by at most beta per step: with the default detached reset the derivative of the membrane is the leaky sum of those of the inputs.',
      'every input sequence of any length, every state, every alpha, decay, threshold and spike factor, with and without inhibition', 'all sequences and lengths', 'src/hgq/layers/snn/base.py::ATan', 'src/hgq/layers/snn/base.py::SpikingNeuralCell', 'src/hgq/layers/snn/base.py::LIFCell')
    p('Predictions do not depend on how samples are batched',
      'At inference a model gives for any selection of the samples of a batch (a subset, another order, repetitions) exactly the selection of what it gives for the whole batch: predictions do not depend on the batch size, on the order, or on which other samples are in the batch.',
      'every functional model of the modelled layers (any acyclic graph, shared layers), every batch, every selection of samples', 'all models, batches and selections', 'src/hgq/quantizer/quantizer.py::Quantizer', 'src/hgq/quantizer/internal/base.py::DefaultBitwidthMapper', 'src/hgq/layers/core/base.py::QLayerMeta', 'src/hgq/layers/softmax.py::QSoftmax', 'src/hgq/layers/batch_normalization.py::QBatchNormalization')
    p('A model converted by the Alkaid plugin computes what the Keras model computes',
      'For every functional model and every sample, the model converted through the Alkaid plugin, fed with this sample as a batch of one, gives exactly this sample of the output of the Keras model on any batch containing it; for a quantized layer the recorded stages post_iq and final are the quantized inputs and the output of Keras.',
      'every functional model of the modelled layers (any acyclic graph, shared layers), every batch, every sample of it', 'all models, batches and samples', 'src/hgq/_alkaid_keras_plugin/_base.py::mirror_quantizer', 'src/hgq/_alkaid_keras_plugin/_base.py::QLayerMixin', 'src/hgq/_alkaid_keras_plugin/ops.py::_QReduction', 'src/hgq/_alkaid_keras_plugin/ops.py::_QAveragePow2', 'src/hgq/_alkaid_keras_plugin/ops.py::_QEinsum', 'src/hgq/_alkaid_keras_plugin/activation.py::_QSoftmax', 'src/hgq/_alkaid_keras_plugin/activation.py::_QFunctionLUT', 'src/hgq/_alkaid_keras_plugin/core.py::ReplayQuantizer')
    p('Arithmetic, reductions, matrix products and reshapes of tensors are traced sample by sample',
      'For keras.ops add, subtract, multiply, divide, maximum, minimum, sum, max, min, matmul, dot, reshape, ravel and the Reshape layer in a functional model, on tensors and constants: whenever Keras computes the operation on a batch, the tracer, given one sample of every tensor argument, gives this sample of the result.',
      'every operation, every shape, batch size, constant, target shape (with -1), every sample', 'all shapes, values and target shapes', 'src/hgq/_dais_tracer/layers/ops.py::ReplayArithmetic', 'src/hgq/_dais_tracer/layers/ops.py::ReplayReduction', 'src/hgq/_dais_tracer/layers/ops.py::ReplayMatmul', 'src/hgq/_dais_tracer/layers/ops.py::ReplayReshape', 'src/hgq/_dais_tracer/main.py::replace_tensors')
    p('Models with attention layers are traced exactly',
      'For every functional model with QMultiHeadAttention, QLinformerAttention and QSALTAttention layers among the other supported layers: whenever Keras computes the model on a batch, tracing each sample succeeds and gives, for every tensor, exactly this sample of what Keras computes, whether the projections are fused or not, with or without mask.',
      'every graph of layers, every number of sequence axes, heads and head sizes, every weight, bit width, mask, batch and sample', 'all models, shapes and inputs', 'src/hgq/layers/attn/mha.py::QMultiHeadAttention', 'src/hgq/layers/attn/linformer.py::QLinformerAttention', 'src/hgq/layers/attn/salt.py::QSALTAttention', 'src/hgq/_dais_tracer/layers/attn.py::ReplaySALTAttention', 'src/hgq/_dais_tracer/layers/attn.py::ReplayMHA', 'src/hgq/_dais_tracer/layers/attn.py::ReplayQLinformerAttention', 'src/hgq/_dais_tracer/layers/attn.py::_fused_qkv_proj', 'src/hgq/_dais_tracer/layers/activation.py::ReplayQSoftmax')
    p('Models with table layers are traced exactly',
      'For every functional model with QDenseT, QConvT1D and QConvT2D layers among the other supported layers: if the tracer knows, for every pair of input and output, a range and step that holds the quantized input, then whenever Keras computes the model on a batch, tracing each sample succeeds and gives, for every tensor, exactly this sample of what Keras computes. Knowing the range of the input quantizer is enough. A table layer outputs, for every output, the sum over the inputs of the quantized network of the pair at the input quantized for the pair.',
      'every graph of layers, every number of inputs and outputs, every network, bit width, rounding and overflow mode, patch geometry, batch and sample', 'all models, shapes and inputs', 'src/hgq/layers/table/dense.py::QDenseT', 'src/hgq/layers/table/conv.py::QConvT1D', 'src/hgq/layers/table/conv.py::QConvT2D', 'src/hgq/_dais_tracer/layers/table.py::ReplayDenseTable', 'src/hgq/_dais_tracer/layers/table.py::ReplayConvTable')
    p('Models with attention and table layers converted by the Alkaid plugin',
      'For every functional model with QMultiHeadAttention, QLinformerAttention, QSALTAttention, QDenseT, QConvT1D and QConvT2D layers among the other supported layers: whenever Keras computes the model on a batch, the model converted by the Alkaid plugin computes on each sample of the batch and its outputs are exactly this sample of the outputs of Keras. Table layers need a known range and step that holds their (quantized) input; attention layers need input quantizers unless all projections are fused, and fused projections need the same tensor.',
      'every graph of layers, every batch and sample, number of heads, sizes, bit width, rounding and overflow mode, mask, network of the tables and patch geometry', 'all models, shapes and inputs', 'src/hgq/_alkaid_keras_plugin/attn.py::_QMHA', 'src/hgq/_alkaid_keras_plugin/attn.py::_QLinformerAttention', 'src/hgq/_alkaid_keras_plugin/attn.py::ReplaySALTAttention', 'src/hgq/_alkaid_keras_plugin/table.py::_QDenseTable', 'src/hgq/_alkaid_keras_plugin/table.py::_QConvTable', 'src/hgq/_alkaid_keras_plugin/activation.py::_QSoftmax')
    p('Models with recurrent and spiking layers converted by the Alkaid plugin',
      'For every functional model with QSimpleRNN, QGRU, QSimpleSNN and QLIF layers among the other supported layers: Keras computes, for every sample of a batch of sequences, the recurrence of the cell from a zero or the given initial state, forwards or backwards; and the model converted by the Alkaid plugin gives on each sample of the batch exactly this sample of the outputs of Keras - sequences, last outputs and states.',
      'every graph of layers, every batch and sample, sequence length, number of units, weights, activation, bit width, rounding and overflow mode, reset mechanism, lateral inhibition and position of the reset gate', 'all models, lengths, shapes and inputs', 'src/hgq/_alkaid_keras_plugin/rnn.py::_QSimpleRNN', 'src/hgq/_alkaid_keras_plugin/rnn.py::_QGRU', 'src/hgq/_alkaid_keras_plugin/snn.py::_QSNNReplay', 'src/hgq/layers/rnn/simple_rnn.py::QSimpleRNN', 'src/hgq/layers/rnn/gru.py::QGRU', 'src/hgq/layers/snn/base.py::QLIF')
    p('Models with QEinsumDenseT layers converted by the Alkaid plugin',
      'For every functional model with QEinsumDenseT layers among the other supported layers: Keras computes at every output position the (rectified, quantized) sum over the contracted labels of the small network of the pair, batch-normalized and quantized, applied to the quantized input; and the model converted by the Alkaid plugin gives on each sample of a batch exactly this sample of the outputs of Keras.',
      'every graph of layers, every batch and sample, equation, sizes, number and width of hidden layers, weights, biases, batch normalization over any axes, bit width, rounding and overflow mode', 'all equations, models, shapes and inputs', 'src/hgq/layers/table/dense.py::QEinsumDenseT', 'src/hgq/layers/table/dense.py::QEinsumDenseT._build_module', 'src/hgq/layers/table/dense.py::QEinsumDenseT._apply_batch_norm', 'src/hgq/_alkaid_keras_plugin/table.py::_QEinsumDenseTable')
    p('Models with table attention converted by the Alkaid plugin',
      'For every functional model with QMultiHeadAttentionT and QLinformerAttentionT layers (projections by tables, along the sequence by tables or dense layers) among the other supported layers, the model converted by the Alkaid plugin gives on each sample of a batch exactly this sample of the outputs of Keras.',
      'every graph of layers, every batch and sample, number of sequence axes and heads, weights, mask, bit width, rounding and overflow mode', 'all models, shapes and inputs', 'src/hgq/layers/attn/mha.py::QMultiHeadAttentionT', 'src/hgq/layers/attn/linformer.py::QLinformerAttentionT', 'src/hgq/_alkaid_keras_plugin/attn.py::_QMHAT', 'src/hgq/_alkaid_keras_plugin/attn.py::_QLinformerAttentionT')
    p('Masked positions do not influence attention',
      'For every attention layer called with a mask, the output at a query position depends only on the query at this position and on the keys and values at the positions that the mask lets it see: any change of the inputs elsewhere, of any size, leaves the output exactly as it was.',
      'every mask, layer, weights, number of sequence axes and heads, bit width, rounding and overflow mode, and every pair of batches that agree on what is visible', 'two runs on any pair of inputs', 'src/hgq/layers/attn/mha.py::QMultiHeadAttention._compute_attention', 'src/hgq/layers/attn/mha.py::QMultiHeadAttention.call', 'src/hgq/layers/attn/mha.py::QMultiHeadAttentionT', 'src/hgq/layers/softmax.py::QSoftmax.call')
    p('Causal models do not look ahead',
      'In every functional model of layers that do not look ahead (attention with use_causal_mask=True, Conv1D with padding=causal, recurrent layers that run forwards and return sequences, layers that act on each time step), the outputs up to time T depend only on the inputs up to time T.',
      'every graph of layers, every time T, weights, bit width, and every pair of batches that agree up to time T', 'two runs on any pair of inputs, of any length', 'src/hgq/layers/attn/mha.py::QMultiHeadAttention.call', 'src/hgq/layers/conv.py::QConv1D', 'src/hgq/layers/rnn/simple_rnn.py::QRNN', 'src/hgq/layers/core/dense.py::QDense')
    p('Stochastic rounding',
      'With round_mode S_RND or S_RND_CONV, every training result is one of the two representable neighbours of the input whatever the random numbers are, its mean over the random numbers is the input (inside the range), representable inputs do not change, the range fitted in training holds the results and the inputs at inference; outside training the random numbers have no influence and the quantizer is that of RND or RND_CONV.',
      'every input, format, overflow mode, training flag, quantizer state and every sequence of random numbers', 'all random numbers; means over a continuous distribution', 'src/hgq/quantizer/internal/fixed_point_quantizer.py::FixedPointQuantizerBase.call', 'src/hgq/quantizer/internal/fixed_point_quantizer.py::FixedPointQuantizerKIF.call', 'src/hgq/quantizer/internal/fixed_point_quantizer.py::FixedPointQuantizerKBI.call')
    p('Geometry of traced convolutions, pooling and patches',
      'A traced QConv1D/2D/3D, windowed pooling layer or extract_patches operation has, for every kernel size, stride, dilation, padding and data format, the output shape of the Keras layer, and its value at every output position and channel is the convolution (greatest entry, mean, window) over the zero-extended sample at the positions p*stride + k*dilation - padding.',
      'one to three spatial axes of every size; all kernel sizes, strides, dilations, paddings, data formats, kernels, biases, inputs', 'all geometries and images', 'src/hgq/_dais_tracer/layers/conv.py::symbolic_extract_patches', 'src/hgq/_dais_tracer/layers/conv.py::ReplayQConv', 'src/hgq/_dais_tracer/layers/conv.py::ReplayExtractPatches', 'src/hgq/_dais_tracer/layers/pool.py::ReplayPool')
    p('Batch normalization of QEinsumDenseT in training',
      'A training call of QEinsumDenseT with batch normalization moves the stored mean and variance of each channel towards those of the batch by the momentum, leaves every other weight alone and normalizes by the moments of the batch; an inference call, or a call of a frozen layer, writes nothing and uses the stored moments of the same channel.',
      'all equations, sizes, normalize_axes, momenta, weights, inputs and numbers of training calls', 'all axis orders and histories', 'src/hgq/layers/table/dense.py::QEinsumDenseT')
    p('quantized_bits and quantized_relu keep their arguments',
      'quantized_relu called with arguments of its signature is quantized_bits with the same arguments and keep_negative=False; an object rebuilt from its config or from its text has the widths, flags, scaler, constraints and kind of quantizer of the original; texts of both names are accepted.',
      'all positional and keyword arguments, widths, scalers, texts', 'all calls and all widths', 'src/qkeras/quantizers/quantized_bits.py::quantized_bits', 'src/qkeras/quantizers/quantized_bits.py::quantized_relu', 'src/qkeras/quantizers/__init__.py::get_quantizer', 'src/qkeras/quantizers/frozen_quantizer.py::FrozenFixedPointQuantizer', 'src/qkeras/quantizers/utils.py::parse_string_to_args')
    p('How tensors are passed does not matter',
      'A layer called in training or tracing reports the EBOPs of the tensors it works on, whether they are passed positionally or by keyword, and a call that works at inference works in training.',
      'all layers, all shapes, all splits of the arguments into positional and keyword', 'all calls and shapes', 'src/hgq/layers/core/base.py::QLayerMeta', 'src/hgq/layers/attn/mha.py::QMultiHeadAttention', 'src/hgq/layers/attn/linformer.py::QLinformerAttention', 'src/hgq/layers/rnn/simple_rnn.py::QRNN')
    p('The reported EBOPs belong to the current bit widths',
      'After trace_minmax (and after training) the reported total is the cost of the model at the bit widths it has now, with every use of a layer charged, as in the loss.',
      'all models, batches, effects of data and optimizer on the widths', 'all histories of calls and steps', 'src/hgq/layers/core/base.py::QLayerMeta', 'src/hgq/utils/minmax_trace.py::trace_minmax', 'src/hgq/utils/sugar/ebops.py::FreeEBOPs')
    p('Constructor arguments arrive',
      "An argument given to a layer, attention, callback or frozen-quantizer constructor - named in its signature or passed through **kwargs - reaches, with the user's value, either the class of the library that uses it or the constructor of Keras or the base layer; arguments not given arrive with the default of the class called; nothing else arrives, and unknown arguments are not swallowed.",
      'every class built on gather_vars_to_kwargs, every set of arguments with any values, every depth of the class hierarchy', 'arguments are collected from the local variables of a frame by a regular expression; tests cover the few arguments they pass', 'src/hgq/utils/misc.py::gather_vars_to_kwargs', 'src/hgq/layers/attn/mha.py::QMultiHeadAttentionT', 'src/hgq/layers/attn/linformer.py::QLinformerAttentionT', 'src/hgq/layers/conv.py::QConv1D')
    p('The config of a built layer can be reused at another shape',
      'A layer made from the config of a built layer (get_config/from_config, clone_model, reload), possibly several times over, behaves on every input shape like a layer made from the arguments the user gave: it reports the same EBOPs, reduces over the same axes, computes the same equation, accepts the same inputs.',
      'every layer with a parallelization factor, axes, an equation or input configs; every history of builds, configs and shapes; every cost', 'build writes resolved values into attributes that get_config saves; a test of one layer at one shape sees none of it', 'src/hgq/layers/core/dense.py::QDense', 'src/hgq/layers/conv.py::QBaseConv', 'src/hgq/layers/pooling.py::QBasePooling', 'src/hgq/layers/rnn/simple_rnn.py::QRNN', 'src/hgq/layers/ops/accum.py::QSum', 'src/hgq/layers/softmax.py::QSoftmax', 'src/hgq/layers/ops/einsum.py::QEinsum', 'src/hgq/layers/core/base.py::QLayerBaseMultiInputs')
    p('Every sample uses its own mask',
      "With a mask per sample (padding masks, attention_mask with a batch axis), what an attention layer, or a whole model, gives for a sample of a batch is what it gives on this sample alone with its own mask: samples do not see each other's masks, reordering a batch together with its masks reorders the results, the valid steps of a padded sequence do not depend on what stands behind its end, causal masks per sample keep the model causal, and tracing or converting the model with the mask of a sample reproduces exactly that sample of the batch.",
      'every attention layer and model of such layers, every batch size, sequence lengths, masks per sample, weights, tables, bit widths, inputs, selection of samples', 'Tests use one mask and a few samples; leaks between samples or from padding show only for particular masks, scores and values.', 'src/hgq/layers/attn/mha.py::QMultiHeadAttention', 'src/hgq/layers/softmax.py::QSoftmax', 'src/hgq/_dais_tracer/layers/attn.py::ReplayMHA')
    p('Padding does not change the valid steps',
      'The same attention layer gives the same results at the valid steps of a sequence whether the sequence is fed alone, without a mask, or padded to any greater length with any contents, with a mask that hides the padding, in a batch with any other sequences: neither the amount of padding, nor its contents, nor the other samples have an influence, bit for bit.',
      'every attention layer on sequences, every length and amount of padding, contents of padding, masks of the valid steps, batch, weights, tables, bit widths, inputs', 'Tests pad by one amount; the influence of padding depends on the scores (maximum in the stable softmax, sum of exponentials after quantization), the amount of padding and its contents.', 'src/hgq/layers/attn/mha.py::QMultiHeadAttention', 'src/hgq/layers/softmax.py::QSoftmax')
    p('Masked steps of a recurrent layer are skipped',
      'A recurrent or spiking layer called with a mask treats the masked steps of a sample as if they were not there: its last output and state are those of the same layer, without a mask, on the steps of this sample that are not masked, alone; with return_sequences every output is that of the steps seen so far. Contents and number of the masked steps and the other samples have no influence, bit for bit.',
      'every recurrent or spiking layer, direction and kind of output, every mask of every sample, batch, number of steps, initial state, weights, bit widths, inputs', 'Tests mask one tail of one sequence; a state that leaks through a masked step shows only for some masks, directions, initial states and quantizer settings.', 'src/hgq/layers/rnn/simple_rnn.py::QRNN', 'src/hgq/layers/rnn/simple_rnn.py::QSimpleRNN', 'src/hgq/layers/rnn/gru.py::QGRU', 'src/hgq/layers/snn/base.py::_QSNN')
    p('The progress bar counts the epochs of the current training',
      'With PBar as a callback, after any number of earlier trainings the bar shows how many epochs of the current one are done out of those asked for, with the entries of the last log and the EBOPs if there are any and they are not disabled; the bar of every earlier training was closed with its own count.',
      'every sequence of calls of fit, numbers of epochs asked for and run, logs, templates', 'Tests run one training; what is left in the callback between trainings depends on how the earlier ones ended.', 'src/hgq/utils/sugar/pbar.py::PBar')
