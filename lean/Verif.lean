import Verif.Props.FixedPoint
import Verif.Props.Trace
import Verif.Props.Mapper
import Verif.Props.Wrapper
import Verif.Props.Config
import Verif.Props.ConfigSugar
import Verif.Props.Scope
import Verif.Props.Constraints
import Verif.Props.Dataset
import Verif.Props.Schedule
import Verif.Props.Pid
import Verif.Props.Callbacks
import Verif.Props.Ebops
import Verif.Props.EbopsLayers
import Verif.Props.Layers
import Verif.Props.LayersPow2
import Verif.Props.Spiking
import Verif.Props.Rnn
import Verif.Props.Replay
import Verif.Props.Graph
import Verif.Props.LayerMeta
import Verif.Props.Qkeras
import Verif.Props.Salt
import Verif.Props.ReplayOps
import Verif.Props.ReplayOps2
import Verif.Props.Table
import Verif.Props.Attn
import Verif.Props.BnState
import Verif.Props.Causal
import Verif.Props.LayerConfig
import Verif.Props.Instantiate
import Verif.Props.SharedConfig
import Verif.Props.SharedMapper
import Verif.Props.Float32
import Verif.Props.NetTrace
import Verif.Props.EndToEnd
import Verif.Props.Params
import Verif.Props.FloatQ
import Verif.Props.TraceResults
import Verif.Props.EinsumDense
import Verif.Props.PoolEbops
import Verif.Props.RestEbops
import Verif.Props.SpikeF32
import Verif.Props.EndToEndF32
import Verif.Props.EbopsGrad
import Verif.Props.SpikeGrad
import Verif.Props.Batching
import Verif.Props.Alkaid
import Verif.Props.KerasOps
import Verif.Props.MhaArr
import Verif.Props.TableArr
import Verif.Props.BatchingX
import Verif.Props.AlkaidX
import Verif.Props.RnnValues
import Verif.Props.EinsumTLayers
import Verif.Props.AttnT
import Verif.Props.AttnMask
import Verif.Props.CausalModel
import Verif.Props.Stochastic
import Verif.Props.Patches
import Verif.Props.EinsumTBn
import Verif.Props.QkerasConfig
import Verif.Props.ConvEbops
import Verif.Props.CallConv
import Verif.Props.EbopsReport
import Verif.Props.Gelu
import Verif.Props.NetTraceKbi
import Verif.Props.CtorArgs
import Verif.Props.ConfigReuse
import Verif.Props.CausalRate
import Verif.Props.SampleMask
import Verif.Props.PadInv
import Verif.Props.RnnMask
import Verif.Props.ProgressBar
