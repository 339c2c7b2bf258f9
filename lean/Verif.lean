import Verif.Core
import Verif.CoreLemmas
import Verif.Loops
import Verif.LoopLemmas
import Verif.Chop
import Verif.Model.Kernel
import Verif.Model.Dims
import Verif.Model.PackOb
import Verif.Model.KFirst
import Verif.Proofs.Kernel
import Verif.Proofs.Strip
import Verif.Proofs.RegTiles
import Verif.Proofs.Dims
import Verif.Proofs.PackK
import Verif.Proofs.SchedK
import Verif.Spec
import Verif.Model.MFirst
import Verif.Model.NFirst
import Verif.Model.Sgemm
import Verif.Proofs.Driver
import Verif.Proofs.Exact
import Verif.Proofs.SgemmK
import Verif.Props.Demo
import Verif.Props.KFirst
import Verif.Proofs.Shared
import Verif.Proofs.PackSh
import Verif.Proofs.SchedM
import Verif.Proofs.SchedN
import Verif.Proofs.SgemmS
import Verif.Proofs.Undef
import Verif.Proofs.SgemmMN
import Verif.Props.Prepack
import Verif.Props.Slack
import Verif.Props.MFirst
import Verif.Proofs.RaceN
import Verif.Props.NFirst
import Verif.Model.Dispatch
import Verif.Model.Grid
import Verif.Model.Util
import Verif.Proofs.Align
import Verif.Props.Kernel
import Verif.Props.Grid
import Verif.Props.Checker
import Verif.Model.Transpose
import Verif.Props.Transpose
import Verif.Props.Dims
import Verif.Proofs.PackCK
import Verif.Proofs.PackRun
import Verif.Props.Pack
import Verif.Props.AlphaBeta
import Verif.Model.CacheDims
import Verif.Model.Double
import Verif.Proofs.Nearest
import Verif.Props.FloatCeil
import Verif.Proofs.CacheDims
import Verif.Props.CacheDims
import Verif.Proofs.Refute
import Verif.Proofs.Api
import Verif.Props.Api
import Verif.Props.Error
import Verif.Proofs.Serp
import Verif.Props.Serpentine
import Verif.Model.Blis
import Verif.Proofs.Blis
import Verif.Proofs.SgemmTest
import Verif.Props.Blis
import Verif.Proofs.Partial
import Verif.Model.Online
import Verif.Proofs.Block
import Verif.Proofs.Online
import Verif.Proofs.OnlineNeeds
import Verif.Proofs.Readable
import Verif.Model.SharedVar
import Verif.Props.Online
import Verif.Model.TwoD
import Verif.Proofs.GridBlock
import Verif.Proofs.TwoD
import Verif.Proofs.TwoDDims
import Verif.Proofs.TwoDNeeds
import Verif.Props.TwoD
import Verif.Proofs.TwoDSmall
import Verif.Proofs.TwoDSmallNeeds
import Verif.Props.TwoDSmall
import Verif.Model.IntRange
import Verif.Proofs.IntRange
import Verif.Props.IntRange
import Verif.Model.Unpacked
import Verif.Model.Sparse
import Verif.Proofs.Unpacked
import Verif.Proofs.Sparse
import Verif.Props.Unpacked
import Verif.Props.Sparse
import Verif.Model.Linear
import Verif.Props.Linear
import Verif.Model.TwoDApi
import Verif.Proofs.TwoDTiles
import Verif.Props.TwoDApi
import Verif.Model.Detect
import Verif.Proofs.Detect
import Verif.Props.Detect
import Verif.Model.PackMulti
import Verif.Props.PackMulti
import Verif.Proofs.Gaps
import Verif.Proofs.PackCN
import Verif.Model.PackAsm
import Verif.Proofs.PackAsm
import Verif.Props.PackAsm
import Verif.Model.KernelArm
import Verif.Proofs.KernelArm
import Verif.Props.KernelArm
import Verif.Model.IntRangeMN
import Verif.Proofs.IntRangeMN
import Verif.Props.IntRangeMN
import Verif.Model.IntRangeOn
import Verif.Proofs.IntRangeOn
import Verif.Props.IntRangeOn
import Verif.Model.IntRangeSmall
import Verif.Proofs.IntRangeSmall
import Verif.Props.IntRangeSmall
import Verif.Model.Random
import Verif.Model.Autotune
import Verif.Props.Random
import Verif.Props.Autotune
import Verif.ConvSpec
import Verif.Model.Conv
import Verif.Proofs.Acc
import Verif.Proofs.ConvPack
import Verif.Proofs.Conv
import Verif.Proofs.ConvNeeds
import Verif.Proofs.Im2col
import Verif.Props.Conv
import Verif.Model.Gemv
import Verif.Proofs.GemvKernel
import Verif.Proofs.Gemv
import Verif.Proofs.GemvNeeds
import Verif.Props.Gemv
import Verif.Proofs.UserTiles
import Verif.Proofs.UserTilesNeg
import Verif.Props.UserTiles
import Verif.Proofs.UserTilesMN
import Verif.Proofs.UserTilesMNNeg
import Verif.Props.UserTilesMN
import Verif.Proofs.WrongKernel
import Verif.Props.WrongKernel
import Verif.Model.OnlineApi
import Verif.Props.OnlineApi
import Verif.Model.SelfTest
import Verif.Props.SelfTest
import Verif.Model.Concurrent
import Verif.Model.LibCall
import Verif.Proofs.Concurrent
import Verif.Proofs.Footprint
import Verif.Proofs.Alias
import Verif.Props.Concurrent
import Verif.Props.Local
import Verif.Model.OutOfMem
import Verif.Proofs.OutOfMem
import Verif.Props.OutOfMem
import Verif.Model.Checked
import Verif.Proofs.Checked
import Verif.Proofs.CheckedOk
import Verif.Proofs.CheckedPos
import Verif.Props.Checked
import Verif.Model.CheckedMN
import Verif.Proofs.CheckedMN
import Verif.Proofs.CheckedMNOk
import Verif.Proofs.CheckedMNRun
import Verif.Proofs.CheckedMNPos
import Verif.Props.CheckedMN
import Verif.Model.Api32
import Verif.Proofs.Api32
import Verif.Props.Api32
import Verif.Model.Api32All
import Verif.Proofs.Api32All
import Verif.Props.Api32All
import Verif.Model.Unused
import Verif.Proofs.Unused
import Verif.Props.Unused
import Verif.Proofs.AlignMore
import Verif.Props.AlignMore
import Verif.Props.Metamorphic
import Verif.Proofs.BlockOrder
import Verif.Props.EqualRows
import Verif.Proofs.OutOfMemGrid
import Verif.Props.OutOfMemGrid
import Verif.Model.CheckedOn
import Verif.Proofs.CheckedOn
import Verif.Props.CheckedOn
import Verif.Model.Checked2d
import Verif.Proofs.Checked2d
import Verif.Props.Checked2d
import Verif.Proofs.Work
import Verif.Proofs.WorkAll
import Verif.Props.Work
import Verif.Proofs.Traffic
import Verif.Props.Traffic
import Verif.Proofs.TrafficOn
import Verif.Props.TrafficOn
import Verif.Model.CheckedSmall
import Verif.Proofs.CheckedSmall
import Verif.Props.CheckedSmall
import Verif.Proofs.Transposed
import Verif.Props.Transposed
import Verif.Model.GemvInner
import Verif.Proofs.GemvInner
import Verif.Props.GemvInner
import Verif.Model.Bench
import Verif.Proofs.Bench
import Verif.Props.Bench
import Verif.Proofs.WideKernel
import Verif.Props.WideKernel
import Verif.Model.Clamp
import Verif.Props.Clamp
