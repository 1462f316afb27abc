import Verif.Base
import Verif.Model.Quantity
import Verif.Spec.Quantity
import Verif.Lemmas.Quantity
import Verif.Props.Quantity
import Verif.Spec.FlatMap
import Verif.Model.FlatMap
import Verif.Lemmas.FlatMap
import Verif.Lemmas.FlatMapMerge
import Verif.Lemmas.FlatMapFilter
import Verif.Props.FlatMap
import Verif.Spec.BTensor
import Verif.Model.BTensor
import Verif.Lemmas.Odometer
import Verif.Lemmas.BTensor
import Verif.Lemmas.Dense
import Verif.Props.BTensor
import Verif.Model.BTensorOps
import Verif.Lemmas.Gather
import Verif.Lemmas.Permute
import Verif.Props.BTensorOps
import Verif.Model.Tensordot
import Verif.Lemmas.Tensordot
import Verif.Lemmas.Contract
import Verif.Lemmas.Contract2
import Verif.Props.Tensordot
import Verif.Spec.Reshape
import Verif.Model.Reshape
import Verif.Lemmas.Reshape
import Verif.Lemmas.Reshape2
import Verif.Props.Reshape
import Verif.Spec.View
import Verif.Model.View
import Verif.Lemmas.View
import Verif.Props.View
import Verif.Props.Identity
import Verif.Props.IndexPut
import Verif.Model.Truncate
import Verif.Spec.Truncate
import Verif.Props.Truncate
import Verif.Model.DenseTools
import Verif.Props.DenseTools
import Verif.Spec.Mps
import Verif.Model.Mps
import Verif.Props.Mps
import Verif.Props.MoveOc
import Verif.Spec.Dmrg
import Verif.Model.Dmrg
import Verif.Lemmas.Dmrg
import Verif.Props.Dmrg
import Verif.Model.DmrgDense
import Verif.Props.DmrgDense
import Verif.Model.Lanczos
import Verif.Props.Lanczos
import Verif.Spec.Mpo
import Verif.Model.Models
import Verif.Lemmas.Mpo
import Verif.Props.Models
import Verif.Spec.RandomMps
import Verif.Spec.Broadcast
import Verif.Model.RandomMps
import Verif.Model.Broadcast
import Verif.Props.RandomString
import Verif.Props.RandomMps
import Verif.Lemmas.Broadcast
import Verif.Props.Broadcast
import Verif.Spec.Linalg
import Verif.Model.Linalg
import Verif.Model.BlockTruncate
import Verif.Spec.BlockTruncate
import Verif.Lemmas.BlockTruncate
import Verif.Lemmas.Linalg
import Verif.Props.Linalg
import Verif.Lemmas.Svd
import Verif.Props.Svd
import Verif.Props.Eigh
import Verif.Props.EighEx
import Verif.Props.BlockTruncate
import Verif.Lemmas.SvdExists
import Verif.Props.TruncateProduct
import Verif.Props.History
import Verif.Spec.Network
import Verif.Model.Network
import Verif.Lemmas.Network
import Verif.Lemmas.Network2
import Verif.Lemmas.Network3
import Verif.Lemmas.Network4
import Verif.Props.Network
import Verif.Props.Environment
import Verif.Lemmas.Isometry
import Verif.Spec.Energy
import Verif.Model.TwoSite
import Verif.Lemmas.TwoSite
import Verif.Props.Variational
import Verif.Props.Update
import Verif.Props.Descent
import Verif.Props.DescentEx
import Verif.Props.Transpose
import Verif.Spec.BlockNetwork
import Verif.Model.BlockNetwork
import Verif.Lemmas.Rep
import Verif.Lemmas.BlockNetwork
import Verif.Lemmas.BlockNetwork2
import Verif.Props.BlockNetwork
import Verif.Lemmas.BlockEdges
import Verif.Props.BlockEdges
import Verif.Props.BlockNetworkEx
import Verif.Lemmas.SvdSplit
import Verif.Props.SvdSplit
import Verif.Model.BlockMps
import Verif.Lemmas.BlockMove
import Verif.Props.BlockMove
import Verif.Props.BlockMoveEx
import Verif.Model.BlockDmrg
import Verif.Spec.BlockDmrg
import Verif.Lemmas.BlockDmrg
import Verif.Lemmas.BlockDmrg2
import Verif.Lemmas.BlockDmrg3
import Verif.Lemmas.BlockDmrg4
import Verif.Lemmas.BlockDmrg5
import Verif.Lemmas.Descent2
import Verif.Props.BlockDmrg
import Verif.Props.BlockDescent
import Verif.Props.BlockDmrgEx
import Verif.Lemmas.BlockDmrg6
import Verif.Props.BlockDmrgFails
import Verif.Props.BlockDmrgFailsEx
import Verif.Spec.BlockModels
import Verif.Model.BlockModels
import Verif.Lemmas.BlockModels
import Verif.Props.BlockModels
import Verif.Lemmas.BlockModels2
import Verif.Props.BlockHamil
import Verif.Lemmas.EckartYoung
import Verif.Spec.SvdDense
import Verif.Model.SvdDense
import Verif.Lemmas.SvdDense
import Verif.Props.SvdDense
import Verif.Lemmas.Rayleigh
import Verif.Spec.CutDmrg
import Verif.Model.CutDmrg
import Verif.Lemmas.CutPair
import Verif.Props.CutUpdate
import Verif.Lemmas.Descent3
import Verif.Props.CutRun
import Verif.Lemmas.SvdInst
import Verif.Props.CutEx
import Verif.Spec.Bmm
import Verif.Model.Bmm
import Verif.Lemmas.Bmm
import Verif.Lemmas.Bmm2
import Verif.Lemmas.Squeeze
import Verif.Props.Bmm
import Verif.Spec.Alias
import Verif.Model.Alias
import Verif.Lemmas.Alias
import Verif.Lemmas.Alias2
import Verif.Props.Alias
import Verif.Spec.Compare
import Verif.Model.Compare
import Verif.Lemmas.Compare
import Verif.Props.Compare
import Verif.Spec.ChainStore
import Verif.Model.ChainStore
import Verif.Props.ChainStore
import Verif.Lemmas.ColdStart
import Verif.Model.RandomDense
import Verif.Props.ColdStart
import Verif.Props.RandomDense
import Verif.Props.ColdEx
import Verif.Spec.SemiCanonical
import Verif.Lemmas.SemiPair
import Verif.Lemmas.SemiUpdate
import Verif.Lemmas.CutColumns
import Verif.Lemmas.DeadCut
import Verif.Lemmas.DeadSites
import Verif.Lemmas.Schmidt
import Verif.Model.BlockCut
import Verif.Spec.BlockCut
import Verif.Lemmas.BlockCut
import Verif.Lemmas.BlockCut2
import Verif.Props.BlockCutUpdate
import Verif.Props.BlockCutRun
import Verif.Lemmas.TidyLevel
import Verif.Props.BlockCutEx
import Verif.Spec.VecStore
import Verif.Model.VecStore
import Verif.Lemmas.VecStore
import Verif.Props.VecStore
import Verif.Spec.Elementwise
import Verif.Model.Elementwise
import Verif.Props.Elementwise
import Verif.Model.Packed
import Verif.Lemmas.Packed
import Verif.Props.Packed
import Verif.Spec.Python
import Verif.Model.Python
import Verif.Props.Python
import Verif.Lemmas.BlockSector
import Verif.Lemmas.BlockSector2
import Verif.Props.BlockSector
import Verif.Model.SectorStart
import Verif.Spec.Sector
import Verif.Lemmas.Sector
import Verif.Lemmas.SectorStart
import Verif.Props.Sector
import Verif.Props.SectorEx
import Verif.Props.SvdBatch
import Verif.Lemmas.SvdError
import Verif.Props.SvdError
import Verif.Props.LanczosSmall
import Verif.Model.Coalesce
import Verif.Spec.Coalesce
import Verif.Lemmas.CutExact
import Verif.Lemmas.Coalesce
import Verif.Lemmas.Coalesce2
import Verif.Props.Coalesce
import Verif.Lemmas.HamilCut
import Verif.Props.HamilCut
import Verif.Model.Logger
import Verif.Props.Logger
import Verif.Props.GDot
import Verif.Model.Strided
import Verif.Spec.Strided
import Verif.Props.Strided
import Verif.Model.ChargedOps
import Verif.Props.ChargedOps
import Verif.Model.Failure
import Verif.Spec.Failure
import Verif.Lemmas.MergeThrow
import Verif.Props.Failure
import Verif.Model.SelfShift
import Verif.Props.SelfShift
import Verif.Model.PowInPlace
import Verif.Props.PowInPlace
import Verif.Model.Types
import Verif.Spec.Types
import Verif.Props.Types
import Verif.Props.TypesSvd
import Verif.Spec.Ground
import Verif.Lemmas.Ground
import Verif.Lemmas.GroundModels
import Verif.Props.Ground
import Verif.Props.GroundEx
import Verif.Spec.EighDense
import Verif.Props.EighDense
import Verif.Spec.AnyStore
import Verif.Model.AnyStore
import Verif.Props.AnyStore
import Verif.Spec.BlockGround
import Verif.Lemmas.BlockGround
import Verif.Lemmas.TidyOne
import Verif.Props.BlockGround
import Verif.Props.BlockGroundEx
import Verif.Lemmas.ColdCut
import Verif.Lemmas.BlockCold
import Verif.Props.BlockCold
import Verif.Props.BlockColdEx
import Verif.Model.Stopping
import Verif.Spec.Stopping
import Verif.Lemmas.Stopping
import Verif.Props.Stopping
import Verif.Props.StoppingEx
import Verif.Model.Convert
import Verif.Spec.Convert
import Verif.Props.Convert
import Verif.Spec.PyLogger
import Verif.Model.PyLogger
import Verif.Props.PyLogger
import Verif.Spec.Operators
import Verif.Model.Operators
import Verif.Props.Operators
import Verif.Spec.Shared
import Verif.Model.Shared
import Verif.Props.Shared
import Verif.Model.EighSplit
import Verif.Props.EighSplit
import Verif.Props.EighSplitEx
import Verif.Model.InPlace
import Verif.Props.InPlace
import Verif.Props.Decompose
import Verif.Lemmas.SvdPositive
import Verif.Props.BlockMoveAll
import Verif.Model.CouplingTypes
import Verif.Props.CouplingTypes
import Verif.Model.Options
import Verif.Props.Options
import Verif.Props.OptionsBlock
import Verif.Spec.ChainRefs
import Verif.Model.ChainRefs
import Verif.Lemmas.ChainRefs
import Verif.Props.ChainRefs
import Verif.Model.Numbers
import Verif.Props.Numbers
import Verif.Props.NumbersIn
import Verif.Props.EighRegroup
import Verif.Model.Casting
import Verif.Spec.Casting
import Verif.Props.Casting
import Verif.Model.Calls
import Verif.Spec.Calls
import Verif.Props.Calls
import Verif.Props.FromBasicRank
import Verif.Model.CppLogger
import Verif.Props.CppLogger
import Verif.Model.InPlaceTruncate
import Verif.Props.InPlaceTruncate
import Verif.Spec.PyChains
import Verif.Model.PyChains
import Verif.Props.PyChains
import Verif.Props.CallsNumbers
import Verif.Props.OperatorsDiv
import Verif.Props.CouplingComplex
import Verif.Props.CouplingExact
import Verif.Props.CouplingLeast
