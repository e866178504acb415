import Verif.Model.Basic
import Verif.Model.Index
import Verif.Model.Shape
import Verif.Props.IndexProps
import Verif.Props.ViewProps
import Verif.Props.ShapeProps
import Verif.Props.LayoutProps
import Verif.Props.PermuteProps
import Verif.Props.BroadcastProps
import Verif.Props.UtfProps
import Verif.Props.TranscodeProps
import Verif.Model.Escape
import Verif.Props.EscapeProps
import Verif.Model.Search
import Verif.Props.SearchProps
import Verif.Props.CountProps
import Verif.Model.Sso
import Verif.Model.Ints
import Verif.Props.IntProps
import Verif.Props.SsoProps
import Verif.Model.Half
import Verif.Props.Ieee
import Verif.Props.HalfProps
import Verif.Model.FloatCast
import Verif.Model.Arith
import Verif.Model.Records
import Verif.Model.Stats
import Verif.Model.ArrayOps
import Verif.Model.Call
import Verif.Model.RefCount
import Verif.Props.FloatCastProps
import Verif.Model.Int128
import Verif.Props.Int128Props
import Verif.Model.Option
import Verif.Props.OptionProps
import Verif.Model.Promote
import Verif.Props.PromoteProps
import Verif.Model.Struct
import Verif.Props.StructProps
import Verif.Model.Dispatch
import Verif.Props.DispatchProps
import Verif.Model.MemBlock
import Verif.Props.MemBlockProps
import Verif.Model.Kernels
import Verif.Props.KernelProps
import Verif.Model.StorageBuf
import Verif.Props.StorageBufProps
import Verif.Model.Categorical
import Verif.Props.CategoricalProps
import Verif.Model.Elwise
import Verif.Props.ElwiseProps
import Verif.Model.Reduction
import Verif.Props.ReductionProps
import Verif.Model.Types
import Verif.Model.TypeMatch
import Verif.Model.Datashape
import Verif.Model.Json
import Verif.Props.MatchProps
import Verif.Props.SubstProps
import Verif.Props.DatashapeTotal
import Verif.Props.JsonProps
import Verif.Props.JsonRound
import Verif.Props.JsonTotal
import Verif.Props.ArithProps
import Verif.Props.RecordProps
import Verif.Props.StatsProps
import Verif.Props.ArrayIterProps
import Verif.Props.ArrayEqProps
import Verif.Props.ArrayLayoutProps
import Verif.Props.ArrayRangeProps
import Verif.Props.ArrayViewProps
import Verif.Props.CallProps
import Verif.Props.RefCountProps
import Verif.Model.ShortVec
import Verif.Props.ShortVecProps
import Verif.Props.TypeOpsProps
import Verif.Model.Functional
import Verif.Props.FunctionalProps
import Verif.Model.Construct
import Verif.Props.ConstructProps
import Verif.Model.Access
import Verif.Props.AccessProps
import Verif.Model.Destroy
import Verif.Props.DestroyProps
import Verif.Model.Registry
import Verif.Props.RegistryProps
import Verif.Model.JsonScalar
import Verif.Model.Complex
import Verif.Model.Format
import Verif.Props.JsonScalarProps
import Verif.Props.ComplexProps
import Verif.Props.FormatProps
import Verif.Props.JsonWriteProps
import Verif.Model.FnRegistry
import Verif.Props.FnRegistryProps
import Verif.Model.NestIter
import Verif.Props.NestIterProps
import Verif.Model.Abi
import Verif.Props.AbiProps
import Verif.Model.RaggedIdx
import Verif.Props.RaggedIdxProps
import Verif.Model.Print
import Verif.Props.PrintProps
import Verif.Model.AbiCount
import Verif.Props.AbiCountProps
import Verif.Model.Bool1
import Verif.Props.Bool1Props
import Verif.Model.Combinators
import Verif.Props.CombinatorProps
import Verif.Model.Quad
import Verif.Props.QuadProps
import Verif.Model.Csr
import Verif.Props.CsrProps
import Verif.Model.AssignFn
import Verif.Props.AssignTable
import Verif.Props.AssignFnProps
import Verif.Props.AssignOverload
import Verif.Model.Operators
import Verif.Props.OperatorTable
import Verif.Props.OperatorProps
import Verif.Props.OperatorCall
import Verif.Props.OperatorLimits
import Verif.Model.UnaryOps
import Verif.Props.UnaryTable
import Verif.Props.UnaryRun
import Verif.Props.UnaryProps
import Verif.Props.UnaryCall
import Verif.Model.BinaryRun
import Verif.Props.BinarySteps
import Verif.Props.BinaryRuns
import Verif.Props.BinaryJoint
import Verif.Props.BinaryCall
import Verif.Props.BinaryLimits
import Verif.Model.CopyRun
import Verif.Props.CopySpec
import Verif.Props.CopySteps
import Verif.Props.CopyRuns
import Verif.Props.CopyJoint
import Verif.Props.CopyCall
import Verif.Props.CopyLimits
import Verif.Model.TakeRun
import Verif.Props.TakeLoop
import Verif.Props.TakeCall
import Verif.Props.TakeLimits
import Verif.Model.ReduceRun
import Verif.Props.ReduceBytes
import Verif.Props.ReduceRag
import Verif.Props.ReduceResolve
import Verif.Props.ReduceCall
import Verif.Props.ReduceLimits
import Verif.Model.SortRun
import Verif.Props.SortCall
import Verif.Props.SortRuns
import Verif.Model.StringCall
import Verif.Props.StringCalls
import Verif.Model.RandomFill
import Verif.Props.RandomRun
import Verif.Props.RandomProps
import Verif.Model.FieldAccess
import Verif.Props.FieldAccessProps
import Verif.Model.SerializeRun
import Verif.Props.SerializeProps
import Verif.Model.AsArray
import Verif.Props.AsArrayProps
import Verif.Model.NaCall
import Verif.Props.NaCallProps
import Verif.Model.LimitsCall
import Verif.Props.LimitsCallProps
