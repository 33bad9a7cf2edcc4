import Verif.Audit
import Verif.AutoSpec
import Verif.BareSpec
import Verif.BlameSpec
import Verif.CROps
import Verif.Checked
import Verif.Conform
import Verif.Conform2
import Verif.CountSpec
import Verif.Cpp
import Verif.EndsSpec
import Verif.Err
import Verif.ExactSpec
import Verif.Examples
import Verif.ExamplesSpec
import Verif.Expr
import Verif.ExprSpec
import Verif.Float
import Verif.FloatSpec
import Verif.HullSpec
import Verif.Interval
import Verif.Lang
import Verif.LangSpec
import Verif.Limits
import Verif.Lit
import Verif.MaySpec
import Verif.Motor
import Verif.Motor2
import Verif.Motor2Spec
import Verif.MotorSpec
import Verif.OrderSpec
import Verif.PolicySpec
import Verif.PortSpec
import Verif.PromSpec
import Verif.Promotion
import Verif.QuietSpec
import Verif.ReleaseSpec
import Verif.RunSpec
import Verif.Safe
import Verif.SafeCompare
import Verif.SafeOps
import Verif.SafeSpec
import Verif.Spec
import Verif.Stream
import Verif.StreamSpec
import Verif.Text
import Verif.TightSpec
import Verif.TraceSpec
import Verif.Utility
import Verif.WidenSpec
import Verif.Proofs.Auto
import Verif.Proofs.Bare
import Verif.Proofs.Bits
import Verif.Proofs.Blame
import Verif.Proofs.Bool
import Verif.Proofs.Bounds
import Verif.Proofs.CROps
import Verif.Proofs.CRShift
import Verif.Proofs.Checked
import Verif.Proofs.Cpp
import Verif.Proofs.Does
import Verif.Proofs.Exact
import Verif.Proofs.ExactDiv
import Verif.Proofs.ExactMod
import Verif.Proofs.ExactShift
import Verif.Proofs.Fits
import Verif.Proofs.Ignore
import Verif.Proofs.Interval
import Verif.Proofs.Lang
import Verif.Proofs.Motor
import Verif.Proofs.Motor2
import Verif.Proofs.Phase
import Verif.Proofs.Policy
import Verif.Proofs.Prom
import Verif.Proofs.Promotion
import Verif.Proofs.Quiet
import Verif.Proofs.Release
import Verif.Proofs.Run
import Verif.Proofs.SafeCmp
import Verif.Proofs.SafeCompare
import Verif.Proofs.SafeDiv
import Verif.Proofs.SafeDiv2
import Verif.Proofs.SafeOps
import Verif.Proofs.Shift
import Verif.Proofs.Shift2
import Verif.Proofs.Stream
import Verif.Proofs.Tight
import Verif.Proofs.Trace
import Verif.Proofs.TrapIff
import Verif.Proofs.Utility
import Verif.Proofs.Utility2
import Verif.Proofs.Widen
import Verif.Props.Auto
import Verif.Props.Bare
import Verif.Props.Big
import Verif.Props.BitExact
import Verif.Props.BitVec
import Verif.Props.Bitwise
import Verif.Props.Blame
import Verif.Props.BlameRun
import Verif.Props.Bool
import Verif.Props.Checked
import Verif.Props.CmpOrder
import Verif.Props.Codes
import Verif.Props.Compare
import Verif.Props.Compound
import Verif.Props.Count
import Verif.Props.CppPolicy
import Verif.Props.Declared
import Verif.Props.DropIn
import Verif.Props.Err
import Verif.Props.Exact
import Verif.Props.Exact2
import Verif.Props.Examples
import Verif.Props.Extended
import Verif.Props.Extended2
import Verif.Props.Extended3
import Verif.Props.Extended4
import Verif.Props.Fits
import Verif.Props.Float
import Verif.Props.Hull
import Verif.Props.Ignore
import Verif.Props.Ignore2
import Verif.Props.Input
import Verif.Props.Interval
import Verif.Props.Interval2
import Verif.Props.Lang
import Verif.Props.LangTrap
import Verif.Props.Limits
import Verif.Props.Lit
import Verif.Props.ModExact
import Verif.Props.ModType
import Verif.Props.Motor
import Verif.Props.Motor2
import Verif.Props.Narrow
import Verif.Props.Order
import Verif.Props.OrderEnds
import Verif.Props.Phase
import Verif.Props.Policy
import Verif.Props.Port
import Verif.Props.PortBlame
import Verif.Props.Program
import Verif.Props.Prom
import Verif.Props.Quiet
import Verif.Props.Refactor
import Verif.Props.Release
import Verif.Props.Run
import Verif.Props.RunOrder
import Verif.Props.Safe
import Verif.Props.Safe2
import Verif.Props.SafeDiv
import Verif.Props.Shift
import Verif.Props.Stream
import Verif.Props.Subset
import Verif.Props.Symmetry
import Verif.Props.Text
import Verif.Props.Tight
import Verif.Props.Trace
import Verif.Props.Trap
import Verif.Props.TrapIff
import Verif.Props.Tribool
import Verif.Props.Types
import Verif.Props.Utility
import Verif.Props.Widen
