import Verif.Props.Auto
import Verif.Props.Bare
import Verif.Props.Big
import Verif.Props.BitExact
import Verif.Props.BitVec
import Verif.Props.Bitwise
import Verif.Props.Blame
import Verif.Props.BlameRun
import Verif.Props.Bool
import Verif.Props.Checked
import Verif.Props.CmpOrder
import Verif.Props.Codes
import Verif.Props.Compare
import Verif.Props.Compound
import Verif.Props.Count
import Verif.Props.CppPolicy
import Verif.Props.Declared
import Verif.Props.DropIn
import Verif.Props.Err
import Verif.Props.Exact
import Verif.Props.Exact2
import Verif.Props.Examples
import Verif.Props.Extended
import Verif.Props.Extended2
import Verif.Props.Extended3
import Verif.Props.Extended4
import Verif.Props.Fits
import Verif.Props.Float
import Verif.Props.Hull
import Verif.Props.Ignore
import Verif.Props.Ignore2
import Verif.Props.Input
import Verif.Props.Interval
import Verif.Props.Interval2
import Verif.Props.Lang
import Verif.Props.LangTrap
import Verif.Props.Limits
import Verif.Props.Lit
import Verif.Props.ModExact
import Verif.Props.ModType
import Verif.Props.Motor
import Verif.Props.Motor2
import Verif.Props.Narrow
import Verif.Props.Order
import Verif.Props.OrderEnds
import Verif.Props.Phase
import Verif.Props.Policy
import Verif.Props.Port
import Verif.Props.PortBlame
import Verif.Props.Program
import Verif.Props.Prom
import Verif.Props.Quiet
import Verif.Props.Refactor
import Verif.Props.Release
import Verif.Props.Run
import Verif.Props.RunOrder
import Verif.Props.Safe
import Verif.Props.Safe2
import Verif.Props.SafeDiv
import Verif.Props.Shift
import Verif.Props.Stream
import Verif.Props.Subset
import Verif.Props.Symmetry
import Verif.Props.Text
import Verif.Props.Tight
import Verif.Props.Trace
import Verif.Props.Trap
import Verif.Props.TrapIff
import Verif.Props.Tribool
import Verif.Props.Types
import Verif.Props.Utility
import Verif.Props.Widen
import Lean.Elab.Command
import Lean.Util.CollectAxioms

/-!
Checks when compiled that everything in the namespace `Verif`, theorems and definitions, depends on no axioms other than
`propext`, `Classical.choice` and `Quot.sound`.
-/

open Lean in
run_cmd do
  let env ← getEnv
  let mut n := 0
  for (c, i) in env.constants.toList do
    if (`Verif).isPrefixOf c || (privateToUserName? c).any (`Verif).isPrefixOf then
      if i matches .axiomInfo _ then throwError "axiom {c}"
      for a in ← collectAxioms c do
        unless a ∈ [`propext, `Classical.choice, `Quot.sound] do throwError "{c} depends on {a}"
      n := n + 1
  if n < 1000 then throwError "only {n} constants looked at"
