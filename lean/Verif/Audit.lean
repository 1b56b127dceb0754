import Lean
import Verif.Props.Language
import Verif.Props.Spelling
import Verif.Props.Constraints
import Verif.Props.Values
import Verif.Props.Consume
import Verif.Props.Tokens
import Verif.Props.Names
import Verif.Props.Options
import Verif.Props.Derive
import Verif.Props.ValueProps
import Verif.Props.Docs
import Verif.Props.Errors
import Verif.Props.NoPanic
import Verif.Props.Request
import Verif.Props.Commute
import Verif.Props.Help
import Verif.Props.Flatten
import Verif.Props.Display
import Verif.Props.Attributes
import Verif.Props.Accept
import Verif.Props.Macros
import Verif.Props.Process
import Verif.Props.Write
import Verif.Props.NoHelp
import Verif.Props.Reorder
import Verif.Props.Extend
import Verif.Props.Final
import Verif.Props.Unused
import Verif.Props.Emit
import Verif.Props.EmitTypes
import Verif.Props.EmitSound
import Verif.Props.EmitHelp
import Verif.Props.Subcommand
import Verif.Props.Default
import Verif.Props.Relax
import Verif.Props.Usage
import Verif.Props.Local
import Verif.Props.Entry
import Verif.Props.Style
import Verif.Props.Order
import Verif.Props.OrderErr
import Verif.Props.Quiet
import Verif.Props.Program
import Verif.Props.Alias
import Verif.Props.Siblings
import Verif.Props.ProgName
import Verif.Props.Parser
import Verif.Props.ShownDefault
import Verif.Props.Idents
import Verif.Props.Title
import Verif.Props.Past
import Verif.Props.Fewer
import Verif.Props.AnyStd
import Verif.Props.Regroup
import Verif.Props.Mistakes
import Verif.Props.Impls
import Verif.Props.MoreNames
import Verif.Props.Scope
import Verif.Props.Given
import Verif.Props.Widen
/-!
# Audit of the axioms

The build fails if any theorem of a property (`Palc.Cnn_…`) depends on an axiom other than the three standard ones.
-/

open Lean

/-- Is this the name of a theorem about a property? -/
def Palc.isPropertyName : Name → Bool
  | .str (.str .anonymous "Palc") s =>
    match s.toList with
    | 'C' :: a :: b :: '_' :: _ => a.isDigit && b.isDigit
    | _ => false
  | _ => false

run_cmd
  let env ← getEnv
  let names := env.constants.fold (init := #[]) fun l n c => if Palc.isPropertyName n && (match c with | .thmInfo _ => true | _ => false) then l.push n else l
  if names.size < 100 then throwError "only {names.size} theorems found"
  for n in names do
    for a in ← collectAxioms n do
      unless [``propext, ``Classical.choice, ``Quot.sound].contains a do
        throwError "{n} depends on {a}"
  logInfo m!"{names.size} theorems about properties, all on the standard axioms"
