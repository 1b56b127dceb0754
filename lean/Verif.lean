import Verif.Bytes
import Verif.ArgAttrs
import Verif.Error
import Verif.Util
import Verif.Values
import Verif.ShownDefault
import Verif.Places
import Verif.Refl
import Verif.Runtime
import Verif.Defs
import Verif.Codegen
import Verif.Derive
import Verif.Spec
import Verif.SpecErr
import Verif.WF
import Verif.Lemmas.Attrs
import Verif.Lemmas.Utf8
import Verif.Lemmas.Search
import Verif.Lemmas.Tables
import Verif.Lemmas.DeriveField
import Verif.Lemmas.DeriveWF
import Verif.Lemmas.Levels
import Verif.Lemmas.Machine
import Verif.Lemmas.Linear
import Verif.Lemmas.PlaceSim
import Verif.Lemmas.Sim
import Verif.Lemmas.Shapes
import Verif.Lemmas.Steps
import Verif.Lemmas.Run
import Verif.Lemmas.Finish
import Verif.Lemmas.Validate
import Verif.Lemmas.Outcome
import Verif.Props.Language
import Verif.Example
import Verif.SpecOut
import Verif.Lemmas.Under
import Verif.Lemmas.Unique
import Verif.Lemmas.Exchange
import Verif.Lemmas.Output
import Verif.Lemmas.Content
import Verif.Props.Spelling
import Verif.Props.Subcommand
import Verif.Props.Default
import Verif.Props.Relax
import Verif.Props.Usage
import Verif.Props.Local
import Verif.Props.Entry
import Verif.Props.Style
import Verif.Props.Order
import Verif.Props.OrderErr
import Verif.Props.Quiet
import Verif.Program
import Verif.SpecProgram
import Verif.Lemmas.Program
import Verif.Props.Program
import Verif.Props.Alias
import Verif.Props.Siblings
import Verif.Props.ProgName
import Verif.Props.Parser
import Verif.Props.ShownDefault
import Verif.Props.Idents
import Verif.Props.Title
import Verif.Props.Past
import Verif.Props.Fewer
import Verif.Props.AnyStd
import Verif.Props.Regroup
import Verif.Props.Mistakes
import Verif.Props.Impls
import Verif.Props.MoreNames
import Verif.Props.Scope
import Verif.Props.Given
import Verif.Props.Widen
import Verif.Reader
import Verif.Lemmas.Parsed
import Verif.Lemmas.Reading
import Verif.Props.Constraints
import Verif.Props.Values
import Verif.Props.Consume
import Verif.Lemmas.Kinds
import Verif.Lemmas.Positional
import Verif.Props.Tokens
import Verif.Lemmas.Visible
import Verif.Lemmas.First
import Verif.Lemmas.HelpText
import Verif.Props.Names
import Verif.Props.Options
import Verif.Lemmas.Declared
import Verif.Props.Derive
import Verif.Lemmas.Split
import Verif.Props.ValueProps
import Verif.Props.Docs
import Verif.Lemmas.Violate
import Verif.Props.Errors
import Verif.Props.NoPanic
import Verif.Lemmas.Rename
import Verif.Props.Request
import Verif.Lemmas.Commute
import Verif.Props.Commute
import Verif.SpecHelp
import Verif.Lemmas.HelpSpec
import Verif.Props.Help
import Verif.SpecInline
import Verif.Lemmas.Inline
import Verif.Lemmas.Flatten
import Verif.Props.Flatten
import Verif.SpecAfter
import Verif.SpecRelax
import Verif.SpecMoreNames
import Verif.SpecScope
import Verif.SpecGiven
import Verif.SpecWiden
import Verif.SpecRename
import Verif.SpecUsage
import Verif.SpecLocal
import Verif.SpecEntry
import Verif.SpecStyle
import Verif.SpecOrder
import Verif.Lemmas.Usage
import Verif.Lemmas.After
import Verif.Lemmas.ErrShape
import Verif.Props.Display
import Verif.Source
import Verif.SpecSource
import Verif.Lemmas.Source
import Verif.Lemmas.SourceMeta
import Verif.Lemmas.SourceField
import Verif.Lemmas.SourceCommand
import Verif.Props.Attributes
import Verif.SpecLegal
import Verif.Lemmas.Legal
import Verif.Props.Accept
import Verif.SpecMacro
import Verif.Lemmas.Macro
import Verif.Lemmas.MacroEnum
import Verif.Props.Macros
import Verif.Props.Process
import Verif.SpecWrite
import Verif.Lemmas.Write
import Verif.Props.Write
import Verif.NoHelp
import Verif.AnyStd
import Verif.Lemmas.NoHelp
import Verif.Props.NoHelp
import Verif.Lemmas.Reorder
import Verif.Props.Reorder
import Verif.SpecExtend
import Verif.SpecEvolve
import Verif.Lemmas.Extend
import Verif.Lemmas.Evolve
import Verif.Props.Extend
import Verif.Lemmas.Final
import Verif.Props.Final
import Verif.Props.Unused
import Verif.Emit
import Verif.Lemmas.Keep
import Verif.Lemmas.Emit
import Verif.Props.Emit
import Verif.EmitTypes
import Verif.Lemmas.EmitTypes
import Verif.Props.EmitTypes
import Verif.EmitFaults
import Verif.Lemmas.EmitSound
import Verif.Props.EmitSound
import Verif.EmitHelp
import Verif.Lemmas.EmitHelp
import Verif.Props.EmitHelp
import Verif.Tests.Setup
import Verif.Tests.Parse
import Verif.Tests.Help
import Verif.Tests.ValueEnum
import Verif.Tests.Ui
import Verif.Tests.Examples
import Verif.Audit
