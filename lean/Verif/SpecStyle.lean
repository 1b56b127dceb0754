import Verif.SpecRelax
import Verif.SpecErr
/-!
# Structs that look different

What may be changed in the attributes of declared arguments without any difference in what is accepted, and in the errors reported
(C78).
-/

namespace Palc.Spec

variable {V : Type}

/-- The attributes `m'` are those of `m` except for what is shown: documentation and help texts, the name of the value, whether the
argument is shown in the help. -/
def StyledArg (m m' : ArgMeta V) : Prop :=
  m' = { m with doc := m'.doc, help := m'.help, longHelp := m'.longHelp, valueName := m'.valueName, hide := m'.hide, valueEnum := m'.valueEnum }

/-- Only the documentation is changed, and what is shown in the help. -/
def DocsArg (m m' : ArgMeta V) : Prop := StyledArg m m' ∧ m'.valueName = m.valueName

/-- The same problem in programs which look different, when the commands `st` and `st'` have been entered: the errors agree except that
the same argument is shown differently (by `shown`), and that another help text is shown for a help request. -/
structure SameError (shown : FieldInfo V → Str) (st st' : List (Entry V)) (e e' : Error) : Prop where
  rest : e' = { e with argDesc := e'.argDesc, help := e'.help }
  arg : e'.argDesc = e.argDesc ∨ ∃ a f f', fieldAt st a = some f ∧ fieldAt st' a = some f' ∧ f'.ident = f.ident ∧ StyledArg f.src f'.src
    ∧ e.argDesc = some (shown f) ∧ e'.argDesc = some (shown f')
  help : e'.help = e.help ∨ (e = helpRequest st ∧ e' = helpRequest st')

/-- The same for failures: an error, or a panic because of an invalid default value. -/
inductive SameFail (shown : FieldInfo V → Str) (st st' : List (Entry V)) : Fail → Fail → Prop
  | panic : SameFail shown st st' .panic .panic
  | error {e e'} (h : SameError shown st st' e e') : SameFail shown st st' (.error e) (.error e')

end Palc.Spec
