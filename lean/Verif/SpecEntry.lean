import Verif.SpecWrite
import Verif.SpecHelp
/-!
# Following an entry of the help text

What is to be typed according to an entry `-c, --config <FILE>` in the list of options, with a value in place of `<FILE>`.
-/

namespace Palc.Spec

variable {V : Type}

/-- An option name as it is typed. -/
def nameText : Name → Str
  | .long s => lit "--" ++ s
  | .short c => ['-', c]

/-- `Typed s t toks o`: an entry shows the name `s` and after the names the text `t`.  Then `toks` can be typed for it, which gives it the
value `o` (`none`: no value). -/
inductive Typed (s : Str) : Str → List Bytes → Option Bytes → Prop
  /-- `--name`: nothing else is shown. -/
  | flag : Typed s [] [enc s] none
  /-- `--name <VALUE>`: the value is an argument of its own. -/
  | separate {x v} : Typed s (lit " <" ++ x ++ lit ">") [enc s, v] (some v)
  /-- `--name=<VALUE>`. -/
  | equals {x v} : Typed s (lit "=<" ++ x ++ lit ">") [enc s ++ enc (lit "=") ++ v] (some v)
  /-- `--name[=<VALUE>]` without the value … -/
  | without {x} : Typed s (lit "[=<" ++ x ++ lit ">]") [enc s] none
  /-- … and with it. -/
  | optional {x v} : Typed s (lit "[=<" ++ x ++ lit ">]") [enc s ++ enc (lit "=") ++ v] (some v)

end Palc.Spec
