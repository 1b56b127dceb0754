import Verif.Spec
/-!
# Specification of the help text

What the help of a command shows, from the declarations of its arguments.
-/

namespace Palc.Spec

variable {V : Type}

/-- The short name shown: the declared one, no aliases. -/
def shortPart (f : FieldInfo V) : List Str :=
  match f.src.short with
  | some .inherit => (f.ident.take 1).map (fun c => ['-', c])
  | some (.explicit c) => [['-', c]]
  | none => []

/-- The long name shown: the declared one, no aliases. -/
def longPart (cx : Cx V) (f : FieldInfo V) : List Str :=
  match f.src.long with
  | some .inherit => [lit "--" ++ cx.kebab f.ident]
  | some (.explicit s) => [lit "--" ++ s]
  | none => []

/-- The name of the value: `value_name = ".."` or the field name in capitals. -/
def valueName (cx : Cx V) (f : FieldInfo V) : Str :=
  match f.src.valueName with
  | some s => s
  | none => cx.shoutySnake f.ident

/-- How the value of an option is given. -/
def valuePart (cx : Cx V) (f : FieldInfo V) : Str :=
  match f.kind with
  | .bool => []
  | .optionOption => lit "[=<" ++ valueName cx f ++ lit ">]"
  | _ => (if f.src.requireEquals then lit "=<" else lit " <") ++ valueName cx f ++ lit ">"

/-- How a positional argument is shown. -/
def positionalLabel (cx : Cx V) (f : FieldInfo V) : Str :=
  (if isRequired f then lit "<" ++ valueName cx f ++ lit ">" else lit "[" ++ valueName cx f ++ lit "]")
    ++ (if isMulti f then lit "..." else [])

/-- How an argument is shown: `-c, --config <FILE>`, `<FILE>`, `[FILE]...`. -/
def label (cx : Cx V) (f : FieldInfo V) : Str :=
  if isOption f then List.intercalate (lit ", ") (shortPart f ++ longPart cx f) ++ valuePart cx f
  else positionalLabel cx f

/-- The entry of an argument in the list of arguments or options: its label, its documentation, its default value. -/
def entryText (cx : Cx V) (f : FieldInfo V) : Str :=
  (if shortPart f = [] ∧ longPart cx f ≠ [] then lit "      " else lit "  ") ++ label cx f ++ lit "\n"
    ++ (if f.src.doc = [] then [] else lit "          " ++ f.src.doc ++ lit "\n")
    ++ (match f.defaultValue with
        | some (.parseStr s) => lit "          [default: " ++ s ++ lit "]\n"
        | some (.valueExpr _ shown) => lit "          [default: " ++ shown ++ lit "]\n"
        | none => [])
    ++ lit "\n"

/-- The label of an option in the usage line: by its long name only, if it has one and the short one is ASCII. -/
def usageLabel (cx : Cx V) (f : FieldInfo V) : Str :=
  if longPart cx f ≠ [] ∧ ∀ s ∈ shortPart f, ∀ c ∈ s, c.toNat < 128 then (longPart cx f).flatten ++ valuePart cx f
  else label cx f

/-- An argument in the usage line: required arguments and positional lists are shown. -/
def usageText (cx : Cx V) (f : FieldInfo V) : Str :=
  if f.src.last then
    if isRequired f then lit " -- " ++ label cx f else lit " [-- " ++ label cx f ++ lit "]"
  else if isRequired f || (!isOption f && isMulti f) then lit " " ++ usageLabel cx f
  else []

/-- The arguments of a command (own and flattened) that are not hidden. -/
def shownArgs (d : ArgsDef V) : List (FieldInfo V) := ((structs d).flatMap (·.fields)).filter (fun f => !f.src.hide)

/-- The options among them. -/
def shownOptions (d : ArgsDef V) : List (FieldInfo V) := (shownArgs d).filter isOption

/-- The positional arguments among them. -/
def shownPositionals (d : ArgsDef V) : List (FieldInfo V) := (shownArgs d).filter (fun f => !isOption f)

/-- The usage line after the names of the commands. -/
def usageLine (cx : Cx V) (d : ArgsDef V) : Str :=
  (shownOptions d).flatMap (usageText cx)
    ++ (if ∃ f ∈ shownOptions d, isRequired f = false then lit " [OPTIONS]" else [])
    ++ (shownPositionals d).flatMap (usageText cx)
    ++ (match subOf d with
        | .none => []
        | .some _ optional _ => if optional then lit " [COMMAND]" else lit " <COMMAND>")

/-- A titled list of entries, left out if there are none. -/
def entryList (cx : Cx V) (title : Str) (fs : List (FieldInfo V)) : Str :=
  if fs = [] then [] else title ++ fs.flatMap (entryText cx)

/-- The about text of a command: `long_about`, otherwise the documentation. -/
def aboutText : Option CommandMeta → Str
  | none => []
  | some m => match m.longAbout with
    | some s => s
    | none => m.doc

/-- The text after the options: `after_long_help`. -/
def afterText : Option CommandMeta → Str
  | none => []
  | some m => match m.afterLongHelp with
    | some s => s
    | none => []

/-- The line of a subcommand: its name, padding to the longest name (in bytes) and at least two spaces, but not more than 24, and
the first line of its about text. -/
def commandLine (width : Nat) (v : Variant V) : Str :=
  lit "    " ++ v.name ++ List.replicate (min 24 (width - (enc v.name).length + 2)) ' '
    ++ (aboutText (coreOf (variantDef v)).cmdMeta).takeWhile (· ≠ '\n') ++ lit "\n"

/-- Length of the longest subcommand name, in bytes. -/
def nameWidth : List (Variant V) → Nat
  | [] => 0
  | v :: vs => max (enc v.name).length (nameWidth vs)

/-- The list of subcommands. -/
def commandList (d : ArgsDef V) : Str :=
  match subOf d with
  | .none => []
  | .some _ _ _ => lit "Commands:\n" ++ (subVariants d).flatMap (commandLine (nameWidth (subVariants d))) ++ lit "\n"

end Palc.Spec
