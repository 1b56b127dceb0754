import Verif.ArgAttrs
import Verif.Util
/-!
# Runtime reflection (`src/refl.rs`)
-/

namespace Palc

/-- `&'static dyn Display` used as a mix of part formatters selected by precision
(`src/refl.rs` 90-100). -/
abbrev HelpFn := Nat → Str

/-- `struct RawSubcommandInfo`, `src/refl.rs` 20-32. `variant_infos` is only used for the `help`
of each variant (`src/refl.rs` 174-182), so only these are kept. -/
structure SubcmdInfo where
  names : Str
  map : List (Str × Nat)
  variantHelps : List HelpFn

/-- `RawSubcommandInfo::search`, `src/refl.rs` 52-58. The indexing `self.map[i]` is in bounds by
construction of `i`; the `none` of the model's `[i]?` is the out-of-bounds case. -/
def SubcmdInfo.search (s : SubcmdInfo) (cmd : Bytes) : Option (Str × Nat) :=
  match binarySearch (s.map.map (fun e => enc e.1)) cmd with
  | some i => s.map[i]?
  | none => none

/-- `struct RawArgsInfo`, `src/refl.rs` 61-101. -/
structure ArgsInfo where
  descriptions : Str
  namedAttrs : List (Str × ArgAttrs)
  positionalAttrs : List ArgAttrs
  subcmdInfo : Option SubcmdInfo
  isSubcmdOptional : Bool
  hasOptionalNamed : Bool
  help : HelpFn

namespace ArgsInfo

/-- `RawArgsInfo::new`, `src/refl.rs` 109-143. -/
def new (descriptions : Str) (namedAttrs : List (Str × ArgAttrs)) (positionalAttrs : List ArgAttrs)
    (subcmdInfo : Option SubcmdInfo) (isSubcmdOptional hasOptionalNamed : Bool) (help : HelpFn)
    (flattened : List ArgsInfo) : ArgsInfo :=
  { descriptions, namedAttrs, positionalAttrs, subcmdInfo, isSubcmdOptional,
    hasOptionalNamed := flattened.foldl (fun b i => b || i.hasOptionalNamed) hasOptionalNamed,
    help }

/-- The loop of `get_description`, `src/refl.rs` 147-158; `fuel` bounds the number of splits. -/
def getDescGo : Nat → Str → Nat → Option Str
  | 0, _, _ => none
  | fuel + 1, desc, idx =>
    match splitOnceC nul desc with
    | some (lhs, rhs) => if idx = 0 then some lhs else getDescGo fuel rhs (idx - 1)
    | none => none

/-- `RawArgsInfo::get_description`, `src/refl.rs` 147-158. -/
def getDescription (info : ArgsInfo) (idx : Nat) : Option Str :=
  getDescGo (info.descriptions.length + 1) info.descriptions idx

/-- `RawArgsInfo::subcommands_with_help`, `src/refl.rs` 174-182. -/
def subcommandsWithHelp (info : ArgsInfo) : Option (List (Str × HelpFn)) :=
  match info.subcmdInfo with
  | some s => some ((splitTerminator nul s.names).zip s.variantHelps)
  | none => none

/-- `RawArgsInfo::positional_len`, `src/refl.rs` 185-187. -/
def positionalLen (info : ArgsInfo) : Nat := info.positionalAttrs.length

/-- `RawArgsInfo::get_named`, `src/refl.rs` 189-195. -/
def getNamed (info : ArgsInfo) (name : Bytes) : Option ArgAttrs :=
  match binarySearch (info.namedAttrs.map (fun e => enc e.1)) name with
  | some i => (info.namedAttrs[i]?).map (·.2)
  | none => none

end ArgsInfo
end Palc
