import Verif.Values
/-!
# How a default value is shown

`default_value_t = expr` is shown in help texts by the text that `__palc_infer_display` finds for the value.  The other definitions
take this text as a part of the attribute (`DefaultValue.valueExpr`); here it is computed.
-/

namespace Palc

/-- `InferDisplayDefaultValue`, `src/values.rs` 61-102: the method taking `PhantomData<T>` itself, for `ValueEnum` types, comes before the
one taking a reference, for all types; the latter needs `Display` (`assert_impl_display_default_value`, otherwise `none`: a compile error).
The emitted call is in `derive_args.rs` 1077-1081. -/
def inferDisplay {V : Type} [DecidableEq V] (valueEnum : Option (EnumDef V)) (display : Option (V → Str)) (v : V) : Option Str :=
  match valueEnum with
  | some e => e.displayValue v
  | none => match display with
    | some f => some (f v)
    | none => none

end Palc
