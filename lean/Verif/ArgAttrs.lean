import Verif.Bytes
/-!
# Bit-packed argument attributes (`src/shared.rs`)
-/

namespace Palc

/-- `struct ArgAttrs(pub u32)`, `src/shared.rs` 5-6. -/
abbrev ArgAttrs := BitVec 32

namespace ArgAttrs

/-- `ArgAttrs::index`, `src/shared.rs` 15-17. -/
def index (i : Nat) : ArgAttrs := BitVec.ofNat 32 (i % 256)
/-- `ArgAttrs::get_index` (`self.0 as u8`), `src/shared.rs` 20-22. -/
def getIndex (a : ArgAttrs) : Nat := a.toNat % 256

/-- `src/shared.rs` 26. -/
def REQUIRE_VALUE : ArgAttrs := 1#32 <<< 16
/-- `src/shared.rs` 28. -/
def REQUIRE_EQ : ArgAttrs := 1#32 <<< 17
/-- `src/shared.rs` 31. -/
def ACCEPT_HYPHEN_ANY : ArgAttrs := 1#32 <<< 18
/-- `src/shared.rs` 34. -/
def ACCEPT_HYPHEN_NUM : ArgAttrs := 1#32 <<< 19
/-- `src/shared.rs` 36. -/
def GLOBAL : ArgAttrs := 1#32 <<< 20
/-- `src/shared.rs` 38. -/
def MAKE_LOWERCASE : ArgAttrs := 1#32 <<< 21
/-- `src/shared.rs` 42. -/
def VAR_ARG : ArgAttrs := 1#32 <<< 22
/-- `src/shared.rs` 45. -/
def GREEDY : ArgAttrs := 1#32 <<< 23
/-- `src/shared.rs` 47. -/
def LAST : ArgAttrs := 1#32 <<< 24

/-- `ArgAttrs::set`, `src/shared.rs` 49-54. -/
def set (a other : ArgAttrs) (value : Bool) : ArgAttrs := if value then a ||| other else a
/-- `ArgAttrs::union`, `src/shared.rs` 57-59. -/
def union (a other : ArgAttrs) : ArgAttrs := a ||| other
/-- `ArgAttrs::contains`, `src/shared.rs` 62-64. -/
def contains (a other : ArgAttrs) : Bool := a &&& other == other

end ArgAttrs
end Palc
