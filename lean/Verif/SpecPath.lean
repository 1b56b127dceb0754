import Verif.Bytes
/-!
# Specification of the program name

The name of a program shown in help texts, from the path in `argv[0]` (`src/lib.rs` 86, `src/runtime.rs` 87): what the final
component of a path is, and how bytes that are not UTF-8 are shown.
-/

namespace Palc.Spec

/-- What may follow the final component of a path without a meaning: slashes and components `.`. -/
inductive Trailing : Bytes → Prop
  | nil : Trailing []
  | slash {t : Bytes} (h : Trailing t) : Trailing (47 :: t)
  | dot {t : Bytes} (h : Trailing t) : Trailing (47 :: 46 :: t)

/-- `n` is the final component of the path `p`: a component other than `.` that is followed by nothing of a meaning. -/
def Final (p n : Bytes) : Prop :=
  ∃ dir t, p = dir ++ n ++ t ∧ (dir = [] ∨ ∃ dir', dir = dir' ++ [47]) ∧ (47 : UInt8) ∉ n ∧ n ≠ [] ∧ n ≠ [46] ∧ Trailing t

/-- The bytes of the program name: the final component of `argv[0]`, or all of it if that is `..` or there is none. -/
def FileNameOf (p n : Bytes) : Prop :=
  (Final p n ∧ n ≠ [46, 46])
  ∨ (n = p ∧ (Final p [46, 46] ∨ Trailing p ∨ ∃ t, Trailing t ∧ p = 46 :: t))

/-- `p` is the beginning of an encoded character, but not all of it. -/
def Begins (p : Bytes) : Prop := p ≠ [] ∧ ∃ c q, encChar c = p ++ q ∧ q ≠ []

/-- How bytes are shown: characters as they are; where no character is, the longest beginning of one (or else one byte) is
shown as the replacement character U+FFFD. -/
inductive Decoded : Bytes → Str → Prop
  | nil : Decoded [] []
  | char (c : Char) {bs : Bytes} {s : Str} (h : Decoded bs s) : Decoded (encChar c ++ bs) (c :: s)
  | bad {bad bs : Bytes} {s : Str} (hc : ∀ c r, bad ++ bs ≠ encChar c ++ r) (hb : bad.length = 1 ∨ Begins bad)
      (hm : ∀ m, m <+: bad ++ bs → Begins m → m.length ≤ bad.length) (h : Decoded bs s) :
      Decoded (bad ++ bs) (Char.ofNat 0xFFFD :: s)

end Palc.Spec
