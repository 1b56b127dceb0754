/-!
# Byte strings, UTF-8 and the small pieces of `std` used by palc

`OsStr` is a list of bytes (Unix). `str` is a list of Unicode scalar values.
-/

namespace Palc

/-- `OsStr`/`OsString`/`[u8]` on Unix. -/
abbrev Bytes := List UInt8

/-- `str`/`String`, as its sequence of `char`s. -/
abbrev Str := List Char

/-- `char::encode_utf8` (core), e.g. `src/runtime.rs` 525. -/
def encChar (c : Char) : Bytes := String.utf8EncodeChar c

/-- `str::as_bytes` / `OsStr::new(str)`. -/
def enc (s : Str) : Bytes := s.flatMap encChar

/-- Turn a string literal into the model of `&str`. -/
def lit (s : String) : Str := s.toList

/-- Turn an ASCII string literal into bytes (for literals in the code such as `"--"`). -/
def blit (s : String) : Bytes := enc s.toList

/-- The byte `'-'`. -/
def dash : UInt8 := 45
/-- The byte `'='`. -/
def eqSign : UInt8 := 61

/-- UTF-8 continuation byte test (`byte & 192 == 128`), core `str/lossy.rs`. -/
def isCont (b : UInt8) : Bool := decide (128 ≤ b.toNat ∧ b.toNat ≤ 191)

/-- Second-byte table for three byte sequences, core `str/lossy.rs` (`Utf8Chunks::next`). -/
def second3 (b0 b1 : UInt8) : Bool :=
  decide ((b0.toNat = 0xE0 ∧ 0xA0 ≤ b1.toNat ∧ b1.toNat ≤ 0xBF)
    ∨ (0xE1 ≤ b0.toNat ∧ b0.toNat ≤ 0xEC ∧ 0x80 ≤ b1.toNat ∧ b1.toNat ≤ 0xBF)
    ∨ (b0.toNat = 0xED ∧ 0x80 ≤ b1.toNat ∧ b1.toNat ≤ 0x9F)
    ∨ (0xEE ≤ b0.toNat ∧ b0.toNat ≤ 0xEF ∧ 0x80 ≤ b1.toNat ∧ b1.toNat ≤ 0xBF))

/-- Second-byte table for four byte sequences, core `str/lossy.rs` (`Utf8Chunks::next`). -/
def second4 (b0 b1 : UInt8) : Bool :=
  decide ((b0.toNat = 0xF0 ∧ 0x90 ≤ b1.toNat ∧ b1.toNat ≤ 0xBF)
    ∨ (0xF1 ≤ b0.toNat ∧ b0.toNat ≤ 0xF3 ∧ 0x80 ≤ b1.toNat ∧ b1.toNat ≤ 0xBF)
    ∨ (b0.toNat = 0xF4 ∧ 0x80 ≤ b1.toNat ∧ b1.toNat ≤ 0x8F))

/-- Value of a two byte sequence. -/
def val2 (b0 b1 : UInt8) : Char :=
  Char.ofNat ((b0.toNat % 32) * 64 + b1.toNat % 64)
/-- Value of a three byte sequence. -/
def val3 (b0 b1 b2 : UInt8) : Char :=
  Char.ofNat ((b0.toNat % 16) * 4096 + (b1.toNat % 64) * 64 + b2.toNat % 64)
/-- Value of a four byte sequence. -/
def val4 (b0 b1 b2 b3 : UInt8) : Char :=
  Char.ofNat ((b0.toNat % 8) * 262144 + (b1.toNat % 64) * 4096 + (b2.toNat % 64) * 64
    + b3.toNat % 64)

/-- `bytes.utf8_chunks().next()` (`src/runtime.rs` 521): the characters of the longest valid
UTF-8 prefix and the remaining bytes.  `chunk.valid()` is the encoding of the first component;
`chunk.invalid().is_empty()` holds iff the second component is empty.
Simplification: the length of the invalid part is not modelled here (only its emptiness is used
by palc; see `lossy` for the other user). -/
def utf8Chunk : Bytes → Str × Bytes
  | [] => ([], [])
  | b0 :: r0 =>
    if b0.toNat < 128 then
      let (cs, rest) := utf8Chunk r0
      (Char.ofNat b0.toNat :: cs, rest)
    else if 0xC2 ≤ b0.toNat ∧ b0.toNat ≤ 0xDF then
      match r0 with
      | b1 :: r1 =>
        if isCont b1 then
          let (cs, rest) := utf8Chunk r1
          (val2 b0 b1 :: cs, rest)
        else ([], b0 :: b1 :: r1)
      | [] => ([], [b0])
    else if 0xE0 ≤ b0.toNat ∧ b0.toNat ≤ 0xEF then
      match r0 with
      | b1 :: b2 :: r2 =>
        if second3 b0 b1 && isCont b2 then
          let (cs, rest) := utf8Chunk r2
          (val3 b0 b1 b2 :: cs, rest)
        else ([], b0 :: b1 :: b2 :: r2)
      | r => ([], b0 :: r)
    else if 0xF0 ≤ b0.toNat ∧ b0.toNat ≤ 0xF4 then
      match r0 with
      | b1 :: b2 :: b3 :: r3 =>
        if second4 b0 b1 && isCont b2 && isCont b3 then
          let (cs, rest) := utf8Chunk r3
          (val4 b0 b1 b2 b3 :: cs, rest)
        else ([], b0 :: b1 :: b2 :: b3 :: r3)
      | r => ([], b0 :: r)
    else ([], b0 :: r0)

/-- `<&str>::try_from(&OsStr)` / `str::from_utf8`: the string if the bytes are valid UTF-8. -/
def fromUtf8 (bs : Bytes) : Option Str :=
  match utf8Chunk bs with
  | (cs, []) => some cs
  | (_, _ :: _) => none

/-- Lexicographic comparison of byte slices (`Ord for [u8]`, also `Ord for str`). -/
def cmpBytes : Bytes → Bytes → Ordering
  | [], [] => .eq
  | [], _ :: _ => .lt
  | _ :: _, [] => .gt
  | a :: as, b :: bs => if a < b then .lt else if b < a then .gt else cmpBytes as bs

/-- `str::split_once("=")` on `OsStr`, `src/runtime.rs` 512 (`os_str_bytes`). -/
def splitOnceEq : Bytes → Option (Bytes × Bytes)
  | [] => none
  | b :: bs =>
    if b = eqSign then some ([], bs)
    else match splitOnceEq bs with
      | some (l, r) => some (b :: l, r)
      | none => none

/-- `OsStr::strip_prefix`, `src/runtime.rs` 517, 527 (`os_str_bytes`). -/
def stripPrefix : Bytes → Bytes → Option Bytes
  | [], s => some s
  | _ :: _, [] => none
  | p :: ps, b :: bs => if p = b then stripPrefix ps bs else none

/-- Whether `index` may cut at byte `i` (`os_str_bytes`: `OsStrBytesExt::index` panics at other places): the ends, and
immediately before or after a valid non-empty UTF-8 substring. -/
def isBoundary (s : Bytes) (i : Nat) : Bool :=
  i == 0 || i == s.length ||
    (decide (i < s.length) &&
      (!(utf8Chunk (s.drop i)).1.isEmpty ||
        [1, 2, 3, 4].any (fun k => decide (k ≤ i) && (fromUtf8 ((s.take i).drop (i - k))).isSome)))

/-- `OsStrBytesExt::index(i..)`, `src/runtime.rs` 526, 539 (`os_str_bytes`); `none` is a panic. -/
def osIndex (s : Bytes) (i : Nat) : Option Bytes :=
  if isBoundary s i then some (s.drop i) else none

/-- `OsStr::starts_with`. -/
def startsWith (s p : Bytes) : Bool := (stripPrefix p s).isSome

/-- Loop of `OsStr::split(char)` (`src/runtime.rs` 401, `os_str_bytes`): `cur` are the bytes of the
current fragment, reversed; `skip` counts bytes of a delimiter just recognised. -/
def splitGo (pat : Bytes) : Bytes → Nat → Bytes → List Bytes
  | cur, _, [] => [cur.reverse]
  | cur, skip + 1, _ :: bs => splitGo pat cur skip bs
  | cur, 0, b :: bs =>
    if startsWith (b :: bs) pat then cur.reverse :: splitGo pat [] (pat.length - 1) bs
    else splitGo pat (b :: cur) 0 bs

/-- `OsStr::split(char)`, `src/runtime.rs` 401. -/
def splitOn (c : Char) (s : Bytes) : List Bytes := splitGo (encChar c) [] 0 s

/-- `u8::to_ascii_lowercase`. -/
def lowerByte (b : UInt8) : UInt8 := if 65 ≤ b.toNat ∧ b.toNat ≤ 90 then b + 32 else b

/-- `OsStr::make_ascii_lowercase`, `src/runtime.rs` 672. -/
def asciiLower (s : Bytes) : Bytes := s.map lowerByte

/-- `u8::is_ascii_digit`. -/
def isDigit (b : UInt8) : Bool := decide (48 ≤ b.toNat ∧ b.toNat ≤ 57)

/-- `char::is_ascii_control`. -/
def isAsciiControl (c : Char) : Bool := decide (c.toNat < 32 ∨ c.toNat = 127)

/-- `slice::binary_search_by` (core, the branch-reduced loop since Rust 1.82):
`while size > 1 { half = size/2; mid = base+half; base = if f(mid) > then base else mid; size -= half }`.
`fuel` bounds the number of iterations; `size` itself is enough. -/
def bsLoop (f : Nat → Ordering) : Nat → Nat → Nat → Nat
  | 0, base, _ => base
  | fuel + 1, base, size =>
    if size > 1 then
      let half := size / 2
      let mid := base + half
      let base := if f mid = .gt then base else mid
      bsLoop f fuel base (size - half)
    else base

/-- The comparison closure of the search: entry `i` against `k` (`none` cannot occur for the indexes
used). -/
def cmpAt (keys : List Bytes) (k : Bytes) (i : Nat) : Ordering :=
  match keys[i]? with
  | some key => cmpBytes key k
  | none => .gt

/-- Result of `slice::binary_search_by_key(..).ok()` on an array of bytes keys
(`src/refl.rs` 53-57, 190-194). -/
def binarySearch (keys : List Bytes) (k : Bytes) : Option Nat :=
  if keys.length = 0 then none
  else
    let base := bsLoop (cmpAt keys k) keys.length 0 keys.length
    if cmpAt keys k base = .eq then some base else none

/-- Split a path at `/` (byte 47). -/
def splitSlash : Bytes → List Bytes
  | [] => [[]]
  | b :: bs =>
    if b = 47 then [] :: splitSlash bs
    else match splitSlash bs with
      | [] => [[b]]
      | s :: ss => (b :: s) :: ss

/-- `Path::file_name` on Unix (std): the last component ignoring empty and non-leading `.`
components, provided it is a normal component.
Simplification: a leading `.` component (`CurDir`) is dropped like the others, which gives the
same answer `None` when it is the only component. -/
def fileName (p : Bytes) : Option Bytes :=
  match ((splitSlash p).filter (fun s => s ≠ [] ∧ s ≠ [46])).getLast? with
  | some s => if s = [46, 46] then none else some s
  | none => none

/-- Number of bytes consumed by `Utf8Chunks` for the invalid sequence at the head (at least 1):
core `str/lossy.rs`, the positions of the `break`s. -/
def invalidLen : Bytes → Nat
  | b0 :: b1 :: b2 :: _ =>
    if 0xE0 ≤ b0.toNat ∧ b0.toNat ≤ 0xEF then (if second3 b0 b1 then 2 else 1)
    else if 0xF0 ≤ b0.toNat ∧ b0.toNat ≤ 0xF4 then
      (if second4 b0 b1 then (if isCont b2 then 3 else 2) else 1)
    else 1
  | [b0, b1] =>
    if 0xE0 ≤ b0.toNat ∧ b0.toNat ≤ 0xEF then (if second3 b0 b1 then 2 else 1)
    else if 0xF0 ≤ b0.toNat ∧ b0.toNat ≤ 0xF4 then (if second4 b0 b1 then 2 else 1)
    else 1
  | _ => 1

/-- Loop of `OsStr::to_string_lossy` / `String::from_utf8_lossy`. Every iteration removes at least
one byte, so `fuel = length` suffices. -/
def lossyGo : Nat → Bytes → Str
  | 0, _ => []
  | fuel + 1, bs =>
    match utf8Chunk bs with
    | (cs, []) => cs
    | (cs, rest) => cs ++ Char.ofNat 0xFFFD :: lossyGo fuel (rest.drop (invalidLen rest))

/-- `OsStr::to_string_lossy`, `src/runtime.rs` 87. -/
def lossy (bs : Bytes) : Str := lossyGo (bs.length + 1) bs

end Palc
