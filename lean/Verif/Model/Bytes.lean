/-
Go strings and byte slices, and the handful of standard-library functions the
project calls on them.

A Go `string` / `[]byte` is modelled as a list of bytes.  Nothing here is
specific to the project except the choice of which functions appear.
-/
namespace Verif

/-- A Go `string` or `[]byte`: an arbitrary sequence of bytes, *not* assumed to
be valid UTF-8. -/
abbrev Bytes := List UInt8

open Lean in
/-- `b!"text"` is the list of UTF-8 bytes of a string literal, written out as an
explicit list so that both `simp` and the kernel can compute with it. -/
macro:max "b!" s:str : term => do
  let elems ← s.getString.toUTF8.toList.mapM fun c => `(($(quote c.toNat) : UInt8))
  let arr := elems.toArray
  `(([$arr,*] : List UInt8))

/-! ### unicode/utf8 (Go standard library) -/

/-- `utf8.RuneError`, U+FFFD. -/
def runeError : Nat := 0xFFFD

/-- Is `b` a UTF-8 continuation byte in the inclusive range `lo..hi`? -/
def inRange (b lo hi : UInt8) : Bool := lo ≤ b && b ≤ hi

/-- `utf8.DecodeRune` (Go standard library): the first rune of `p` and its width
in bytes.  `(RuneError, 0)` for the empty string and `(RuneError, 1)` for an
invalid encoding, exactly the two cases `logstash_config.go:12482` and
`:12821` distinguish. -/
def decodeRune : Bytes → Nat × Nat
  | [] => (runeError, 0)
  | b0 :: t =>
    if b0 < 0x80 then (b0.toNat, 1)
    else if inRange b0 0xC2 0xDF then
      match t with
      | b1 :: _ =>
        if inRange b1 0x80 0xBF then
          ((b0.toNat - 0xC0) * 64 + (b1.toNat - 0x80), 2)
        else (runeError, 1)
      | [] => (runeError, 1)
    else if inRange b0 0xE0 0xEF then
      let lo : UInt8 := if b0 = 0xE0 then 0xA0 else 0x80
      let hi : UInt8 := if b0 = 0xED then 0x9F else 0xBF
      match t with
      | b1 :: b2 :: _ =>
        if inRange b1 lo hi && inRange b2 0x80 0xBF then
          ((b0.toNat - 0xE0) * 4096 + (b1.toNat - 0x80) * 64 + (b2.toNat - 0x80), 3)
        else (runeError, 1)
      | _ => (runeError, 1)
    else if inRange b0 0xF0 0xF4 then
      let lo : UInt8 := if b0 = 0xF0 then 0x90 else 0x80
      let hi : UInt8 := if b0 = 0xF4 then 0x8F else 0xBF
      match t with
      | b1 :: b2 :: b3 :: _ =>
        if inRange b1 lo hi && inRange b2 0x80 0xBF && inRange b3 0x80 0xBF then
          ((b0.toNat - 0xF0) * 262144 + (b1.toNat - 0x80) * 4096
            + (b2.toNat - 0x80) * 64 + (b3.toNat - 0x80), 4)
        else (runeError, 1)
      | _ => (runeError, 1)
    else (runeError, 1)

/-- The split of a Go string into the substrings that `for _, r := range s`,
`regexp` and `bytes.Map` step over: one chunk per rune, one chunk of width 1 per
invalid byte.  The fuel argument is the length of the string. -/
def runeChunksAux : Nat → Bytes → List Bytes
  | 0, _ => []
  | n + 1, s =>
    match s with
    | [] => []
    | b :: t =>
      let w := (decodeRune (b :: t)).2
      (b :: t).take w :: runeChunksAux n ((b :: t).drop w)

/-- See `runeChunksAux`. -/
def runeChunks (s : Bytes) : List Bytes := runeChunksAux s.length s

/-! ### strings / bytes (Go standard library) -/

/-- `strings.TrimRight(s, string(c))` for a single-byte cutset. -/
def trimRight (c : UInt8) (s : Bytes) : Bytes :=
  (s.reverse.dropWhile (· == c)).reverse

/-- `strings.TrimLeft(s, cutset)` for an ASCII cutset given as a predicate. -/
def trimLeftBy (p : UInt8 → Bool) (s : Bytes) : Bytes := s.dropWhile p

/-- `strings.Trim(s, string(c))` for a single-byte cutset. -/
def trim (c : UInt8) (s : Bytes) : Bytes := trimRight c (s.dropWhile (· == c))

/-- `strings.ReplaceAll(s, string(c), "")`: remove every byte `c`. -/
def removeByte (c : UInt8) (s : Bytes) : Bytes := s.filter (· != c)

/-- `strings.Split(s, string(c))` for a single-byte separator: always at least
one piece. -/
def splitOn (c : UInt8) : Bytes → List Bytes
  | [] => [[]]
  | b :: t =>
    if b = c then [] :: splitOn c t
    else match splitOn c t with
      | [] => [[b]]
      | h :: r => (b :: h) :: r

/-- The part of `line` after the first byte `c`, or `none` when `c` does not
occur: `strings.Index` followed by `line[idx+1:]`. -/
def afterFirst (c : UInt8) : Bytes → Option Bytes
  | [] => none
  | b :: t => if b = c then some t else afterFirst c t

/-- `strings.Contains(s, sub)`. -/
def containsSub (s sub : Bytes) : Bool :=
  match s with
  | [] => sub.isEmpty
  | b :: t => sub.isPrefixOf (b :: t) || containsSub t sub

/-- `strings.Join(parts, sep)`. -/
def joinSep (sep : Bytes) : List Bytes → Bytes
  | [] => []
  | [x] => x
  | x :: y :: r => x ++ sep ++ joinSep sep (y :: r)

/-- Decimal digits of `n`, most significant first, using `fuel` steps. -/
def natDigitsAux : Nat → Nat → Bytes → Bytes
  | 0, _, acc => acc
  | fuel + 1, n, acc =>
    let acc' := UInt8.ofNat (48 + n % 10) :: acc
    if n / 10 = 0 then acc' else natDigitsAux fuel (n / 10) acc'

/-- `strconv.Itoa` / `%d` for a non-negative number. -/
def natToBytes (n : Nat) : Bytes := natDigitsAux (n + 1) n []

/-- `strconv.Itoa` / `%d`. -/
def intToBytes : Int → Bytes
  | .ofNat n => natToBytes n
  | .negSucc n => 45 :: natToBytes (n + 1)

end Verif
