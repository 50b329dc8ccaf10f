import Verif.Model.Bytes
/-
IEEE-754 binary64 as used by `NumberAttribute.value float64` (ast/ast.go:454-459):
`strconv.ParseFloat` on the number syntax of the grammar, and the `%g`, `%d` and
`%.10f` formatting used by `NumberAttribute.ValueString` (ast/ast.go:480-489).

Only finite values exist here: the parser rejects out-of-range literals
(`strconv.ParseFloat` returns `ErrRange`), so a parsed configuration never holds
an infinity or a NaN.
-/
namespace Verif

/-- A finite binary64 value `(-1)^neg * m * 2^e`.  Values built by `roundPos`
are canonical (`F64.Canon`). -/
structure F64 where
  neg : Bool
  m : Nat
  e : Int
deriving DecidableEq, Repr, Inhabited

/-- Canonical representation of a finite binary64: a 53-bit significand, minimal
exponent `-1074`, maximal exponent `971`. -/
def F64.Canon (x : F64) : Prop :=
  x.m < 2 ^ 53 ∧ -1074 ≤ x.e ∧ x.e ≤ 971 ∧ (2 ^ 52 ≤ x.m ∨ x.e = -1074)

instance (x : F64) : Decidable x.Canon := by unfold F64.Canon; infer_instance

/-- Numerator of the non-negative rational `a/b * 2^(-e)`. -/
def scaleNum (a : Nat) (e : Int) : Nat := if e < 0 then a * 2 ^ (-e).toNat else a

/-- Denominator of the non-negative rational `a/b * 2^(-e)`. -/
def scaleDen (b : Nat) (e : Int) : Nat := if e < 0 then b else b * 2 ^ e.toNat

/-- `n/d` rounded to the nearest integer, ties to even. -/
def roundHalfEven (n d : Nat) : Nat :=
  let q := n / d
  let r := n % d
  if 2 * r < d then q else if 2 * r > d then q + 1 else if q % 2 = 0 then q else q + 1

/-- `⌊log₂ (a/b)⌋` for positive `a`, `b`. -/
def floorLog2 (a b : Nat) : Int :=
  let l : Int := (Nat.log2 a : Int) - (Nat.log2 b : Int)
  -- a/b lies in [2^(l-1), 2^(l+1))
  if scaleDen b l ≤ scaleNum a l then l else l - 1

/-- Round the non-negative rational `a/b` to binary64, nearest-even;
`none` is overflow (`strconv.ErrRange`). -/
def roundPos (neg : Bool) (a b : Nat) : Option F64 :=
  if a = 0 then some ⟨neg, 0, -1074⟩
  else
    let e : Int := max (floorLog2 a b - 52) (-1074)
    let m := roundHalfEven (scaleNum a e) (scaleDen b e)
    let x : F64 := if m = 2 ^ 53 then ⟨neg, 2 ^ 52, e + 1⟩ else ⟨neg, m, e⟩
    if x.e ≤ 971 then some x else none

/-- Is `b` an ASCII digit? -/
def isDigit (b : UInt8) : Bool := 48 ≤ b && b ≤ 57

/-- Value of a string of digits. -/
def digitsVal (s : Bytes) : Nat := s.foldl (fun acc b => acc * 10 + (b.toNat - 48)) 0

/-- `strconv.ParseFloat(s, 64)` restricted to the syntax the grammar hands it,
`"-"? [0-9]+ ("." [0-9]*)?` (logstash_config.peg:260-263, called from
logstash_config_helper.go:304-311).  `none` is an error: a range error, or a syntax
error for text outside that syntax. -/
def parseFloat (s : Bytes) : Option F64 :=
  let neg := s.head? == some 45
  let s := if neg then s.drop 1 else s
  let ip := s.takeWhile isDigit
  let rest := s.dropWhile isDigit
  if ip.isEmpty then none
  else match rest with
    | [] => roundPos neg (digitsVal ip) 1
    | c :: fp =>
      if c = 46 && fp.all isDigit then
        roundPos neg (digitsVal (ip ++ fp)) (10 ^ fp.length)
      else none

/-! ### Formatting -/

/-- A decimal `0.d₁d₂…dₙ · 10^dp` in the sense of Go's `strconv.decimalSlice`. -/
structure Dec where
  digits : Bytes
  dp : Int
deriving DecidableEq, Repr

/-- The rational (numerator, denominator) denoted by the integer `D` scaled by
`10^k`. -/
def decRat (D : Nat) (k : Int) : Nat × Nat :=
  if k < 0 then (D, 10 ^ (-k).toNat) else (D * 10 ^ k.toNat, 1)

/-- Does the decimal `D * 10^k` read back as `x`? -/
def readsBack (x : F64) (D : Nat) (k : Int) : Bool :=
  roundPos x.neg (decRat D k).1 (decRat D k).2 == some x

/-- Strip trailing zero digits, using `fuel` steps. -/
def stripZeros : Nat → Nat → Int → Nat × Int
  | 0, D, k => (D, k)
  | fuel + 1, D, k => if D % 10 = 0 && D != 0 then stripZeros fuel (D / 10) (k + 1) else (D, k)

/-- `⌊log₁₀ (a/b)⌋ + 1`, i.e. the decimal point position of `a/b`, by counting up
or down; `fuel` bounds the search (binary64 needs at most 330 steps). -/
def decPoint : Nat → Nat → Nat → Int → Int
  | 0, _, _, dp => dp
  | fuel + 1, a, b, dp =>
    -- invariant wanted: 10^(dp-1) ≤ a/b < 10^dp
    let hi := decRat 1 dp
    let lo := decRat 1 (dp - 1)
    if a * hi.2 ≥ b * hi.1 then decPoint fuel a b (dp + 1)
    else if a * lo.2 < b * lo.1 then decPoint fuel a b (dp - 1)
    else dp

/-- Absolute difference of two naturals. -/
def absDiff (a b : Nat) : Nat := (a - b) + (b - a)

/-- Search for the shortest decimal that reads back as `x`, from `n` digits up;
of two candidates with the same number of digits the closer one is taken. -/
def shortestAux (x : F64) (a b : Nat) (dp : Int) : Nat → Nat → Option (Nat × Int)
  | 0, _ => none
  | fuel + 1, n =>
    let k : Int := dp - n
    -- a/b / 10^k
    let num := if k < 0 then a * 10 ^ (-k).toNat else a
    let den := if k < 0 then b else b * 10 ^ k.toNat
    let lo := num / den
    let hi := lo + 1
    match readsBack x lo k && lo != 0, readsBack x hi k with
    | true, true => some (if absDiff (lo * den) num ≤ absDiff (hi * den) num then (lo, k) else (hi, k))
    | true, false => some (lo, k)
    | false, true => some (hi, k)
    | false, false => shortestAux x a b dp fuel (n + 1)

/-- Shortest decimal representation that parses back to `x`
(`strconv.FormatFloat(x, 'g', -1, 64)`, `ryuFtoaShortest`). -/
def shortest (x : F64) : Option (Nat × Int) :=
  if x.m = 0 then some (0, 0)
  else
    let a := scaleNum x.m (-x.e)
    let b := scaleDen 1 (-x.e)
    let dp := decPoint 700 a b (((Nat.log2 a : Int) - Nat.log2 b) * 30103 / 100000)
    (shortestAux x a b dp 17 1).map fun (D, k) => stripZeros 20 D k

/-- `%f`-style rendering of the decimal `D * 10^k` (`strconv.fmtF` with exactly
the digits needed). -/
def fmtF (D : Nat) (k : Int) : Bytes :=
  if 0 ≤ k then natToBytes (D * 10 ^ k.toNat)
  else
    let f := (-k).toNat
    let ds := natToBytes D
    let ds := List.replicate (f + 1 - ds.length) 48 ++ ds
    ds.take (ds.length - f) ++ [46] ++ ds.drop (ds.length - f)

/-- Sign prefix. -/
def signBytes (neg : Bool) : Bytes := if neg then [45] else []

/-- Decimal exponent `digs.dp - 1` that `%g` looks at. -/
def gExp (D : Nat) (k : Int) : Int :=
  if D = 0 then -1 else ((natToBytes D).length : Int) + k - 1

/-- `strings.Contains(fmt.Sprintf("%g", v), "e")` (ast/ast.go:481-482): `%g`
with the shortest precision switches to exponent notation when the decimal
exponent is below -4 or at least 6 (strconv's `eprec = 6` for the shortest
format). -/
def gUsesExp (D : Nat) (k : Int) : Bool := gExp D k < -4 || gExp D k ≥ 6

/-- The absolute value of `x` as a fraction. -/
def F64.num (x : F64) : Nat := scaleNum x.m (-x.e)
/-- See `F64.num`. -/
def F64.den (x : F64) : Nat := scaleDen 1 (-x.e)

/-- `float64(int64(v)) == v` (ast/ast.go:483).  Out-of-range conversions are
implementation-defined in Go; this is the amd64 behaviour, where they give
`-2^63`. -/
def isInt64 (x : F64) : Bool :=
  x.num % x.den == 0 &&
    (decide (x.num / x.den < 2 ^ 63) || (x.neg && x.num / x.den == 2 ^ 63))

/-- `fmt.Sprintf("%.10f", v)` without the sign: the exact value rounded
half-even at ten decimals. -/
def fmtF10 (x : F64) : Bytes := fmtF (roundHalfEven (x.num * 10 ^ 10) x.den) (-10)

/-- `NumberAttribute.ValueString` (ast/ast.go:480-489).  The `none` case of
`shortest` never happens for a canonical value (`shortest_isSome`); it falls
back to the exact expansion. -/
def numString (x : F64) : Bytes :=
  let sh := (shortest x).getD (0, 0)
  if gUsesExp sh.1 sh.2 then
    if isInt64 x then
      -- int64(-0.0) = 0 never reaches this branch: `%g` of zero has no exponent
      signBytes x.neg ++ natToBytes (x.num / x.den)
    else trimRight 48 (signBytes x.neg ++ fmtF10 x)
  else signBytes x.neg ++ fmtF sh.1 sh.2

end Verif
