/-
Model of /repo/util/fraction.go and /repo/util/fee.go.

`none` as a result means that the Go code panics (division of a `big.Int` by zero, or `sdk.Int.Int64`
out of range).  `big.Int` is `Int` (both unbounded).  The in-place mutation done by `Reduce` is modelled
as returning a new value (its callers in the package apply it to freshly allocated numbers only).
-/
namespace Verif.Util

/-- `type Fraction struct { num, denom *big.Int }`, util/fraction.go:14-17; the null value (both
pointers nil) is `none : Option Frac` where it matters. -/
structure Frac where
  num : Int
  denom : Int
deriving DecidableEq, Repr

/-- `big.Int.Quo`: truncated division, panics when the divisor is zero. -/
def quo? (a b : Int) : Option Int := if b = 0 then none else some (a.tdiv b)

/-- `big.Int.GCD(nil, nil, x, y)` (Go ≥ 1.14): non-negative, `GCD(0,0) = 0`. -/
def goGcd (x y : Int) : Int := (Int.gcd x y : Int)

/-- `big.Int.Int64`: the low 64 bits as a two's complement number. -/
def wrap64 (x : Int) : Int := Int.bmod x (2 ^ 64)

/-- `sdk.Int.IsInt64`. -/
def isInt64 (x : Int) : Bool := decide (-(2 ^ 63) ≤ x ∧ x < 2 ^ 63)

/-- `sdk.Int.Int64`: panics when the number does not fit. -/
def sdkInt64? (x : Int) : Option Int := if isInt64 x then some x else none

/-- `lcm`, util/fraction.go:255-263. -/
def lcm? (x y : Int) : Option Int := do
  let r ← quo? (x * y) (goGcd x y)
  return if r < 0 then -r else r

namespace Frac

/-- `FractionInt`, util/fraction.go:94. -/
def ofInt (x : Int) : Frac := ⟨x, 1⟩

/-- `Percent`, util/fraction.go:86-88. -/
def percent (x : Int) : Frac := ⟨x, 100⟩

/-- `Permille`, util/fraction.go:90-92. -/
def permille (x : Int) : Frac := ⟨x, 1000⟩

/-- `BigInt`, util/fraction.go:163. -/
def bigInt? (x : Frac) : Option Int := quo? x.num x.denom

/-- `Int64`, util/fraction.go:165. -/
def int64? (x : Frac) : Option Int := do
  let b ← x.bigInt?
  return wrap64 b

/-- `Reduce`, util/fraction.go:177-186. -/
def reduce? (x : Frac) : Option Frac := do
  let y : Frac := if x.denom < 0 then ⟨-x.num, -x.denom⟩ else x
  let q := goGcd y.num y.denom
  let n ← quo? y.num q
  let d ← quo? y.denom q
  return ⟨n, d⟩

/-- `Mul`, util/fraction.go:188-193. -/
def mul? (x y : Frac) : Option Frac := reduce? ⟨x.num * y.num, x.denom * y.denom⟩

/-- `MulInt64`, util/fraction.go:195-197. -/
def mulInt? (x : Frac) (y : Int) : Option Frac := x.mul? (ofInt y)

/-- `Div`, util/fraction.go:199-204. -/
def div? (x y : Frac) : Option Frac := reduce? ⟨x.num * y.denom, x.denom * y.num⟩

/-- `DivInt64`, util/fraction.go:206-208. -/
def divInt? (x : Frac) (y : Int) : Option Frac := x.div? (ofInt y)

/-- `Neg`, util/fraction.go:210-215. -/
def neg (x : Frac) : Frac := ⟨-x.num, x.denom⟩

/-- `Add`, util/fraction.go:217-227. -/
def add? (x y : Frac) : Option Frac := do
  let com ← lcm? x.denom y.denom
  let a ← quo? (x.num * com) x.denom
  let b ← quo? (y.num * com) y.denom
  return ⟨a + b, com⟩

/-- `Sub`, util/fraction.go:229-231. -/
def sub? (x y : Frac) : Option Frac := x.add? y.neg

/-- `IsZero`, util/fraction.go:237-239. -/
def isZero (x : Frac) : Bool := x.num.sign == 0

/-- `IsNegative`, util/fraction.go:241-243. -/
def isNegative (x : Frac) : Bool := decide (x.num.sign * x.denom.sign < 0)

/-- `IsPositive`, util/fraction.go:245-247. -/
def isPositive (x : Frac) : Bool := decide (x.num.sign * x.denom.sign > 0)

/-- `Equal`, util/fraction.go:249. -/
def equal? (x y : Frac) : Option Bool := do return (← x.sub? y).isZero
/-- `GT`, util/fraction.go:250. -/
def gt? (x y : Frac) : Option Bool := do return (← x.sub? y).isPositive
/-- `LT`, util/fraction.go:251. -/
def lt? (x y : Frac) : Option Bool := y.gt? x
/-- `GTE`, util/fraction.go:252. -/
def gte? (x y : Frac) : Option Bool := do return !(← x.lt? y)
/-- `LTE`, util/fraction.go:253. -/
def lte? (x y : Frac) : Option Bool := do return !(← x.gt? y)

end Frac

/-! ### Text form -/

/-- The decimal digit character of `d < 10`. -/
def digitChar (d : Nat) : Char := Char.ofNat (48 + d)

/-- Decimal digits of a natural number, as `big.Int.MarshalText` writes them (no leading zeros, `0` is "0"). -/
def natText (n : Nat) : List Char :=
  if n < 10 then [digitChar n] else natText (n / 10) ++ [digitChar (n % 10)]

/-- `big.Int.MarshalText`: an optional minus sign and the decimal digits. -/
def intText (n : Int) : List Char :=
  if n < 0 then '-' :: natText n.natAbs else natText n.natAbs

/-- `String`, util/fraction.go:138-161 (also what `MarshalTo`/`MarshalJSON`/`MarshalAmino`/`MarshalYAML`
write, lines 38-58 and 265-271). -/
def fracText : Option Frac → List Char
  | none => ['n', 'i', 'l']
  | some x =>
    intText x.num ++
      (if x.denom = 100 then ['%'] else if x.denom = 1 then [] else '/' :: intText x.denom)

/-- `\d` of the two regular expressions (ASCII digits). -/
def isDigit (c : Char) : Bool := decide (48 ≤ c.toNat ∧ c.toNat ≤ 57)

def digitVal (c : Char) : Nat := c.toNat - 48

/-- Value of a digit string in the given base, `none` as soon as a digit is not below the base. -/
def scanDigits (base : Nat) : Nat → List Char → Option Nat
  | acc, [] => some acc
  | acc, c :: cs => if digitVal c < base then scanDigits base (acc * base + digitVal c) cs else none

/-- `big.Int.UnmarshalText` restricted to non-empty digit strings (all the regular expressions let
through).  The Go library scans with base 0: a leading `0` followed by more digits selects octal. -/
def scanNat : List Char → Option Nat
  | [] => none
  | '0' :: c :: cs => scanDigits 8 0 (c :: cs)
  | cs => scanDigits 10 0 cs

/-- As `scanNat`, with an optional minus sign. -/
def scanInt : List Char → Option Int
  | '-' :: cs => (scanNat cs).map (fun (n : Nat) => -(n : Int))
  | cs => (scanNat cs).map (fun (n : Nat) => (n : Int))

/-- Splits off the longest prefix matching `-?\d+`; `none` when there is no digit. -/
def spanInt : List Char → Option (List Char × List Char)
  | '-' :: cs =>
    if (cs.takeWhile isDigit).isEmpty then none
    else some ('-' :: cs.takeWhile isDigit, cs.dropWhile isDigit)
  | cs =>
    if (cs.takeWhile isDigit).isEmpty then none
    else some (cs.takeWhile isDigit, cs.dropWhile isDigit)

/-- `ParseFraction`, util/fraction.go:98-136 (also `Unmarshal`/`UnmarshalJSON`/`UnmarshalAmino`/
`UnmarshalYAML`).  Outer `none` = error returned; `some none` = the null value.
The percent pattern is `^(-?\d+)%$`, the other one `^(-?\d+)(?:/(\d+))?$`. -/
def parseFraction (s : List Char) : Option (Option Frac) :=
  if s = [] ∨ s = ['n', 'i', 'l'] then some none
  else
    match spanInt s with
    | none => none
    | some (n, ['%']) => (scanInt n).map fun n => some ⟨n, 100⟩
    | some (n, []) => (scanInt n).map fun n => some ⟨n, 1⟩
    | some (n, '/' :: d) =>
      if d.isEmpty || !d.all isDigit then none
      else do
        let d ← scanNat d
        let n ← scanInt n
        return some ⟨n, d⟩
    | some (_, _) => none

/-! ### Fees -/

/-- `calculateForBurningFeeFraction`, util/fee.go:18-20. -/
def burningFraction? (p c : Frac) : Option Frac := do
  let x ← (Frac.ofInt 1).sub? p
  x.sub? c

/-- `CalculateTransactionFeeSplitRatiosLCM`, util/fee.go:22-24. -/
def splitLcm? (p c : Frac) : Option Int := do
  let a ← lcm? p.denom c.denom
  let b ← burningFraction? p c
  lcm? a b.denom

/-- `calculateSplittableFee`, util/fee.go:26-28.  `sdk.Int.Mod` is the Euclidean `big.Int.Mod`, which panics
on a zero divisor. -/
def splittableFee? (fee : Int) (p c : Frac) : Option Int := do
  let l ← splitLcm? p c
  if l = 0 then none else return fee - fee % l

/-- `CalculateFee`, util/fee.go:7-16. -/
def calculateFee? (amount : Int) (rate : Frac) (maxFee : Int) (p c : Frac) : Option Int := do
  let a ← sdkInt64? amount
  let m ← rate.mulInt? a
  let fee ← m.int64?
  let fee := if maxFee ≠ 0 ∧ fee > maxFee then maxFee else fee
  splittableFee? fee p c

/-- `SplitFee`, util/fee.go:30-34: (for the proposer, for the company, for burning). -/
def splitFee? (fee : Int) (p c : Frac) : Option (Int × Int × Int) := do
  let f ← sdkInt64? fee
  let x ← (← p.mulInt? f).int64?
  let y ← (← c.mulInt? f).int64?
  let z ← (← (← burningFraction? p c).mulInt? f).int64?
  return (x, y, z)

/-- `TransactionFeeSplitRatiosMaxLcm`, util/keys.go. -/
def splitRatiosMaxLcm : Int := 100

/-- The fee part of the bank parameters. -/
structure FeeParams where
  rate : Frac
  maxFee : Int
  forProposer : Frac
  forCompany : Frac
deriving DecidableEq, Repr

/-- `validateTransactionFee`, `validateMaxTransactionFee` and `validateTransactionFeeSplitRatios`,
x/bank/types/params.go:165-205: `some true` accepted, `some false` refused with an error, `none` panics
(the setter or transaction is then refused too). -/
def validateFeeParams? (q : FeeParams) : Option Bool := do
  if q.rate.isNegative then return false
  if q.maxFee < 0 then return false
  if q.forProposer.isNegative then return false
  if q.forCompany.isNegative then return false
  let s ← q.forProposer.add? q.forCompany
  if ← s.gt? (Frac.ofInt 1) then return false
  let l ← splitLcm? q.forProposer q.forCompany
  if l > splitRatiosMaxLcm then return false
  return true

end Verif.Util
