import Verif.Model.IndexEncoding

/- Decimal printing (`std::to_string` of an unsigned integer) and `std::stoull` base 10. -/
namespace Alaya

/-- A decimal digit character. -/
def decDigit (d : Nat) : UInt8 := UInt8.ofNat (48 + d)

/-- Value of a decimal digit character. -/
def decVal (c : UInt8) : Option Nat :=
  if 48 ≤ c.toNat ∧ c.toNat ≤ 57 then some (c.toNat - 48) else none

/-- Digits of `n`, most significant first; `fuel` bounds the number of digits. -/
def decFuel : Nat → Nat → Bytes
  | 0, _ => []
  | f + 1, n => if n < 10 then [decDigit n] else decFuel f (n / 10) ++ [decDigit (n % 10)]

/-- `std::to_string(n)` for an unsigned integer: decimal without leading zeros. -/
def decStr (n : Nat) : Bytes := decFuel (n + 1) n

/-- `std::stoull(s)` base 10; `none` = exception (no digit or above 2^64-1).  Simplification: leading
white space and sign are not modelled (the callers pass digit strings). -/
def stoull10 (s : Bytes) : Option Nat :=
  match s with
  | [] => none
  | c :: _ =>
    if (decVal c).isNone then none
    else
      let n := parseDigits 10 decVal 0 s
      if n < 2 ^ 64 then some n else none

end Alaya
