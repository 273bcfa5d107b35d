import Verif.Base
/-!
# C library functions on strings

The functions of the C library that the user space code parses with, in the C locale, with 64-bit `long`.
Not part of `/repo`: written from the C and POSIX standards (and glibc where they leave a choice).  A C string is the list
of its characters, without the final NUL.
-/
namespace Bf

/-- `isspace` in the C locale. -/
def isSpace (c : Char) : Bool := c = ' ' || c = '\t' || c = '\n' || c = '\x0b' || c = '\x0c' || c = '\r'

/-- The value of a digit, of any base up to 36. -/
def digitVal (c : Char) : Nat :=
  if '0' ≤ c ∧ c ≤ '9' then c.toNat - 48
  else if 'a' ≤ c ∧ c ≤ 'z' then c.toNat - 87
  else if 'A' ≤ c ∧ c ≤ 'Z' then c.toNat - 55
  else 99

def isDigitOf (base : Nat) (c : Char) : Bool := digitVal c < base

/-- `isdigit`. -/
def isDigit (c : Char) : Bool := isDigitOf 10 c

/-- The value of a string of digits, most significant first. -/
def digitsVal (base : Nat) (ds : List Char) : Nat := ds.foldl (fun n c => n * base + digitVal c) 0

/-- What `strtoul` and `strtoll` read: sign, digits, and what follows them.  `none` when there is no digit. -/
def strtoInt (base : Nat) (s : List Char) : Option (Bool × Nat × List Char) :=
  let s := s.dropWhile isSpace
  let neg := s.head? = some '-'
  let s := if s.head? = some '-' ∨ s.head? = some '+' then s.tail else s
  let hex := (base = 0 ∨ base = 16) ∧ s.head? = some '0' ∧ (s.tail.head? = some 'x' ∨ s.tail.head? = some 'X') ∧
    (s.tail.tail.head?.map (isDigitOf 16)) = some true
  let b := if hex then 16 else if base = 0 then (if s.head? = some '0' then 8 else 10) else base
  let s := if hex then s.tail.tail else s
  let ds := s.takeWhile (isDigitOf b)
  if ds = [] then none else some (neg, digitsVal b ds, s.dropWhile (isDigitOf b))

/-- What a call to `strtoul` leaves: the value, what follows it, and whether it was out of range (`errno = ERANGE`). -/
structure Strtoul where
  val : Nat
  rest : List Char
  range : Bool
  deriving DecidableEq, Repr

/-- `strtoul(s, &end, base)`: a value that does not fit is `ULONG_MAX`, a negative value is taken modulo 2^64. -/
def strtoul (s : List Char) (base : Nat) : Strtoul :=
  match strtoInt base s with
  | none => ⟨0, s, false⟩
  | some (neg, n, rest) =>
    if 18446744073709551616 ≤ n then ⟨18446744073709551615, rest, true⟩
    else ⟨if neg then (18446744073709551616 - n) % 18446744073709551616 else n, rest, false⟩

/-- `strtoll(s, &end, base)`. -/
def strtoll (s : List Char) (base : Nat) : Int × List Char :=
  match strtoInt base s with
  | none => (0, s)
  | some (neg, n, rest) =>
    (if neg then (if 9223372036854775808 < n then -9223372036854775808 else -(n : Int))
     else (if 9223372036854775807 < n then 9223372036854775807 else n), rest)

/-- `strtok_r(s, delims, &save)`: the token, and the string at `save`. -/
def strtok (delim : Char → Bool) (s : List Char) : Option (List Char × List Char) :=
  let s := s.dropWhile delim
  if s = [] then none else some (s.takeWhile (fun c => !delim c), (s.dropWhile (fun c => !delim c)).tail)

/-- helper.c:167-202 `bf_trim`. -/
def trim (s : List Char) : List Char := ((s.dropWhile isSpace).reverse.dropWhile isSpace).reverse

/-- helper.c:39-55 `bf_strncpy`: what is copied to a buffer of `n` bytes. -/
def strncpy (n : Nat) (s : List Char) : List Char := s.take (n - 1)

end Bf
