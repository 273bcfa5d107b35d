import Verif.User.CStr
import Verif.Machine.Mem
/-!
# Internet addresses as text

`inet_pton` and `inet_ntop` of the C library, with which matcher.c parses and prints addresses.  Not part of `/repo`: written from
glibc (resolv/inet_pton.c, resolv/inet_ntop.c), loop by loop.  An IPv4 address is its four bytes, an IPv6 address its eight
16-bit words, both in network order, as numbers.
-/
namespace Bf

/-- The digit printed for a value below 16. -/
def digitChar (n : Nat) : Char :=
  if n < 10 then Char.ofNat (48 + n) else Char.ofNat (87 + n)

/-- `%u` (base 10) and `%x` (base 16) of printf. -/
def printNat (base : Nat) (n : Nat) : List Char :=
  if _ : 2 ≤ base ∧ base ≤ n then printNat base (n / base) ++ [digitChar (n % base)] else [digitChar n]
termination_by n
decreasing_by exact Nat.div_lt_self (by omega) (by omega)

/-- inet_pton4: `done` are the bytes already stored, `cur` is `*tp`. -/
def pton4Go : List Char → List Nat → Nat → Bool → Nat → Option (List Nat)
  | [], done, cur, _, octets => if octets < 4 then none else some (done ++ [cur])
  | c :: s, done, cur, saw, octets =>
    if isDigit c then
      if saw ∧ cur = 0 then none
      else if 255 < cur * 10 + digitVal c then none
      else if saw then pton4Go s done (cur * 10 + digitVal c) true octets
      else if 4 < octets + 1 then none
      else pton4Go s done (cur * 10 + digitVal c) true (octets + 1)
    else if c = '.' ∧ saw then
      if octets = 4 then none else pton4Go s (done ++ [cur]) 0 false octets
    else none

/-- `inet_pton(AF_INET, s, …)`. -/
def pton4 (s : List Char) : Option (List Nat) := pton4Go s [] 0 false 0

/-- `inet_ntop(AF_INET, …)`: `%u.%u.%u.%u`. -/
def ntop4 (a : List Nat) : List Char :=
  printNat 10 (a.getD 0 0) ++ '.' :: printNat 10 (a.getD 1 0) ++ '.' :: printNat 10 (a.getD 2 0) ++ '.' :: printNat 10 (a.getD 3 0)

/-- inet_pton6, the loop: `tok` is the string at `curtok`, `done` are the words already stored, `colon` is where `::` was. -/
def pton6Go : List Char → List Char → List Nat → Option Nat → Nat → Nat → Option (List Nat × Option Nat)
  | [], _, done, colon, seen, val =>
    if 0 < seen then (if 8 ≤ done.length then none else some (done ++ [val], colon)) else some (done, colon)
  | c :: s, tok, done, colon, seen, val =>
    if isDigitOf 16 c then
      if seen = 4 then none
      else if 65535 < val * 16 + digitVal c then none
      else pton6Go s tok done colon (seen + 1) (val * 16 + digitVal c)
    else if c = ':' then
      if seen = 0 then
        if colon.isSome then none else pton6Go s s done (some done.length) seen val
      else if s = [] then none
      else if 8 ≤ done.length then none
      else pton6Go s s (done ++ [val]) colon 0 0
    else if c = '.' ∧ done.length ≤ 6 then
      match pton4 tok with
      | some [a, b, c, d] => some (done ++ [a * 256 + b, c * 256 + d], colon)
      | _ => none
    else none

/-- inet_pton6, the end: `::` is replaced by zeros. -/
def pton6End : List Nat × Option Nat → Option (List Nat)
  | (done, none) => if done.length = 8 then some done else none
  | (done, some k) => if done.length = 8 then none else some (done.take k ++ List.replicate (8 - done.length) 0 ++ done.drop k)

/-- `inet_pton(AF_INET6, s, …)`. -/
def pton6 (s : List Char) : Option (List Nat) :=
  match s with
  | [] => none
  | c :: s' => if c = ':' then (if s'.head? = some ':' then (pton6Go s' s' [] none 0 0).bind pton6End else none)
    else (pton6Go s s [] none 0 0).bind pton6End

/-- inet_ntop6: the runs of zero words: the best so far and the current one, as base and length. -/
def zeroRun (best cur : Option (Nat × Nat)) : Option (Nat × Nat) :=
  match cur, best with
  | none, b => b
  | some c, none => some c
  | some c, some b => if b.2 < c.2 then some c else some b

def zeroRuns : List Nat → Nat → Option (Nat × Nat) → Option (Nat × Nat) → Option (Nat × Nat)
  | [], _, best, cur => zeroRun best cur
  | w :: ws, i, best, cur =>
    if w = 0 then zeroRuns ws (i + 1) best (match cur with | none => some (i, 1) | some (b, l) => some (b, l + 1))
    else zeroRuns ws (i + 1) (zeroRun best cur) none

/-- The run of zeros printed as `::`, if any. -/
def bestRun (ws : List Nat) : Option (Nat × Nat) := (zeroRuns ws 0 none none).filter fun r => 2 ≤ r.2

/-- inet_ntop6, the loop, from word `i`. -/
def ntop6Go (all : List Nat) (best : Option (Nat × Nat)) : List Nat → Nat → List Char
  | [], _ => []
  | w :: ws, i =>
    match best with
    | some (b, l) =>
      if b ≤ i ∧ i < b + l then (if i = b then [':'] else []) ++ ntop6Go all best ws (i + 1)
      else (if i ≠ 0 then [':'] else []) ++
        (if i = 6 ∧ b = 0 ∧ (l = 6 ∨ (l = 5 ∧ all.getD 5 0 = 65535))
          then ntop4 [all.getD 6 0 / 256, all.getD 6 0 % 256, all.getD 7 0 / 256, all.getD 7 0 % 256]
          else printNat 16 w ++ ntop6Go all best ws (i + 1))
    | none => (if i ≠ 0 then [':'] else []) ++ printNat 16 w ++ ntop6Go all best ws (i + 1)

/-- `inet_ntop(AF_INET6, …)`. -/
def ntop6 (ws : List Nat) : List Char :=
  let best := bestRun ws
  ntop6Go ws best ws 0 ++ (match best with | some (b, l) => if b + l = 8 then [':'] else [] | none => [])

end Bf
