import Verif.Props.C50_Read
import Verif.Cli.LogLemmas
/-!
# C50: the interval between logs
-/
namespace Bf.Spec

/-- The units of a duration, in nanoseconds (bfcli.rst). -/
inductive UnitIs : List Char → Nat → Prop
  | s : UnitIs "s".toList 1000000000
  | ms : UnitIs "ms".toList 1000000
  | us : UnitIs "us".toList 1000
  | ns : UnitIs "ns".toList 1

/-- A whole number and a unit. -/
def Duration (t : List Char) (n : Nat) : Prop := ∃ d v u k, Numeral 10 d v ∧ UnitIs u k ∧ t = d ++ u ∧ n = v * k

/-- Durations of less than 2^52 ns (52 days) in whole numbers are read as they are written.  It is so of `_parse_log_rate` (parser.y:75-104): numbers, products
and the 0.5 it adds are all exact. -/
def WholeRates (rate : List Char → Option Nat) : Prop := ∀ t n, Duration t n → 0 < n → n < 4503599627370496 → rate t = some n

end Bf.Spec

namespace Bf.Cli
open Spec

/-- **C50**, the interval between logs: what is printed says how long it is. -/
theorem C50_rate (n : Nat) : Duration (rateWord n) n := by
  unfold rateWord
  split
  · next h => exact ⟨_, _, _, _, numeral_print _, .s, rfl, by omega⟩
  · split
    · next h => exact ⟨_, _, _, _, numeral_print _, .ms, rfl, by omega⟩
    · split
      · next h => exact ⟨_, _, _, _, numeral_print _, .us, rfl, by omega⟩
      · exact ⟨_, _, _, _, numeral_print _, .ns, rfl, by omega⟩

/-- It is read back as it is, below 52 days. -/
theorem C50_rate_read {rate : List Char → Option Nat} (h : WholeRates rate) {n : Nat} (h0 : 0 < n) (hn : n < 4503599627370496) : rate (rateWord n) = some n :=
  h _ _ (C50_rate n) h0 hn

example : Duration "1500ms".toList 1500000000 ∧ rateWord 1500000000 = "1500ms".toList :=
  ⟨by have h := C50_rate 1500000000; rwa [show rateWord 1500000000 = "1500ms".toList from by decide +kernel] at h, by decide +kernel⟩

end Bf.Cli
