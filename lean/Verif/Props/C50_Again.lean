import Verif.Props.C50_Read
import Verif.Props.C50_Sample
/-!
# C50: a text, what is printed of it, and what that is read as
-/
namespace Bf.Cli
open Bf.Spec

theorem env0_plain : PlainNames env0 where
  word := by
    intro i n h
    simp only [env0] at h
    split at h
    · cases h; exact ⟨by decide, reserved_of (by decide)⟩
    · cases h
  number := by
    intro i
    simp only [env0]
    rw [if_neg]
    intro hc
    have := printNat_digits (b := 10) (by omega) (by omega) i 'l' (by rw [hc]; decide)
    revert this
    decide

theorem edge_rates : PlainRates edgeRate := by
  intro s n h
  unfold edgeRate at h
  split at h
  · cases h; exact ⟨by omega, by decide +kernel⟩
  · cases h

def againC : Chain × Option HookOpts := match bfcParse edgeEnv text1 with
  | some (.ok (c :: _)) => c
  | _ => (edge, none)
def againRest : List (Chain × Option HookOpts) := match bfcParse edgeEnv text1 with
  | some (.ok (_ :: l)) => l
  | _ => []

theorem again_parse : bfcParse edgeEnv text1 = some (.ok (againC :: againRest)) := by decide +kernel

instance (env : TextEnv) (m : Matcher) : Decidable (Sayable env m) := inferInstanceAs (Decidable (_ ∧ _))

theorem again_of {e : PEnv} (he : TextEnvOk e.text) (hp : PlainNames e.text) (hr : PlainRates e.rate) {text : List Char} {cs : List ChainS} (hw : Writes text cs)
    {c : Chain × Option HookOpts} {rs : List (Chain × Option HookOpts)} (h : bfcParse e text = some (.ok (c :: rs))) (hl : text.length ≤ 4294967296)
    (hs : ∀ r ∈ c.1.rules, ∀ m ∈ r.matchers, m.type ≠ .set → Sayable e.text m) (hne : ∀ x ∈ c.1.sets, x.elems ≠ []) (k : Counts) :
    ∃ printed, chainDump e.text c.1 c.2 k false = .ok printed ∧
      (printed.length + 4 ≤ e.fuel → ∃ c', bfcParse e (edit printed) = some (.ok [c']) ∧ ChainAlike c c') := by
  obtain ⟨c, o⟩ := c
  obtain ⟨t, h1, h2⟩ := C50_again_partial he hp hr hw h hl List.mem_cons_self hs k
  refine ⟨t, h1, fun hf => ?_⟩
  obtain ⟨h3, h4⟩ := h2 hf
  obtain ⟨rs, hrs⟩ := h3.mpr hne
  obtain ⟨c', rfl, hc⟩ := h4 rs hrs
  exact ⟨c', hrs, hc⟩

/-- The hypotheses of `C50_again_partial` hold of a text with hook options, a named set, flags, a log, a mark and counters: what is printed of its first
chain is read back. -/
theorem C50_again_sample (k : Counts) : ∃ printed, chainDump edgeEnv.text againC.1 againC.2 k false = .ok printed ∧
    (printed.length + 4 ≤ edgeEnv.fuel → ∃ c', bfcParse edgeEnv (edit printed) = some (.ok [c']) ∧ ChainAlike againC c') :=
  again_of (e := edgeEnv) env0_ok env0_plain edge_rates writes1 again_parse (by decide +kernel) (by decide +kernel) (by decide +kernel) k

/-- An accepted text with an empty set. -/
def noneText : List Char := "chain a BF_HOOK_XDP ACCEPT set s (ip4.saddr) in {} rule (ip4.saddr) in s DROP".toList
def noneC : Chain × Option HookOpts := match bfcParse edgeEnv noneText with
  | some (.ok (c :: _)) => c
  | _ => (edge, none)

theorem none_parse : bfcParse edgeEnv noneText = some (.ok [noneC]) := by decide +kernel
def nonePrinted : List Char := match chainDump edgeEnv.text noneC.1 noneC.2 edgeK false with
  | .ok t => t
  | _ => []

/-- What is wrong: a ruleset with an empty set is accepted, and what is printed of it, read again, is not (the reader does not end). -/
theorem C50_none_again : bfcParse edgeEnv noneText = some (.ok [noneC]) ∧ chainDump edgeEnv.text noneC.1 noneC.2 edgeK false = .ok nonePrinted ∧
    bfcParse edgeEnv (edit nonePrinted) = none := ⟨none_parse, by decide +kernel, by decide +kernel⟩

end Bf.Cli
