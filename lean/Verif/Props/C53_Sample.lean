import Verif.Props.C53_History
import Verif.Props.C52_Sample
/-!
# C53: cases
-/
namespace Bf.Cli
open Spec

/-- The sets that a text says are no larger than it. -/
theorem said_small {env : TextEnv} {rate : List Char → Option Nat} {text : List Char} {cs : List ChainS} {s : ChainS} {c : Chain × Option HookOpts} (hw : Writes text cs) (hs : s ∈ cs)
    (hsay : ChainSays env rate s c) : ∀ x ∈ c.1.sets, x.elems.length ≤ text.length := by
  have htot : total (chainWords s) ≤ text.length := Nat.le_trans (total_sub hs) (laid_total hw.2.2)
  have hwords : total (chainWords s) = 5 + s.name.length + s.hook.length + total (optsWords s.opts) + s.policy.length + total (s.sets.flatMap setWords) +
      total (s.rules.flatMap ruleWords) := by
    unfold chainWords
    simp only [total_cons, total_append]
    have : "chain".toList.length = 5 := by decide
    omega
  obtain ⟨decl, inl, e1, e2, _, e3⟩ := hsay.sets
  have hpay : ∀ x ∈ inlineSets s.rules, x.2.length ≤ total (s.rules.flatMap ruleWords) := by
    intro x hx
    unfold inlineSets at hx
    obtain ⟨r, hr, hx⟩ := List.mem_flatMap.mp hx
    obtain ⟨m, hm, hmx⟩ := List.mem_filterMap.mp hx
    have h1 : total (r.matchers.flatMap matcherWords) ≤ total (ruleWords r) := by
      unfold ruleWords
      simp only [total_cons, total_append]
      omega
    have h2 := total_sub (f := ruleWords) hr
    have h3 := total_sub (f := matcherWords) hm
    cases m with
    | plain _ _ _ _ => cases hmx
    | named _ _ _ _ => cases hmx
    | «inline» k n o p =>
      cases hmx
      have h4 : p.length ≤ total (matcherWords (.inline k n o p)) := total_of_mem (by simp [matcherWords])
      simp only
      omega
  intro x hx
  rw [e1] at hx
  rcases List.mem_append.mp hx with hx | hx
  · obtain ⟨d, hd, h1⟩ := each_mem e2 hx
    have h3 := total_sub (f := setWords) hd
    have h4 : d.payload.length ≤ total (setWords d) := total_of_mem (by simp [setWords])
    have := set_elems h1
    omega
  · obtain ⟨d, hd, h1⟩ := each_mem e3 hx
    have h4 := hpay d hd
    have := set_elems h1
    omega

/-- Without `chain update-set`, what is asked for is not larger than what is written. -/
theorem C53_sensible {A : Issued → Prop} (hn : ∀ i, A i → ¬ Commands i.a1 .chain .updateSet) (ht : ∀ i, A i → Written i.H i.a2) (hp : ∀ i, A i → i.H.T.printed < 2 ^ 64)
    (ho : ∀ i, A i → ∀ x ∈ given .option i.a2, x.length < 2 ^ 32 ∧ ∀ c ∈ x, 0 < c.toNat ∧ c.toNat < 256) : Sensible A := by
  refine ⟨ht, hp, ho, fun c hc x hx => ?_⟩
  obtain ⟨i, hi, h1⟩ := C53_said_exactly hn hc
  rcases h1 with ⟨o, _, _, t, cs, s, k1, k2, k3, k4⟩ | ⟨_, _, t, cs, s, o, k1, k2, k3, _, k4⟩
  · have hs : s ∈ cs := by
      rcases k4 with ⟨_, h⟩ | ⟨_, h⟩
      · exact h
      · exact picks_mem h
    exact Nat.lt_of_le_of_lt (said_small k2 hs k3 x hx) (ht i hi t k1).1
  · exact Nat.lt_of_le_of_lt (said_small k2 (picks_mem k4) k3 x hx) (ht i hi t k1).1

end Bf.Cli

namespace Bf.Cli.Sample
open Spec
open Pin (K P)
open Pin.Sample (tgt w0)

def webSet : Issued := ⟨host, set1, set2, []⟩

theorem sensible1 : Sensible (· ∈ [webSet, flushSample]) := by
  have key : ∀ {Q : Issued → Prop}, Q webSet → Q flushSample → ∀ i, i ∈ [webSet, flushSample] → Q i := fun h1 h2 i hi => by
    rcases List.mem_cons.mp hi with rfl | hi
    · exact h1
    · rcases List.mem_singleton.mp hi with rfl
      exact h2
  refine C53_sensible (key (fun h => ?_) fun h => ?_) (key written1 ?_) (key (by decide) (by decide)) (key ?_ ?_)
  · have := (Commands.unique h commands1 rfl rfl).2; cases this
  · have hc : Commands flush1 .chain .flush := ⟨[], [], [], rfl, by simp, by simp⟩
    have := (Commands.unique h hc rfl rfl).2; cases this
  · intro t h
    rcases h with h | ⟨f, h, _⟩
    · exact absurd h (by have e : (given .fromStr nameSample).getLast? = none := by decide
                         exact fun h => by rw [show (given .fromStr flushSample.a2).getLast? = none from e] at h; cases h)
    · exact absurd h (by have e : (given .fromFile nameSample).getLast? = none := by decide
                         exact fun h => by rw [show (given .fromFile flushSample.a2).getLast? = none from e] at h; cases h)
  · have e : given .option set2 = [] := rfl
    exact fun x hx => by rw [show given .option webSet.a2 = [] from e] at hx; cases hx
  · have e : given .option nameSample = [] := rfl
    exact fun x hx => by rw [show given .option flushSample.a2 = [] from e] at hx; cases hx

def someRuns (w : K) : Bool := w.pins.any fun x =>
  match w.objs[x.2]? with
  | some (.link _ _ false) => w.pinned x.1.1 x.1.2 == some x.2
  | _ => false

theorem runs_of {w : K} (h : someRuns w = true) : ∃ pt p, w.runs pt p := by
  obtain ⟨x, _, h⟩ := List.any_eq_true.mp h
  split at h
  · next pt p ho => exact ⟨pt, p, x.2, ho, .inr ⟨x.1.1, x.1.2, by simpa using h⟩⟩
  · cases h

/-- A chain is set, then another one flushed: a program runs, and it is that of what the text says. -/
example : ∃ w, Issue w0 [webSet, flushSample] w ∧ (∃ pt p, w.runs pt p) ∧
    ∀ pt p, w.runs pt p → ∃ i ∈ [webSet, flushSample], ∃ c, AskedFor (· ∈ [webSet, flushSample]) c ∧ AskedAt (· ∈ [webSet, flushSample]) c.name pt ∧ Pin.ProgOf i.H.T c w p := by
  obtain ⟨p', hr, e⟩ := Pin.P.exec_run (p := main host set1 set2 []) (fails := fun _ => false) (n := 1000) (i := 0) (w := w0)
  obtain ⟨p2, hr2, e2⟩ := Pin.P.exec_run (p := main host flush1 nameSample []) (fails := fun _ => false) (n := 1000) (i := 0)
    (w := ((main host set1 set2 []).exec (fun _ => false) 1000 0 w0).1.die)
  have h : Issue w0 [webSet, flushSample] _ := .next (i := webSet) hr (.next (i := flushSample) hr2 .done)
  exact ⟨_, h, runs_of (by decide +kernel), (C53_history sensible1 ⟨rfl, rfl, rfl⟩ h).1⟩

end Bf.Cli.Sample
