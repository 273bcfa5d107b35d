import Verif.Cgen.Tagged
import Verif.Cgen.Local
import Verif.Spec.Regards
import Verif.Spec.Issued
import Verif.Props.C51_Effects
/-!
# C52: a command keeps to the chains it is about
-/
namespace Bf.Cli
open Spec
open Pin (K P staging)

variable {H : Host} {a1 : List Arg1} {a2 : List (Flag × List Char)} {words : List String} {o : CmdLine} {D : String → Prop} {n : String} {t : Pin.Tags}

theorem tagged_after {α : Type} {x : Run α} {f : α → P Ended} (h : ∀ a, x = some (.ok a) → (f a).Tagged D t) : (after x f).Tagged D t := by
  unfold after
  split
  · exact trivial
  · exact h _ rfl
  · exact trivial
  · exact trivial

theorem tagged_sweepLoop (hD : ∀ d, staging d = true → D d) : ∀ {ns : List String} {t : Pin.Tags}, (sweepLoop ns).Tagged D t
  | [], _ => trivial
  | n :: ns, t => by
    unfold sweepLoop
    split
    · next hs =>
      refine Pin.Tagged.bind (Pin.Tagged.of_reads (Pin.calls_try rfl)) fun r t => ?_
      split
      · exact Pin.Tagged.bind (Pin.Tagged.of_within (hD n hs) fun S _ => Pin.within_void rfl trivial) fun _ t => tagged_sweepLoop hD
      · exact tagged_sweepLoop hD
    · exact tagged_sweepLoop hD

theorem tagged_ctxSetup (hD : ∀ d, staging d = true → D d) : ctxSetup.Tagged D t := by
  unfold ctxSetup sweep
  refine Pin.Tagged.bind (Pin.Tagged.of_reads (Pin.calls_try rfl)) fun r t => ?_
  split
  · refine Pin.Tagged.bind ?_ fun _ _ => trivial
    refine Pin.Tagged.bind (Pin.Tagged.of_reads (Pin.calls_try rfl)) fun r t => ?_
    split
    · refine .inr (.inl ⟨rfl, fun a => ?_⟩)
      dsimp only
      split
      · exact tagged_sweepLoop hD
      · exact trivial
    · exact trivial
  · exact trivial

theorem reads_logsFd : (logsFd n).Calls Pin.Call.reads := by
  unfold logsFd
  refine Pin.reads_withCgen fun c => ?_
  split
  · exact trivial
  · refine Pin.Calls.bind (Pin.calls_try rfl) fun r => ?_
    split <;> exact trivial

theorem reads_logsCmd : (logsCmd n).Calls Pin.Call.reads := by
  unfold logsCmd
  refine Pin.Calls.bind reads_logsFd fun r => ?_
  split
  · refine Pin.Calls.bind (Pin.calls_try rfl) fun r => ?_
    split <;> exact trivial
  · exact trivial
  · exact trivial

theorem tagged_named {f : String → P Ended} (hk : Kept a2 o) (h : ∀ n, Spec.named a2 = some n → (f n).Tagged D t) : (named o f).Tagged D t := by
  unfold named
  split
  · exact trivial
  · next n hn =>
    refine h _ ?_
    unfold Spec.named
    rw [← hk.name, hn]
    rfl

theorem tagged_chainCmd {act : Chain → Option HookOpts → P (Res Unit)} (hk : Kept a2 o)
    (hs : (given .fromStr a2 ≠ [] ∧ given .fromFile a2 = []) ∨ (given .fromStr a2 = [] ∧ given .fromFile a2 ≠ []))
    (h : ∀ x, Takes H a2 x → (act x.1 x.2).Tagged D t) : (chainCmd H o act).Tagged D t := by
  rcases chainCmd_cases H o act with ⟨e, h1, _, _⟩ | ⟨rs, x, h1, h2, h3⟩
  · rw [h1]; exact trivial
  · rw [h3]
    split
    · exact trivial
    · exact Pin.Tagged.bind (h x ((takes_iff hk hs).mp ⟨rs, h1, h2⟩)) fun _ _ => trivial

theorem tagged_putAll {T : Pin.Target} (hD : ∀ d, D d) : ∀ {cs : List (Chain × Option HookOpts)} {t : Pin.Tags}, (Pin.putAll T cs).Tagged D t
  | [], _ => trivial
  | (c, o) :: cs, t => by
    unfold Pin.putAll
    refine Pin.Tagged.bind (Pin.Tagged.of_within (hD c.name) fun S _ => Pin.within_putNew rfl) fun r t => ?_
    split
    · exact tagged_putAll hD
    · exact trivial

theorem tagged_rulesetSet {T : Pin.Target} {cs : List (Chain × Option HookOpts)} (hD : ∀ d, D d) : (Pin.rulesetSet T cs).Tagged D t := by
  have hf : ∀ t, Pin.flushAll.Tagged D t := fun t => Pin.Tagged.of_tame hD Pin.tame_flushAll
  unfold Pin.rulesetSet
  refine Pin.Tagged.bind (Pin.Tagged.of_reads (Pin.calls_try rfl)) fun r t => ?_
  split
  · refine Pin.Tagged.bind (hf _) fun r t => ?_
    split
    · refine Pin.Tagged.bind (tagged_putAll hD) fun r t => ?_
      split
      · exact trivial
      · exact Pin.Tagged.bind (hf _) fun _ _ => trivial
    · exact trivial
  · exact trivial

theorem tagged_rulesetFlush (hD : ∀ d, D d) : Pin.rulesetFlush.Tagged D t := by
  unfold Pin.rulesetFlush
  refine Pin.Tagged.bind (Pin.Tagged.of_reads (Pin.calls_try rfl)) fun r t => ?_
  split
  · exact Pin.Tagged.of_tame hD Pin.tame_flushAll
  · exact trivial

/-- The commands keep to the directories of the chains they are about. -/
theorem tagged_runCmd (hk : Kept a2 o) {x : Object} {a : Action} {u : Usage} (hu : usage x a = some u) (hR : u.Right a2)
    (h1 : x = .ruleset ∧ a = .set → ∀ d, D d) (h2 : x = .ruleset ∧ a = .flush → ∀ d, D d)
    (hn : ∀ n, Spec.named a2 = some n → D n) (ht : ∀ y, Takes H a2 y → D y.1.name) : (runCmd H o x a).Tagged D t := by
  cases x <;> cases a
  all_goals first
    | cases hu; done
    | skip
  case ruleset.set =>
    show (rulesetSetCmd H o).Tagged D t
    refine tagged_after fun rs _ => ?_
    split
    · exact trivial
    · exact Pin.Tagged.bind (tagged_rulesetSet (h1 ⟨rfl, rfl⟩)) fun _ _ => trivial
  case ruleset.flush =>
    unfold runCmd
    exact Pin.Tagged.bind (tagged_rulesetFlush (h2 ⟨rfl, rfl⟩)) fun _ _ => trivial
  case ruleset.get =>
    show (rulesetGetCmd H o).Tagged D t
    refine Pin.Tagged.bind (Pin.Tagged.of_reads Pin.reads_rulesetGet) fun r _ => tagged_after fun g _ => tagged_after fun _ _ => trivial
  case chain.set => exact tagged_chainCmd hk (hR.source (by cases hu; rfl)) fun y hy => Pin.Tagged.of_within (ht y hy) fun S _ => Pin.within_chainSet rfl
  case chain.load =>
    exact tagged_chainCmd (act := fun c _ => Pin.chainLoad H.T c) hk (hR.source (by cases hu; rfl)) fun y hy => Pin.Tagged.of_within (ht y hy) fun S _ => Pin.within_chainLoad rfl
  case chain.update =>
    exact tagged_chainCmd (act := fun c _ => Pin.chainUpdate H.T H.ncpu c) hk (hR.source (by cases hu; rfl)) fun y hy => Pin.Tagged.of_within (ht y hy) fun S _ => Pin.within_chainUpdate rfl
  case chain.get =>
    refine tagged_named hk fun n h => ?_
    exact Pin.Tagged.bind (Pin.Tagged.of_reads Pin.reads_chainGet) fun r _ => tagged_after fun g _ => tagged_after fun _ _ => trivial
  case chain.logs => exact tagged_named hk fun n h => Pin.Tagged.of_reads reads_logsCmd
  case chain.attach =>
    exact tagged_named (f := fun n => do let r ← Pin.chainAttach n o.hookopts; pure (ended r)) hk fun n h =>
      Pin.Tagged.bind (Pin.Tagged.of_within (hn n h) fun S _ => Pin.within_chainAttach (D := fun d => d = n) rfl) fun _ _ => trivial
  case chain.flush =>
    exact tagged_named (f := fun n => do let r ← Pin.chainFlush n; pure (ended r)) hk fun n h =>
      Pin.Tagged.bind (Pin.Tagged.of_within (hn n h) fun S _ => Pin.within_chainFlush (D := fun d => d = n) rfl) fun _ _ => trivial
  case chain.updateSet =>
    unfold runCmd
    refine tagged_named hk fun n h => ?_
    split
    · exact trivial
    · unfold updateSetCmd
      split
      · exact trivial
      · refine Pin.Tagged.bind (Pin.Tagged.of_reads Pin.reads_chainGet) fun r _ => tagged_after fun g _ => ?_
        split
        · exact trivial
        · split
          · exact trivial
          · exact tagged_after fun d _ => Pin.Tagged.bind (Pin.Tagged.of_within (hn n h) fun S _ => Pin.within_chainUpdateSet (D := fun d => d = n) rfl) fun _ _ => trivial

/-- The directories a command may change: those of the chains it is about, and what interrupted commands left behind. -/
abbrev Reach (i : Issued) (d : String) : Prop := staging d = true ∨ Regards i.H i.a1 i.a2 d

theorem tagged_main (i : Issued) : (main i.H i.a1 i.a2 i.words).Tagged (Reach i) t := by
  unfold main
  cases ho : optsParse i.a1 i.a2 i.words with
  | exit s => exact trivial
  | go p =>
    obtain ⟨o, c⟩ := p
    obtain ⟨hk, hn, _, u, hu, hR⟩ := C51_kept ho
    have key : ∀ t, (runCmd i.H o c.object c.action).Tagged (Reach i) t := fun t =>
      tagged_runCmd hk hu hR (fun h d => .inr (.inl (by rw [← h.1, ← h.2]; exact hn))) (fun h d => .inr (.inr (.inl (by rw [← h.1, ← h.2]; exact hn))))
        (fun n h => .inr (.inr (.inr (.inl h)))) fun y h => .inr (.inr (.inr (.inr ⟨y, h, rfl⟩)))
    dsimp only
    unfold mainCmd
    split
    · exact key _
    · refine Pin.Tagged.bind (tagged_ctxSetup fun d h => .inl h) fun r _ => ?_
      split
      · exact key _
      · exact trivial
      · exact trivial

end Bf.Cli

namespace Bf.Spec
open Pin (K)
variable {w w' : K} {d : String} {T : Pin.Target}

/-- What is stored for a chain is enough to know it. -/
theorem Untouched.good (h : Untouched w w' d) {c : Chain} {x : Pin.Handle} (hg : Pin.Good T w d c x) : Pin.Good T w' d c x := by
  refine Pin.Good.erase.mp ((Pin.Good.erase.mpr hg).local (fun n i o hn ho => ?_) fun n => by simpa using h.pins n)
  rw [Pin.K.erase_pinned] at hn
  rw [Pin.K.erase_get] at ho ⊢
  rw [h.objs n i hn, ho]

theorem Untouched.holds (h : Untouched w w' d) {c : Chain} {x : Pin.Handle} (hg : Pin.Good T w d c x) : Pin.Holds T w' d c := (h.good hg).holds

theorem Untouched.absent (h : Untouched w w' d) (ha : Pin.Absent w d) : Pin.Absent w' d := by
  unfold Pin.Absent at ha ⊢
  rw [h.pins]
  exact ha

end Bf.Spec
