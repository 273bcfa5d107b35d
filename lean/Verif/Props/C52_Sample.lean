import Verif.Props.C52_History
import Verif.Props.C51_Sample
/-!
# C52: cases
-/
namespace Bf.Cli.Sample
open Spec
open Pin (K P Absent staging Holds)
open Pin.Sample (tgt w0)

def flush1 : List Arg1 := [.word "chain", .word "flush"]

theorem not_commands {a1 : List Arg1} {x y : Object} {a b : Action} (h : Commands a1 x a) (hu : (usage x a).isSome) (hu' : (usage y b).isSome) (hne : y ≠ x) : ¬ Commands a1 y b :=
  fun h' => hne (Commands.unique h' h hu' hu).1

/-- `bfcli chain flush --name sample` is about no other chain. -/
theorem flush_regards {d : String} (h : Regards host flush1 nameSample d) : d = "sample" := by
  have hc : Commands flush1 .chain .flush := ⟨[], [], [], rfl, by simp, by simp⟩
  rcases h with h | h | h | ⟨x, ⟨t, rs, h, _⟩, _⟩
  · exact absurd h (not_commands hc rfl rfl (by decide))
  · exact absurd h (not_commands hc rfl rfl (by decide))
  · unfold Spec.named at h
    have e : (given .name nameSample).getLast?.map String.ofList = some "sample" := by decide
    rw [e] at h
    cases h
    rfl
  · rcases h with h | ⟨f, h, _⟩
    · exact absurd h (by have e : (given .fromStr nameSample).getLast? = none := by decide
                         rw [e]; exact fun h => by cases h)
    · exact absurd h (by have e : (given .fromFile nameSample).getLast? = none := by decide
                         rw [e]; exact fun h => by cases h)

/-- A chain is set on a machine without chains. -/
theorem web_set : ∃ w x h, Issue w0 [⟨host, set1, set2, []⟩] w ∧ Pin.Good tgt w "web" x h := by
  obtain ⟨w, hr⟩ := run1
  obtain ⟨_, s, x, h, ht, _, h1, h2, _⟩ := (C51_set_partial valid1 commands1 rfl written1 (by decide) sane0
    (fun x hx => by rw [takes1 hx]; exact ⟨by decide, .inl rfl⟩) hr).1 [] rfl
  rw [takes1 ht] at h1
  exact ⟨w.die, x.1, h, .next hr .done, h1.die⟩

def flushSample : Issued := ⟨host, flush1, nameSample, []⟩

theorem flush_not_web : ¬ Regards flushSample.H flushSample.a1 flushSample.a2 "web" := fun hR => by
  have := flush_regards hR
  revert this
  decide

/-- Then whatever commands that are not about it run together: it is kept. -/
example : ∃ w x h, Issue w0 [⟨host, set1, set2, []⟩] w ∧ Pin.Good tgt w "web" x h ∧
    ∀ w' ps, Moves (fun i => ¬ Regards i.H i.a1 i.a2 "web") w [] w' ps → Holds tgt w' "web" x := by
  obtain ⟨w, x, h, h1, h2⟩ := web_set
  exact ⟨w, x, h, h1, h2, fun w' ps hm => ((C52_others (d := "web") ⟨rfl, rfl, rfl⟩ (issue_moves h1 fun _ _ => trivial) (by decide) (by simp) hm).2.1 tgt x h h2).2⟩

/-- Such commands are, for instance, two `bfcli chain flush --name sample` at once: both have made a call. -/
example (w : K) : ∃ w' ps, Moves (fun i => ¬ Regards i.H i.a1 i.a2 "web") w [] w' ps ∧ ps.length = 2 ∧ w'.hist.length = w.hist.length + 2 := by
  have e : ∃ k, main flushSample.H flushSample.a1 flushSample.a2 flushSample.words = .call .alloc k := ⟨_, rfl⟩
  obtain ⟨k, e⟩ := e
  refine ⟨(w.log .alloc .done).log .alloc (.fail .ENOMEM), [(flushSample, k .done), (flushSample, k (.fail .ENOMEM))], .start (i := flushSample) flush_not_web (.start (i := flushSample) flush_not_web ?_), rfl, rfl⟩
  rw [e]
  exact .step (l := []) (a := .done) (w1 := w.log .alloc .done) (.ok rfl)
    (.step (l := [_]) (r := []) (a := .fail .ENOMEM) (w1 := (w.log .alloc .done).log .alloc (.fail .ENOMEM)) (.fail trivial) .refl)

/-- And one after the other. -/
example : ∃ w x h, Issue w0 [⟨host, set1, set2, []⟩] w ∧ Pin.Good tgt w "web" x h ∧ ∀ w', Issue w [flushSample, flushSample] w' → Holds tgt w' "web" x := by
  obtain ⟨w, x, h, h1, h2⟩ := web_set
  refine ⟨w, x, h, h1, h2, fun w' hm => ((C52_history (d := "web") ⟨rfl, rfl, rfl⟩ h1 (by decide) (fun i hi => ?_) hm).2.1 tgt x h h2).2⟩
  have e : i = flushSample := by
    rcases List.mem_cons.mp hi with e | e
    · exact e
    · exact List.mem_singleton.mp e
  subst e
  exact flush_not_web

/-- Without the restriction on names it is not so: a chain with such a name is removed by any command, here one about the chain `sample`. -/
theorem C52_staging : ∃ w w', Issue w0 [⟨host, [.word "chain", .word "set"], [(.fromStr, stagingText)], []⟩] w ∧ ¬ Absent w "__bf_staging_x" ∧
    ¬ Regards host flush1 nameSample "__bf_staging_x" ∧ Issue w [⟨host, flush1, nameSample, []⟩] w' ∧ Absent w' "__bf_staging_x" := by
  obtain ⟨p', hr, e⟩ := Pin.P.exec_run (p := stagingSet) (fails := fun _ => false) (n := 1000) (i := 0) (w := w0)
  obtain ⟨p2, hr2, e2⟩ := Pin.P.exec_run (p := main host flush1 nameSample []) (fails := fun _ => false) (n := 1000) (i := 0) (w := (stagingSet.exec (fun _ => false) 1000 0 w0).1.die)
  refine ⟨_, _, .next hr .done, ?_, fun h => by have := flush_regards h; revert this; decide, .next hr2 .done, ?_⟩
  · unfold Absent; decide +kernel
  · unfold Absent; decide +kernel

end Bf.Cli.Sample
