import Verif.Props.C51_Effects
import Verif.Props.C49_Loads
/-!
# C51: from the command line to the packets
-/
namespace Bf.Cli
open Spec
open Pin (K P Absent staging)

variable {H : Host} {a1 : List Arg1} {a2 : List (Flag × List Char)} {words : List String} {w w' : K} {q : P Ended}

/-- C51, C49: after `bfcli chain set` exited with status 0, a program is attached where the text says, and it stays attached when `bfcli` is gone; this program decides on every packet
it can read as the text says.
Missing: as in C49, hooks on sockets, and what it says of `InScope`. -/
theorem C51_obeys_partial (hv : Valid a1 a2 words) (hc : Commands a1 .chain .set) (hd : given .dryRun a2 = []) (hW : Written H a2) (hT : H.T.printed < 2 ^ 64) (hw : w.Sane)
    (hn : ∀ x, Takes H a2 x → staging x.1.name = false ∧ (Absent w x.1.name ∨ ∃ c h, Pin.Good H.T w x.1.name c h)) {out : List Char}
    (hr : Pin.Run w (main H a1 a2 words) w' (.ret (.exits .ok out))) :
    ∃ s x h p img m, Asks H a2 s x ∧ AttachedAs h x ∧ w'.objs[p]? = some (.prog x.1 img m) ∧ (∀ pt ∈ h.points, w'.die.runs pt p) ∧
      (x.1.hook.flavor ≠ .sockAddr → ∀ E, IsLoaded E x.1 H.T.thr img → ∀ u r u', Runs E img u r u' → ¬ Unreadable E x.1 →
        (∀ sr ∈ s.rules, ∀ m ∈ sr.matchers, InScope (inputOf E x.1.hook) s.sets m) →
        ∃ v, Rules H.env.text (inputOf E x.1.hook) s.sets s.policy u.mark.toNat s.rules v ∧ Obeys H.env.text E x.1.hook.flavor r v) := by
  obtain ⟨_, _, x, h, ht, _, hg, _, ha⟩ := (C51_set_partial hv hc hd hW hT hw hn hr).1 out rfl
  obtain ⟨t, cs, rs, s, k, t1, tl, t2, t3, t4, t5, t6, t7⟩ := Takes.index hW ht
  obtain ⟨p, hp, _⟩ := hg.prog
  obtain ⟨img, m, M, g1, _⟩ := hg.progOf p hp
  refine ⟨s, x, h, p, img, m, ⟨t, cs, t1, t2, t6, t7⟩, ha, g1, hg.points hp, fun hf E hl u r u' hr' hu hsc => ?_⟩
  exact C49_decides_partial (o := x.2) t2 t3 t4 t5 hl hf hr' hu hsc fun c hc => read_small t2 (by omega) t3 c hc

end Bf.Cli
