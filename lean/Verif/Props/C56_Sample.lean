import Verif.Props.C56_Decided
/-!
# C56: cases
-/
namespace Bf.Cli.Sample
open Spec
open Pin (K P)
open Pin.Sample (tgt w0)

theorem moderate54 : Moderate s54 := by
  refine ⟨fun k hk key hkey => ?_, by decide, by decide⟩
  have : k = "(tcp.dport)".toList := by
    rcases hk with ⟨d, hd, rfl⟩ | ⟨x, hx, _⟩
    · cases List.mem_singleton.mp hd; rfl
    · cases hx
  subst this
  rw [keyOf_unique hkey keyOf54]
  decide

/-- What is in the maps with keys. -/
def keyed (w : K) : List (List (List Byte × List Byte)) := ((List.range w.objs.length).map (entriesOf w)).filter fun l => l ≠ []

/-- A chain is set, and a port is added to its set: a program runs, finds the elements in the map of the kernel, and does of every packet what a text that stands says.  The map of the
first program has port 22; that of the second, 22 and 443. -/
example : ∃ w, Issue w0 [put54, add54] w ∧ (∃ pt p, w.runs pt p) ∧ keyed w = [[([0, 22], [1])], [([0, 22], [1]), ([1, 187], [1])]] ∧
    ∀ pt p, w.runs pt p → ∃ i s c img M, both54 i ∧ Stands both54 s ∧ s.hook = (Doc.hook c.hook).toList ∧ AskedAt both54 (String.ofList s.name) pt ∧
      w.objs[p]? = some (.prog c img M.counters) ∧ HasMaps w i.H.T.thr i.H.T.slen c img M ∧ DecidesOn host.env.text s w c img M := by
  obtain ⟨p', hr, e⟩ := Pin.P.exec_run (p := main put54.H put54.a1 put54.a2 []) (fails := fun _ => false) (n := 1000) (i := 0) (w := w0)
  obtain ⟨p2, hr2, e2⟩ := Pin.P.exec_run (p := main add54.H add54.a1 add54.a2 []) (fails := fun _ => false) (n := 1000) (i := 0)
    (w := ((main put54.H put54.a1 put54.a2 []).exec (fun _ => false) 1000 0 w0).1.die)
  have h : Issue w0 [put54, add54] _ := .next (i := put54) hr (.next (i := add54) hr2 .done)
  refine ⟨_, h, runs_of (by decide +kernel), by decide +kernel, fun pt p hp => ?_⟩
  refine C56_decided_partial sensible54 ⟨rfl, rfl, rfl⟩ (issue_moves h fun _ h => h) (by decide +kernel) env54 (.inr ⟨plain54, some54⟩) (fun i s hi ht => ?_) hp
  rw [tells54 i hi ht]
  exact moderate54

end Bf.Cli.Sample
