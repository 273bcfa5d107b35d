import Verif.Props.C58_Fds
import Verif.Props.C32_Sample
/-!
# C58: a case
-/
namespace Bf.Pin.Sample
open Cli (progFd logsFd C58_prog C58_logs)

/-- What an operation gives when no call fails. -/
theorem runs_to {p : P (Res Nat)} {k : Nat} {w : K} (h : (p.exec (fun _ => false) 1000 0 w).2 = some (.ok k)) : ∃ w', Run w p w' (.ret (.ok k)) := by
  obtain ⟨p', hr, e⟩ := P.exec_run (p := p) (fails := fun _ => false) (n := 1000) (i := 0) (w := w)
  rw [e _ h] at hr
  exact ⟨_, hr⟩

/-- The sample chain is set; the descriptor of its program is asked for, and given; the program was made from the chain. -/
example : ∃ w' q, Run w1 (progFd "sample") w' (.ret (.ok q)) ∧ ∃ img m, w'.objs[q]? = some (.prog Bf.Sample.chain img m) := by
  obtain ⟨h, hg⟩ := good1
  obtain ⟨w', hr⟩ := runs_to (p := progFd "sample") (k := 5) (w := w1) (by decide +kernel)
  obtain ⟨_, _, _, _, _, g⟩ := C58_prog (n := "sample") hg hr
  obtain ⟨_, ⟨img, m, M, g1, _⟩, _⟩ := (g _ rfl).1 _ rfl
  exact ⟨w', _, hr, img, m, g1⟩

/-- It logs: the descriptor of the buffer is given. -/
example : ∃ w' m, Run w1 (logsFd "sample") w' (.ret (.ok m)) ∧ w'.pinned "sample" "bf_lmap" = some m := by
  obtain ⟨h, hg⟩ := good1
  obtain ⟨w', hr⟩ := runs_to (p := logsFd "sample") (k := 3) (w := w1) (by decide +kernel)
  obtain ⟨_, _, _, _, _, g⟩ := C58_logs (n := "sample") hg hr
  exact ⟨w', _, hr, ((g _ rfl).1 _ rfl).2.1⟩

end Bf.Pin.Sample
