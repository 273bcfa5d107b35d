import Verif.Cli.Setup
import Verif.Props.C51_Options
/-!
# How a run of `bfcli` goes
-/
namespace Bf.Pin

/-- An execution of a sequence is in its first part, or in its second one. -/
theorem Run.bind_split {α β : Type} {p : P α} {f : α → P β} {w w' : K} {q : P β} (h : Run w (p >>= f) w' q) :
    (∃ c k, Run w p w' (.call c k) ∧ q = (.call c k >>= f)) ∨ ∃ a w1, Run w p w1 (.ret a) ∧ Run w1 (f a) w' q := by
  induction p generalizing w w' q with
  | ret a => exact .inr ⟨a, w, .refl, h⟩
  | call c k ih =>
    have : ∀ {r : P β} {w w' : K} {q : P β}, Run w r w' q → r = (.call c k >>= f) →
        (∃ c' k', Run w (.call c k) w' (.call c' k') ∧ q = (.call c' k' >>= f)) ∨ ∃ a w1, Run w (.call c k) w1 (.ret a) ∧ Run w1 (f a) w' q := by
      intro r w w' q h
      induction h with
      | refl => intro e; exact .inl ⟨_, _, .refl, e⟩
      | packets hp _ ih2 =>
        intro e
        rcases ih2 e with ⟨c', k', h1, h2⟩ | ⟨a, w1, h1, h2⟩
        · exact .inl ⟨c', k', .packets hp h1, h2⟩
        · exact .inr ⟨a, w1, .packets hp h1, h2⟩
      | step hs hr _ =>
        intro e
        cases e
        rcases ih _ hr with ⟨c', k', h1, h2⟩ | ⟨a, w1, h1, h2⟩
        · exact .inl ⟨c', k', .step hs h1, h2⟩
        · exact .inr ⟨a, w1, .step hs h1, h2⟩
    exact this h rfl

/-- Nothing but packets after the end. -/
theorem Run.ret_split {α : Type} {w w' : K} {a : α} {q : P α} (h : Run w (.ret a) w' q) : q = .ret a ∧ w'.erase = w.erase := by
  have key : ∀ {q' : P α} {w w' : K} {q : P α}, Run w q' w' q → q' = .ret a → q = .ret a ∧ w'.erase = w.erase := by
    intro q' w w' q h
    induction h with
    | refl => exact fun h => ⟨h, rfl⟩
    | packets hp _ ih => exact fun h => ⟨(ih h).1, (ih h).2.trans hp.erase⟩
    | step => intro e; cases e
  exact key h rfl

end Bf.Pin

namespace Bf.Cli
open Spec
open Pin (K P Setup)

variable {H : Host} {a1 : List Arg1} {a2 : List (Flag × List Char)} {words : List String} {o : CmdLine} {c : Cmd} {w w' : K}

/-- At every instant of a run that is not dry: `bf_ctx_setup`, then the command. -/
theorem main_split (ho : optsParse a1 a2 words = .go (o, c)) (hd : o.dryRun = false) {q : P Ended} (h : Pin.Run w (main H a1 a2 words) w' q) :
    (Setup w w' ∧ ∀ e, q = .ret e → ∃ er, e = fails er) ∨ ∃ w1, Pin.Run w ctxSetup w1 (.ret (.ok ())) ∧ Pin.Run w1 (runCmd H o c.object c.action) w' q := by
  unfold main at h
  rw [ho] at h
  dsimp only at h
  unfold mainCmd at h
  rw [hd, if_neg (by simp)] at h
  rcases Pin.Run.bind_split h with ⟨c', k', h1, rfl⟩ | ⟨r, w1, h1, h2⟩
  · exact .inl ⟨.of h1, fun e he => by cases he⟩
  · cases r with
    | ok u => exact .inr ⟨w1, h1, h2⟩
    | err er =>
      obtain ⟨rfl, he⟩ := Pin.Run.ret_split h2
      refine .inl ⟨?_, fun e he => by cases he; exact ⟨er, rfl⟩⟩
      unfold Setup
      rw [he]
      exact Setup.of h1
    | ub => exact absurd rfl ((Pin.ctxSetup_safe w.erase).end h1)

end Bf.Cli
