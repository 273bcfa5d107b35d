import Verif.Props.C51_Obeys
import Verif.Props.C51_Ruleset
import Verif.Props.C51_UpdateSet
import Verif.Props.C49_Sample
import Verif.Props.C32_Sample
/-!
# C51: cases
-/
namespace Bf.Cli.Sample
open Spec
open Pin (K P Absent staging Holds)
open Pin.Sample (tgt w0 tree0)

def host : Host := ⟨env1, tgt, 2, fun _ => .err .ENOENT⟩

/-- `bfcli chain set --name web --from-str "..."`. -/
def set1 : List Arg1 := [.word "chain", .word "set"]
def set2 : List (Flag × List Char) := [(.name, "web".toList), (.fromStr, text1)]

def isGo : Got (CmdLine × Cmd) → Bool
  | .go _ => true
  | _ => false

theorem valid_of {a1 : List Arg1} {a2 : List (Flag × List Char)} {words : List String} (h : isGo (optsParse a1 a2 words) = true) : Valid a1 a2 words := by
  cases e : optsParse a1 a2 words with
  | exit s => rw [e] at h; cases h
  | go x => exact (C51_options a1 a2 words).mp ⟨x.1, x.2, e⟩

theorem valid1 : Valid set1 set2 [] := valid_of (by decide)

theorem commands1 : Commands set1 .chain .set := ⟨[], [], [], rfl, by simp, by simp⟩

theorem source_of {g : Flag × List Char} {t0 t : List Char} (hg : g.1 = .name) (h : Source host [g, (.fromStr, t0)] t) : t = t0 := by
  obtain ⟨f, v⟩ := g
  cases hg
  rcases h with h | ⟨f, h, _⟩
  · cases h; rfl
  · cases h

theorem source1 {t : List Char} (h : Source host set2 t) : t = text1 := source_of rfl h

theorem written_of {o : List (Flag × List Char)} {t0 : List Char} (h : ∀ t, Source host o t → t = t0) (hl : t0.length < 2 ^ 32) {cs} (hw : Writes t0 cs) :
    Written host o := fun t ht => by
  rw [h t ht]
  exact ⟨hl, cs, hw⟩

theorem written1 : Written host set2 := written_of (fun _ h => source1 h) (by decide +kernel) writes1

theorem takes1 {x : Chain × Option HookOpts} (h : Takes host set2 x) : x.1.name = "web" := by
  obtain ⟨t, rs, _, _, h3⟩ := h
  obtain ⟨k, _, h, _⟩ := h3
  exact h

theorem sane0 : w0.Sane := ⟨⟨(by intro o h; cases h), by intro d h; cases h⟩, tree0, by decide⟩

/-- The run, when no call fails. -/
theorem run1 : ∃ w', Pin.Run w0 (main host set1 set2 []) w' (.ret (.exits .ok [])) := by
  obtain ⟨p', h, e⟩ := Pin.P.exec_run (p := main host set1 set2 []) (fails := fun _ => false) (n := 1000) (i := 0) (w := w0)
  have := e _ (show _ = some (.exits .ok []) by decide +kernel)
  subst this
  exact ⟨_, h⟩

/-- It sets the chain that the text says. -/
example : ∃ w' x h, Pin.Run w0 (main host set1 set2 []) w' (.ret (.exits .ok [])) ∧ Pin.Good tgt w' "web" x h ∧ Holds tgt w' "web" x := by
  obtain ⟨w', hr⟩ := run1
  obtain ⟨_, s, x, h, ht, _, h1, h2, _⟩ := (C51_set_partial valid1 commands1 rfl written1 (by decide) sane0
    (fun x hx => by rw [takes1 hx]; exact ⟨by decide, .inl rfl⟩) hr).1 [] rfl
  rw [takes1 ht] at h1 h2
  exact ⟨w', x.1, h, hr, h1, h2⟩

/-! Further commands, on worlds that runs reach. -/

open Pin.Sample (w1 w3 w44 good1 good3 sane44 chains44)
open Bf.Sample (chain)

def nameSample : List (Flag × List Char) := [(.name, "sample".toList)]

theorem sane1 : w1.Sane := ⟨⟨by decide +kernel, by decide +kernel⟩, Pin.Sample.tree1, by decide +kernel⟩
theorem sane3 : w3.Sane := ⟨⟨by decide +kernel, by decide +kernel⟩, Pin.Sample.tree_of (by decide +kernel), by decide +kernel⟩

/-- `bfcli chain flush --name sample`: whenever it is stopped, the chain is there, or not at all, or a pin could not be removed. -/
example {w' : K} {q : P Ended} (hr : Pin.Run w1 (main host [.word "chain", .word "flush"] nameSample []) w' q) :
    Holds tgt w' "sample" chain ∨ Absent w' "sample" ∨ ∃ e, e ≠ Errno.ENOENT ∧ Pin.Since w1 w' (.unlink "sample" "bf_ctx", .fail e) := by
  obtain ⟨h, hg⟩ := good1
  exact (C51_flush (valid_of (by decide)) ⟨[], [], [], rfl, by simp, by simp⟩ rfl (by decide) sane1 hg hr).1

/-- `bfcli chain attach --name sample --option ifindex=2`, after `bfcli chain load`. -/
example : ∃ w', Pin.Run w3 (main host [.word "chain", .word "attach"] (nameSample ++ [(.option, "ifindex=2".toList)]) []) w' (.ret (.exits .ok [])) ∧
    ∃ h o, Pin.Good tgt w' "sample" chain h ∧ parseOpts .new ["ifindex=2".toList] = .ok o ∧ h.link.map (·.d.opts) = some o := by
  obtain ⟨p', hr, e⟩ := Pin.P.exec_run (p := main host [.word "chain", .word "attach"] (nameSample ++ [(.option, "ifindex=2".toList)]) [])
    (fails := fun _ => false) (n := 1000) (i := 0) (w := w3)
  have := e _ (show _ = some (.exits .ok []) by decide +kernel)
  subst this
  obtain ⟨h, hg, hl⟩ := good3
  obtain ⟨_, o, l, h1, _, h2, _, h3⟩ := (C51_attach (valid_of (by decide)) ⟨[], [], [], rfl, by simp, by simp⟩ rfl (by decide) (by decide) sane3 hg hl (by decide +kernel) hr).2.2 [] rfl
  exact ⟨_, hr, _, o, h2, h1, by simp [h3]⟩

/-- `bfcli ruleset flush`. -/
example {w' : K} (hr : Pin.Run w44 (main host [.word "ruleset", .word "flush"] [] []) w' (.ret (.exits .ok []))) (hb : ¬ Pin.Bad w44 w') : ∀ d, Absent w' d := by
  obtain ⟨L, hL, hn, _⟩ := chains44
  exact (((C51_ruleset_flush (H := host) (valid_of (by decide)) ⟨[], [], [], rfl, by simp, by simp⟩ sane44 hL hn hr).2.2 [] rfl).2 hb).1

/-! What is not so. -/

/-- `bfcli chain update-set --help` is an error: the command does not have the option, unlike the others. -/
theorem C51_no_help : main host [.word "chain", .word "update-set"] [(.help, [])] [] = .ret (.exits .usage []) ∧
    main host [.word "chain", .word "set"] [(.help, [])] [] = .ret (.exits .ok []) := ⟨rfl, rfl⟩

def stagingText : List Char := "chain __bf_staging_x BF_HOOK_XDP{ifindex=2} ACCEPT".toList
def stagingSet : P Ended := main host [.word "chain", .word "set"] [(.fromStr, stagingText)] []
def anyGet : P Ended := main host [.word "ruleset", .word "get"] [] []

/-- A chain may be given a name that marks what an interrupted command left behind: it is set, and the next command removes it. -/
theorem C51_staging : ∃ w' w'', Pin.Run w0 stagingSet w' (.ret (.exits .ok [])) ∧ w'.die.pinned "__bf_staging_x" "bf_ctx" ≠ none ∧
    Pin.Run w'.die anyGet w'' (.ret (.exits .ok [])) ∧ w''.pins = [] := by
  obtain ⟨p', hr, e⟩ := Pin.P.exec_run (p := stagingSet) (fails := fun _ => false) (n := 1000) (i := 0) (w := w0)
  have := e _ (show _ = some (.exits .ok []) by decide +kernel)
  subst this
  obtain ⟨p2, hr2, e2⟩ := Pin.P.exec_run (p := anyGet) (fails := fun _ => false) (n := 1000) (i := 0) (w := (stagingSet.exec (fun _ => false) 1000 0 w0).1.die)
  have := e2 _ (show _ = some (.exits .ok []) by decide +kernel)
  subst this
  exact ⟨_, _, hr, by decide +kernel, hr2, by decide +kernel⟩

end Bf.Cli.Sample
