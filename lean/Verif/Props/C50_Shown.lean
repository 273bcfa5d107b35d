import Verif.Props.C50_Alike
import Verif.Cli.Blank
/-!
# C50: what `bfcli chain get` prints is a ruleset
-/
namespace Bf.Cli
open Spec

namespace Dmp

theorem pieces_length (sep : Char → Bool) (t : List Char) : ((pieces sep t).map fun l => l.length + 1).sum = t.length + 1 := by
  induction t with
  | nil => rfl
  | cons c t ih =>
    unfold pieces
    split
    · simp [ih]; omega
    · cases hp : pieces sep t with
      | nil => exact absurd hp (pieces_ne _ _)
      | cons p ps =>
        rw [hp] at ih
        simp only [List.map_cons, List.sum_cons, List.length_cons] at ih ⊢
        omega

theorem editLine_length (l : List Char) : (editLine l).length ≤ l.length + 1 := by
  unfold editLine
  split
  · simp
  split
  next h =>
    have := h.length_le
    have e1 : "        counters ".toList.length = 17 := by decide
    have e2 : "        counter\n".toList.length = 16 := by decide
    omega
  · simp

theorem flatMap_length : ∀ (ls : List (List Char)), (ls.flatMap editLine).length ≤ (ls.map fun l => l.length + 1).sum
  | [] => by simp
  | l :: ls => by
    have := editLine_length l
    have := flatMap_length ls
    simp only [List.flatMap_cons, List.length_append, List.map_cons, List.sum_cons]
    omega

theorem sum_dropLast : ∀ (ls : List (List Char)), ls ≠ [] → (ls.dropLast.map fun l => l.length + 1).sum + 1 ≤ (ls.map fun l => l.length + 1).sum
  | [l], _ => by simp
  | a :: b :: ls, _ => by
    have := sum_dropLast (b :: ls) (by simp)
    simp only [List.dropLast, List.map_cons, List.sum_cons] at this ⊢
    omega

theorem edit_length (t : List Char) : (edit t).length ≤ t.length := by
  have h1 := flatMap_length (lines t)
  have h2 := sum_dropLast (pieces (· = '\n') t) (pieces_ne _ _)
  rw [pieces_length] at h2
  unfold edit
  unfold lines at h1 ⊢
  omega

theorem evaluable_says {env : TextEnv} {rate : List Char → Option Nat} {s : ChainS} {a b : Chain × Option HookOpts} (ha : ChainSays env rate s a) (hb : ChainSays env rate s b)
    (h : ∀ r ∈ a.1.rules, Evaluable a.1.hook a.1.sets r) : ∀ r ∈ b.1.rules, Evaluable b.1.hook b.1.sets r := by
  intro r hr
  obtain ⟨x, _, r0, hr0, h1, h2⟩ := each_both ha.rules hb.rules hr
  have := evaluable_same h1 h2 (h r0 hr0)
  rw [doc_hook_inj (hb.hook.symm.trans ha.hook)]
  exact this

end Dmp

/-- C50: what is printed of a chain that can be shown is, without the reports that are in it, a ruleset, and this ruleset says the chain. -/
theorem C50_shown_partial {env : TextEnv} (he : TextEnvOk env) {rate : List Char → Option Nat} {c : Chain} {o : Option HookOpts} (h : ChainShown env rate c o) (k : Counts) :
    ∃ text s, chainDump env c o k false = .ok text ∧ Writes (edit text) [s] ∧ ChainSays env rate s (c, o) := by
  obtain ⟨t, s, h1, h2, h3, h4, _⟩ := Dmp.chain_shown he h k
  refine ⟨t, s, h1, ⟨by simp, fun x hx => by rw [List.mem_singleton.mp hx]; exact h3, ?_⟩, h4⟩
  rw [List.flatMap_cons, List.flatMap_nil, List.append_nil]
  exact Dmp.edit_shows h2

/-- C50: it is read back if, and only if, no set is empty and the hook can evaluate the rules, and then as a chain that is alike: same name, hook,
options, policy and sets, and the same rules in the same order. -/
theorem C50_round_partial {e : PEnv} (he : TextEnvOk e.text) {c : Chain} {o : Option HookOpts} (h : ChainShown e.text e.rate c o) (k : Counts) :
    ∃ text, chainDump e.text c o k false = .ok text ∧ (text.length + 4 ≤ e.fuel → c.sets.length ≤ 4294967296 →
      ((∃ rs, bfcParse e (edit text) = some (.ok rs)) ↔ (∀ x ∈ c.sets, x.elems ≠ []) ∧ ∀ r ∈ c.rules, Evaluable c.hook c.sets r) ∧
      ∀ rs, bfcParse e (edit text) = some (.ok rs) → ∃ c', rs = [c'] ∧ ChainAlike (c, o) c') := by
  obtain ⟨t, s, h1, h2, h3, h4, h5⟩ := Dmp.chain_shown he h k
  refine ⟨t, h1, fun hf hn => ?_⟩
  have hw : Writes (edit t) [s] := ⟨by simp, fun x hx => by rw [List.mem_singleton.mp hx]; exact h3, by
    rw [List.flatMap_cons, List.flatMap_nil, List.append_nil]
    exact Dmp.edit_shows h2⟩
  have hlen := Dmp.edit_length t
  have hb : (∀ x ∈ [s], ∀ p ∈ setTexts x, ¬ blankFirst p) ↔ ∀ x ∈ c.sets, x.elems ≠ [] := by
    constructor
    · intro hb x hx he
      obtain ⟨p, hp, hiff⟩ := each_mem h5 hx
      exact hb s (List.mem_singleton.mpr rfl) p hp (hiff.mpr he)
    · intro hne x hx p hp hbf
      rw [List.mem_singleton.mp hx] at hp
      obtain ⟨y, hy, hiff⟩ := each_mem' h5 (show p ∈ Dmp.setBodies s from hp)
      exact hne y hy (hiff.mp hbf)
  have hsz : ∀ rs, bfcParse e (edit t) = some (.ok rs) → ∀ c' ∈ rs, c'.1.sets.length ≤ 4294967296 := by
    intro rs hrs
    unfold bfcParse at hrs
    rw [writes_parse hw] at hrs
    have := chainsAct_size rfl hrs
    intro c' hc'
    obtain ⟨s', hs', hl⟩ := each_mem this hc'
    rw [hl, List.mem_singleton.mp hs']
    show (Dmp.setBodies s).length ≤ _
    rw [each_length h5]
    exact hn
  have hlike : ∀ rs, bfcParse e (edit t) = some (.ok rs) → ∃ c', rs = [c'] ∧ ChainAlike (c, o) c' ∧ ChainSays e.text e.rate s c' := by
    intro rs hrs
    cases C45_read hw hrs (hsz rs hrs) with
    | cons g3 g4 =>
      cases g4
      exact ⟨_, rfl, Dmp.chain_alike h3 h4 g3, g3⟩
  refine ⟨⟨?_, ?_⟩, fun rs hrs => (hlike rs hrs).elim fun c' h => ⟨c', h.1, h.2.1⟩⟩
  · rintro ⟨rs, hrs⟩
    obtain ⟨c', rfl, _, hsay⟩ := hlike rs hrs
    obtain ⟨ha, hb'⟩ := (C45_accepts (e := e) hw (by omega)).mp ⟨_, hrs, .cons hsay .nil, hsz _ hrs⟩
    refine ⟨hb.mp hb', ?_⟩
    obtain ⟨c1, hc1, hev, _⟩ := ha s (List.mem_singleton.mpr rfl)
    exact Dmp.evaluable_says hc1 h4 hev
  · rintro ⟨hne, hev⟩
    obtain ⟨rs, g1, _⟩ := (C45_accepts (e := e) hw (by omega)).mpr ⟨fun x hx => by
      rw [List.mem_singleton.mp hx]
      exact ⟨(c, o), h4, hev, hn⟩, hb.mpr hne⟩
    exact ⟨rs, g1⟩

end Bf.Cli
