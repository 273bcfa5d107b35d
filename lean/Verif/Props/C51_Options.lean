import Verif.Cli.OptsLemmas
import Verif.Cli.Main
/-!
# C51: the command lines `bfcli` accepts

`/repo/src/bfcli/opts.c` against the table of commands and options of the documentation (`Spec.usage`).
-/
namespace Bf.Cli
open Spec

/-- No command has two options written alike. -/
theorem findOpt_iff {c : Cmd} (hc : c ∈ cmds) {f : Flag} {i : OptId} : findOpt c f = some i ↔ i ∈ c.valid ∧ i.flag = f := by
  refine ⟨findOpt_flag, ?_⟩
  rintro ⟨h1, rfl⟩
  have key : ∀ c ∈ cmds, ∀ i ∈ c.valid, findOpt c i.flag = some i := by decide
  exact key c hc i h1

theorem given_ne {f : Flag} {as : List (Flag × List Char)} : given f as ≠ [] ↔ ∃ a ∈ as, a.1 = f := by
  unfold given
  rw [Ne, List.map_eq_nil_iff, List.filter_eq_nil_iff]
  simp

/-- The options a command has, as they are written. -/
theorem usage_flags {x : Object} {a : Action} {c : Cmd} {u : Usage} (hc : getCmd x a = some c) (hu : usage x a = some u) (f : Flag) (hf : ¬ asksHelp f) :
    (∃ i ∈ c.valid, i.flag = f) ↔ f ∈ u.needs ∨ f ∈ u.may ∨ u.source = true ∧ (f = .fromStr ∨ f = .fromFile) := by
  revert hf
  cases x <;> cases a <;> simp only [usage, reduceCtorEq, Option.some.injEq] at hu <;> subst hu <;> simp [getCmd, cmds] at hc <;> subst hc <;>
    cases f <;> simp [asksHelp, OptId.flag]

/-- The options of a command are all there, and agree, when its usage says so. -/
theorem usage_required {x : Object} {a : Action} {c : Cmd} {u : Usage} (hc : getCmd x a = some c) (hu : usage x a = some u)
    {as : List (Flag × List Char)} {S : List OptId} (hS : ∀ i, i ∈ S ↔ i ∈ c.valid ∧ given i.flag as ≠ [])
    (hk : ∀ a ∈ as, a.1 ∈ u.needs ∨ a.1 ∈ u.may ∨ u.source = true ∧ (a.1 = .fromStr ∨ a.1 = .fromFile)) :
    (missing c S = false ∧ clash S = false) ↔ (∀ f ∈ u.needs, given f as ≠ []) ∧
      (u.source = true → (given .fromStr as ≠ [] ∧ given .fromFile as = []) ∨ (given .fromStr as = [] ∧ given .fromFile as ≠ [])) := by
  clear hk
  cases x <;> cases a <;> simp only [usage, reduceCtorEq, Option.some.injEq] at hu <;> subst hu <;> simp [getCmd, cmds] at hc <;> subst hc <;>
    simp [missing, clash, OptId.vals, OptId.rejects, OptId.flag, hS] <;> grind

/-- The arguments of a command line, as the program keeps them: the last of each option, or all of them. -/
structure Kept (as : List (Flag × List Char)) (o : CmdLine) : Prop where
  fromStr : o.fromStr = (given .fromStr as).getLast?
  fromFile : o.fromFile = (given .fromFile as).getLast?
  name : o.name = (given .name as).getLast?
  hookopts : parseOpts .new (given .option as) = .ok o.hookopts
  setName : o.setName = (given .setName as).getLast?
  add : o.setAdd = given .add as
  remove : o.setRemove = given .remove as
  dryRun : o.dryRun = true ↔ given .dryRun as ≠ []
  noSetContent : o.noSetContent = true ↔ given .noSetContent as ≠ []

theorem lastOr_none : ∀ (l : List (List Char)), lastOr l none = l.getLast? := by
  have key : ∀ (l : List (List Char)) d, lastOr l d = l.getLast?.or d := by
    intro l
    induction l with
    | nil => intro d; rfl
    | cons x l ih =>
      intro d
      show lastOr l (some x) = _
      rw [ih]
      cases l with
      | nil => rfl
      | cons y l => rw [List.getLast?_cons_cons]; cases h : (y :: l).getLast? with
        | none => simp at h
        | some z => rfl
  intro l
  rw [key]
  cases l.getLast? <;> rfl

/-- C51: `bfcli` takes a command line exactly when it names a command that exists, gives it the options its usage asks for, none it does not have, and
no other word; and then it runs this command, with these arguments. -/
theorem C51_options (a1 : List Arg1) (a2 : List (Flag × List Char)) (words : List String) :
    (∃ o c, optsParse a1 a2 words = .go (o, c)) ↔ ∃ x a u, Commands a1 x a ∧ usage x a = some u ∧ u.Right a2 ∧ words = [] := by
  constructor
  · rintro ⟨o, c, h⟩
    unfold optsParse at h
    cases h1 : pass1 {} a1 with
    | exit s => rw [h1] at h; cases h
    | go p =>
      obtain ⟨o1, c1⟩ := p
      rw [h1] at h
      dsimp only [Got.bind] at h
      have hfr := pass1_fresh h1 Fresh.default
      obtain ⟨x, a, hn, hg⟩ := (pass1_first rfl).mp ⟨o1, h1⟩
      cases h2 : pass2 c1 o1 a2 with
      | exit s => rw [h2] at h; cases h
      | go o2 =>
        rw [h2] at h
        dsimp only at h
        split at h
        · cases h
        · next hw =>
          split at h
          · cases h
          · next hm =>
            split at h
            · cases h
            · next hcl =>
              cases h
              have hA := pass2_after h2
              have hu : (usage x a).isSome := by rw [← getCmd_usage, hg]; rfl
              obtain ⟨u, hu⟩ := Option.isSome_iff_exists.mp hu
              have hcm := (getCmd_iff hg).1
              have hk : ∀ b ∈ a2, b.1 ∈ u.needs ∨ b.1 ∈ u.may ∨ u.source = true ∧ (b.1 = .fromStr ∨ b.1 = .fromFile) := fun b hb => by
                obtain ⟨⟨i, hi⟩, hnh, _⟩ := hA.reads b hb
                exact (usage_flags hg hu b.1 hnh).mp ⟨i, findOpt_flag hi⟩
              have hS : ∀ i, i ∈ o.setOpts ↔ i ∈ c.valid ∧ given i.flag a2 ≠ [] := fun i => by
                rw [hA.setOpts, hfr.setOpts, given_ne]
                simp only [List.not_mem_nil, false_or, findOpt_iff hcm]
                exact ⟨fun ⟨b, hb, h1, h2⟩ => ⟨h1, b, hb, h2.symm⟩, fun ⟨h1, b, hb, h2⟩ => ⟨b, hb, h1, h2.symm⟩⟩
              obtain ⟨r1, r2⟩ := (usage_required hg hu hS hk).mp ⟨by simpa using hm, by simpa using hcl⟩
              refine ⟨x, a, u, hn, hu, ⟨hk, r1, r2, fun b hb => (hA.reads b hb).2.2, o.hookopts, ?_⟩, by simpa using hw⟩
              rw [← hfr.hookopts]
              exact hA.hookopts
  · rintro ⟨x, a, u, hn, hu, hR, rfl⟩
    have hg : (getCmd x a).isSome := by rw [getCmd_usage, hu]; rfl
    obtain ⟨c, hg⟩ := Option.isSome_iff_exists.mp hg
    obtain ⟨o1, h1⟩ := (pass1_first (o := {}) rfl).mpr ⟨x, a, hn, hg⟩
    have hfr := pass1_fresh h1 Fresh.default
    have hcm := (getCmd_iff hg).1
    have hreads : ∀ b ∈ a2, Reads1 c b := fun b hb => by
      have hnh : ¬ asksHelp b.1 := by
        intro h
        have hk := hR.known b hb
        revert hk h
        rcases b with ⟨f, y⟩
        clear hR hb hn h1 hg
        cases x <;> cases a <;> simp only [usage, reduceCtorEq, Option.some.injEq] at hu <;> subst hu <;> cases f <;> simp [asksHelp]
      obtain ⟨i, hi⟩ := (usage_flags hg hu b.1 hnh).mpr (hR.known b hb)
      exact ⟨⟨i, (findOpt_iff hcm).mpr hi⟩, hnh, hR.filled b hb⟩
    obtain ⟨o2, h2⟩ := pass2_reads (o := o1) hreads (by rw [hfr.hookopts]; exact hR.options)
    have hA := pass2_after h2
    have hS : ∀ i, i ∈ o2.setOpts ↔ i ∈ c.valid ∧ given i.flag a2 ≠ [] := fun i => by
      rw [hA.setOpts, hfr.setOpts, given_ne]
      simp only [List.not_mem_nil, false_or, findOpt_iff hcm]
      exact ⟨fun ⟨b, hb, h1, h2⟩ => ⟨h1, b, hb, h2.symm⟩, fun ⟨h1, b, hb, h2⟩ => ⟨b, hb, h1, h2.symm⟩⟩
    obtain ⟨r1, r2⟩ := (usage_required hg hu hS hR.known).mpr ⟨hR.needs, hR.source⟩
    refine ⟨o2, c, ?_⟩
    unfold optsParse
    rw [h1]
    dsimp only [Got.bind]
    rw [h2]
    dsimp only
    rw [if_neg (by simp), r1, r2]
    rfl

/-- C51: what is kept of a command line that was taken. -/
theorem C51_kept {a1 : List Arg1} {a2 : List (Flag × List Char)} {words : List String} {o : CmdLine} {c : Cmd} (h : optsParse a1 a2 words = .go (o, c)) :
    Kept a2 o ∧ Commands a1 c.object c.action ∧ words = [] ∧ ∃ u, usage c.object c.action = some u ∧ u.Right a2 := by
  obtain ⟨x, a, u, hn, hu, hR, hw⟩ := (C51_options a1 a2 words).mp ⟨o, c, h⟩
  unfold optsParse at h
  cases h1 : pass1 {} a1 with
  | exit s => rw [h1] at h; cases h
  | go p =>
    obtain ⟨o1, c1⟩ := p
    rw [h1] at h
    dsimp only [Got.bind] at h
    have hfr := pass1_fresh h1 Fresh.default
    obtain ⟨x', a', hn', hg'⟩ := (pass1_first rfl).mp ⟨o1, h1⟩
    have hcx := (getCmd_iff hg').2
    cases h2 : pass2 c1 o1 a2 with
    | exit s => rw [h2] at h; cases h
    | go o2 =>
      rw [h2] at h
      dsimp only at h
      split at h
      · cases h
      · split at h
        · cases h
        · split at h
          · cases h
          · cases h
            have hA := pass2_after h2
            obtain ⟨c2, hg2⟩ : ∃ c2, getCmd x a = some c2 := Option.isSome_iff_exists.mp (by rw [getCmd_usage, hu]; rfl)
            obtain ⟨o2, h12⟩ := (pass1_first (o := {}) rfl).mpr ⟨x, a, hn, hg2⟩
            rw [h1] at h12
            cases h12
            obtain ⟨_, e1, e2⟩ := getCmd_iff hg2
            refine ⟨⟨?_, ?_, ?_, ?_, ?_, ?_, ?_, ?_, ?_⟩, by rw [e1, e2]; exact hn, hw, u, by rw [e1, e2]; exact hu, hR⟩
            · rw [hA.fromStr, hfr.fromStr, lastOr_none]
            · rw [hA.fromFile, hfr.fromFile, lastOr_none]
            · rw [hA.name, hfr.name, lastOr_none]
            · rw [← hfr.hookopts]; exact hA.hookopts
            · rw [hA.setName, hfr.setName, lastOr_none]
            · rw [hA.setAdd, hfr.setAdd]; rfl
            · rw [hA.setRemove, hfr.setRemove]; rfl
            · rw [hA.dryRun, hfr.dryRun]; simp
            · rw [hA.noSetContent, hfr.noSetContent]; simp

end Bf.Cli
