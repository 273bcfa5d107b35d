import Verif.Cli.MainLemmas
import Verif.Spec.Command
import Verif.Props.C45_Text
/-!
# C51: what a run of `bfcli` does
-/
namespace Bf.Cli
open Spec
open Pin (K P Setup)

variable {H : Host} {a1 : List Arg1} {a2 : List (Flag × List Char)} {words : List String} {o : CmdLine} {c : Cmd} {w w' : K}

theorem pass1_exit : ∀ {l : List Arg1} {o : CmdLine} {s : Status}, pass1 o l = .exit s → s = .usage ∨ s = .ok ∧ ∃ a ∈ l, helpFirst a
  | [], o, s, h => by cases h; exact .inl rfl
  | a :: l, o, s, h => by
    have ih : ∀ o : CmdLine, pass1 o l = .exit s → s = .usage ∨ s = .ok ∧ ∃ b ∈ a :: l, helpFirst b := fun o h =>
      (pass1_exit h).imp id fun ⟨e, b, hb, h⟩ => ⟨e, b, List.mem_cons_of_mem _ hb, h⟩
    cases a <;> simp only [pass1] at h
    case help => cases h; exact .inr ⟨rfl, _, List.mem_cons_self, .inl rfl⟩
    case usage => cases h; exact .inr ⟨rfl, _, List.mem_cons_self, .inr (.inl rfl)⟩
    case version => cases h; exact .inr ⟨rfl, _, List.mem_cons_self, .inr (.inr rfl)⟩
    case bad => cases h; exact .inl rfl
    case deprecated => exact ih _ h
    case withToken => exact ih _ h
    case bpffs => exact ih _ h
    case verbose =>
      split at h
      · exact ih _ h
      · cases h; exact .inl rfl
    case word =>
      split at h
      · split at h
        · cases h; exact .inl rfl
        · exact ih _ h
      · split at h
        · cases h; exact .inl rfl
        · split at h
          · cases h; exact .inl rfl
          · cases h

/-- C51: a command line that is not one of the documentation's is refused, with status 64, or help is printed if it asks for it; nothing else is done:
no system call is made. -/
theorem C51_refused (H : Host) (h : ¬ Valid a1 a2 words) : main H a1 a2 words = .ret (.exits .usage []) ∨
    main H a1 a2 words = .ret (.exits .ok []) ∧ ((∃ a ∈ a1, helpFirst a) ∨ ∃ a ∈ a2, asksHelp a.1) := by
  unfold main
  cases ho : optsParse a1 a2 words with
  | go p => exact absurd ((C51_options a1 a2 words).mp ⟨p.1, p.2, ho⟩) h
  | exit s =>
    dsimp only
    unfold optsParse at ho
    cases h1 : pass1 {} a1 with
    | exit s' =>
      rw [h1] at ho
      cases ho
      rcases pass1_exit h1 with rfl | ⟨rfl, h⟩
      · exact .inl rfl
      · exact .inr ⟨rfl, .inl h⟩
    | go p =>
      rw [h1] at ho
      dsimp only [Got.bind] at ho
      cases h2 : pass2 p.2 p.1 a2 with
      | exit s' =>
        rw [h2] at ho
        cases ho
        rcases pass2_exit h2 with rfl | ⟨rfl, h⟩
        · exact .inl rfl
        · exact .inr ⟨rfl, .inr h⟩
      | go o2 =>
        rw [h2] at ho
        dsimp only at ho
        split at ho
        · cases ho; exact .inl rfl
        · split at ho
          · cases ho; exact .inl rfl
          · split at ho
            · cases ho; exact .inl rfl
            · cases ho

/-- C51: a command line that is one of the documentation's is taken. -/
theorem C51_taken (h : Valid a1 a2 words) : ∃ o c, optsParse a1 a2 words = .go (o, c) := (C51_options a1 a2 words).mpr h

/-- The words of a command line say one thing. -/
theorem Commands.unique {x x' : Object} {a a' : Action} (h : Commands a1 x a) (h' : Commands a1 x' a') (hu : (usage x a).isSome) (hu' : (usage x' a').isSome) :
    x = x' ∧ a = a' := by
  obtain ⟨c, hg⟩ := Option.isSome_iff_exists.mp (by rw [getCmd_usage]; exact hu : (getCmd x a).isSome)
  obtain ⟨c', hg'⟩ := Option.isSome_iff_exists.mp (by rw [getCmd_usage]; exact hu' : (getCmd x' a').isSome)
  obtain ⟨o, h1⟩ := (pass1_first (o := {}) rfl).mpr ⟨x, a, h, hg⟩
  obtain ⟨o', h2⟩ := (pass1_first (o := {}) rfl).mpr ⟨x', a', h', hg'⟩
  rw [h1] at h2
  cases h2
  exact ⟨(getCmd_iff hg).2.1.symm.trans (getCmd_iff hg').2.1, (getCmd_iff hg).2.2.symm.trans (getCmd_iff hg').2.2⟩

theorem getChain_chosen {name : Option String} {rs : List (Chain × Option HookOpts)} {x : Chain × Option HookOpts} :
    getChain name rs = .ok x ↔ Chosen name rs x := by
  rw [C45_name]
  unfold Chosen
  cases name with
  | none => simp
  | some n => simp

/-- What the commands that take chains from a text do first. -/
theorem chainSource_some (hk : Kept a2 o) (hs : (given .fromStr a2 ≠ [] ∧ given .fromFile a2 = []) ∨ (given .fromStr a2 = [] ∧ given .fromFile a2 ≠ []))
    {rs : List (Chain × Option HookOpts)} : chainSource H o = some (.ok rs) ↔ ∃ t, Source H a2 t ∧ bfcParse H.env t = some (.ok rs) := by
  unfold chainSource Source
  rw [hk.fromStr, hk.fromFile]
  rcases hs with ⟨h1, h2⟩ | ⟨h1, h2⟩
  · rw [h2]
    cases hl : (given .fromStr a2).getLast? with
    | none => exact absurd (List.getLast?_eq_none_iff.mp hl) h1
    | some t => simp
  · rw [h1]
    cases hl : (given .fromFile a2).getLast? with
    | none => exact absurd (List.getLast?_eq_none_iff.mp hl) h2
    | some f =>
      simp only [List.getLast?_nil, parseFile]
      cases hf : H.file f <;> simp [hf]

theorem rulesetSource_some (hk : Kept a2 o) (hs : (given .fromStr a2 ≠ [] ∧ given .fromFile a2 = []) ∨ (given .fromStr a2 = [] ∧ given .fromFile a2 ≠ []))
    {rs : List (Chain × Option HookOpts)} : rulesetSource H o = some (.ok rs) ↔ ∃ t, Source H a2 t ∧ bfcParse H.env t = some (.ok rs) := by
  unfold rulesetSource Source
  rw [hk.fromStr, hk.fromFile]
  rcases hs with ⟨h1, h2⟩ | ⟨h1, h2⟩
  · rw [h2]
    cases hl : (given .fromStr a2).getLast? with
    | none => exact absurd (List.getLast?_eq_none_iff.mp hl) h1
    | some t => simp
  · rw [h1]
    cases hl : (given .fromFile a2).getLast? with
    | none => exact absurd (List.getLast?_eq_none_iff.mp hl) h2
    | some f =>
      simp only [List.getLast?_nil, parseFile]
      cases hf : H.file f <;> simp [hf]

theorem takes_iff (hk : Kept a2 o) (hs : (given .fromStr a2 ≠ [] ∧ given .fromFile a2 = []) ∨ (given .fromStr a2 = [] ∧ given .fromFile a2 ≠ []))
    {x : Chain × Option HookOpts} :
    (∃ rs, chainSource H o = some (.ok rs) ∧ getChain (o.name.map String.ofList) rs = .ok x) ↔ Takes H a2 x := by
  constructor
  · rintro ⟨rs, h1, h2⟩
    obtain ⟨t, h3, h4⟩ := (chainSource_some hk hs).mp h1
    rw [hk.name, getChain_chosen] at h2
    exact ⟨t, rs, h3, h4, h2⟩
  · rintro ⟨t, rs, h3, h4, h2⟩
    refine ⟨rs, (chainSource_some hk hs).mpr ⟨t, h3, h4⟩, ?_⟩
    rw [hk.name, getChain_chosen]
    exact h2

/-- A command that works on a chain of a text: what comes before the operation. -/
theorem chainCmd_cases (H : Host) (o : CmdLine) (act : Chain → Option HookOpts → P (Res Unit)) :
    (∃ e, chainCmd H o act = .ret e ∧ (∀ out, e ≠ .exits .ok out) ∧
      ∀ rs x, ¬ (chainSource H o = some (.ok rs) ∧ getChain (o.name.map String.ofList) rs = .ok x)) ∨
    ∃ rs x, chainSource H o = some (.ok rs) ∧ getChain (o.name.map String.ofList) rs = .ok x ∧
      chainCmd H o act = if o.dryRun then .ret (.exits .ok []) else (act x.1 x.2 >>= fun r => pure (ended r)) := by
  unfold chainCmd after
  cases hs : chainSource H o with
  | none => exact .inl ⟨_, rfl, (fun out h => by cases h), fun rs x h => by cases h.1⟩
  | some r =>
    cases r with
    | err e => exact .inl ⟨_, rfl, (fun out h => by cases h), fun rs x h => by cases h.1⟩
    | ub => exact .inl ⟨_, rfl, (fun out h => by cases h), fun rs x h => by cases h.1⟩
    | ok rs =>
      dsimp only
      unfold afterRes after
      cases hg : getChain (o.name.map String.ofList) rs with
      | err e => exact .inl ⟨_, rfl, (fun out h => by cases h), fun rs' x ⟨h1, h2⟩ => by cases h1; rw [hg] at h2; cases h2⟩
      | ub => exact .inl ⟨_, rfl, (fun out h => by cases h), fun rs' x ⟨h1, h2⟩ => by cases h1; rw [hg] at h2; cases h2⟩
      | ok x => exact .inr ⟨rs, x, rfl, hg, rfl⟩

/-- The commands that read chains from a text. -/
def reader (x : Object) (a : Action) : Prop := a = .set ∨ x = .chain ∧ (a = .load ∨ a = .update)

theorem dry_reader {x : Object} {a : Action} {u : Usage} (hu : usage x a = some u) (hR : u.Right a2) (hd : given .dryRun a2 ≠ []) : reader x a := by
  obtain ⟨b, hb, hf⟩ := given_ne.mp hd
  have := hR.known b hb
  rw [hf] at this
  clear hR hd hb hf
  revert this
  cases x <;> cases a <;> simp only [usage, reduceCtorEq, Option.some.injEq] at hu <;> subst hu <;> simp [reader]

theorem reader_source {x : Object} {a : Action} {u : Usage} (hu : usage x a = some u) (hr : reader x a) : u.source = true := by
  revert hr
  cases x <;> cases a <;> simp only [usage, reduceCtorEq, Option.some.injEq] at hu <;> subst hu <;> simp [reader]

/-- C51: a dry run makes no system call, and exits with status 0 exactly when the text is read, and, but for `ruleset set`, gives the chain to work on. -/
theorem C51_dry (H : Host) (hv : Valid a1 a2 words) (hd : given .dryRun a2 ≠ []) : ∃ e, main H a1 a2 words = .ret e ∧
    (Commands a1 .ruleset .set ∧ (e = .exits .ok [] ↔ ∃ t rs, Source H a2 t ∧ bfcParse H.env t = some (.ok rs)) ∨
     ¬ Commands a1 .ruleset .set ∧ (e = .exits .ok [] ↔ ∃ x, Takes H a2 x)) := by
  obtain ⟨o, c, ho⟩ := C51_taken hv
  obtain ⟨hk, hn, _, u, hu, hR⟩ := C51_kept ho
  have hdr : o.dryRun = true := hk.dryRun.mpr hd
  have hrd := dry_reader hu hR hd
  have hsrc := hR.source (reader_source hu hrd)
  unfold main
  rw [ho]
  dsimp only
  unfold mainCmd
  rw [if_pos hdr]
  have chainCase : ∀ act, c.object = .chain → ∃ e, chainCmd H o act = .ret e ∧
      (Commands a1 .ruleset .set ∧ (e = .exits .ok [] ↔ ∃ t rs, Source H a2 t ∧ bfcParse H.env t = some (.ok rs)) ∨
       ¬ Commands a1 .ruleset .set ∧ (e = .exits .ok [] ↔ ∃ x, Takes H a2 x)) := fun act hc => by
    have hnot : ¬ Commands a1 .ruleset .set := fun h => by
      have := (Commands.unique hn h (by rw [hu]; rfl) rfl).1
      rw [hc] at this
      cases this
    rcases chainCmd_cases H o act with ⟨e, h1, h2, h3⟩ | ⟨rs, x, h1, h2, h3⟩
    · refine ⟨e, h1, .inr ⟨hnot, fun h => absurd h (h2 []), ?_⟩⟩
      rintro ⟨x, hx⟩
      obtain ⟨rs, g⟩ := (takes_iff hk hsrc).mpr hx
      exact absurd g (h3 rs x)
    · rw [if_pos hdr] at h3
      exact ⟨_, h3, .inr ⟨hnot, fun _ => ⟨x, (takes_iff hk hsrc).mp ⟨rs, h1, h2⟩⟩, fun _ => rfl⟩⟩
  rcases hrd with h | ⟨hx, h | h⟩
  · rw [h]
    cases hx : c.object with
    | chain => exact chainCase _ hx
    | ruleset =>
      have hN : Commands a1 .ruleset .set := by rw [← h, ← hx]; exact hn
      unfold runCmd rulesetSetCmd after
      cases hs : rulesetSource H o with
      | none => exact ⟨_, rfl, .inl ⟨hN, (fun h => by cases h), fun ⟨t, rs, g⟩ => by rw [(rulesetSource_some hk hsrc).mpr ⟨t, g⟩] at hs; cases hs⟩⟩
      | some r =>
        cases r with
        | err e => exact ⟨_, rfl, .inl ⟨hN, (fun h => by cases h), fun ⟨t, rs, g⟩ => by rw [(rulesetSource_some hk hsrc).mpr ⟨t, g⟩] at hs; cases hs⟩⟩
        | ub => exact ⟨_, rfl, .inl ⟨hN, (fun h => by cases h), fun ⟨t, rs, g⟩ => by rw [(rulesetSource_some hk hsrc).mpr ⟨t, g⟩] at hs; cases hs⟩⟩
        | ok rs =>
          dsimp only
          rw [if_pos hdr]
          obtain ⟨t, g⟩ := (rulesetSource_some hk hsrc).mp hs
          exact ⟨_, rfl, .inl ⟨hN, fun _ => ⟨t, rs, g⟩, fun _ => rfl⟩⟩
  · rw [hx, h]; exact chainCase (fun c _ => Pin.chainLoad H.T c) hx
  · rw [hx, h]; exact chainCase (fun c _ => Pin.chainUpdate H.T H.ncpu c) hx

end Bf.Cli
