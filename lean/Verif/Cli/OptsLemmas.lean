import Verif.Spec.Usage
/-!
# Reading the command line
-/
namespace Bf.Cli
open Spec

theorem getCmd_iff {x : Object} {a : Action} {c : Cmd} : getCmd x a = some c → c ∈ cmds ∧ c.object = x ∧ c.action = a := by
  unfold getCmd
  intro h
  have h1 := List.find?_some h
  have h2 := List.mem_of_find?_eq_some h
  simp only [Bool.and_eq_true, decide_eq_true_eq] at h1
  exact ⟨h2, h1⟩

theorem getCmd_usage (x : Object) (a : Action) : (getCmd x a).isSome = (usage x a).isSome := by
  cases x <;> cases a <;> decide

/-- Nothing but global options was read. -/
structure Fresh (o : CmdLine) : Prop where
  setOpts : o.setOpts = []
  fromStr : o.fromStr = none
  fromFile : o.fromFile = none
  name : o.name = none
  hookopts : o.hookopts = .new
  setName : o.setName = none
  setAdd : o.setAdd = []
  setRemove : o.setRemove = []
  dryRun : o.dryRun = false
  noSetContent : o.noSetContent = false

theorem Fresh.default : Fresh {} := ⟨rfl, rfl, rfl, rfl, rfl, rfl, rfl, rfl, rfl, rfl⟩

theorem pass1_fresh : ∀ {l : List Arg1} {o o' : CmdLine} {c : Cmd}, pass1 o l = .go (o', c) → Fresh o → Fresh o'
  | [], o, o', c, h, hf => by cases h
  | a :: l, o, o', c, h, hf => by
    cases a <;> simp only [pass1] at h
    case help => cases h
    case usage => cases h
    case version => cases h
    case bad => cases h
    case deprecated => exact pass1_fresh h hf
    case withToken => exact pass1_fresh h ⟨hf.1, hf.2, hf.3, hf.4, hf.5, hf.6, hf.7, hf.8, hf.9, hf.10⟩
    case bpffs => exact pass1_fresh h ⟨hf.1, hf.2, hf.3, hf.4, hf.5, hf.6, hf.7, hf.8, hf.9, hf.10⟩
    case verbose =>
      split at h
      · exact pass1_fresh h hf
      · cases h
    case word =>
      split at h
      · split at h
        · cases h
        · exact pass1_fresh h ⟨hf.1, hf.2, hf.3, hf.4, hf.5, hf.6, hf.7, hf.8, hf.9, hf.10⟩
      · split at h
        · cases h
        · split at h
          · cases h
          · cases h; exact hf

theorem object_word {w : String} {x : Object} : Object.fromStr w = some x ↔ w = x.str := by
  unfold Object.fromStr
  constructor
  · intro h
    have h1 := List.find?_some h
    simp only [decide_eq_true_eq] at h1
    exact h1.symm
  · rintro rfl
    cases x <;> decide

theorem action_word {w : String} {x : Action} : Action.fromStr w = some x ↔ w = x.str := by
  unfold Action.fromStr
  constructor
  · intro h
    have h1 := List.find?_some h
    simp only [decide_eq_true_eq] at h1
    exact h1.symm
  · rintro rfl
    cases x <;> decide

theorem verbose_iff {v : String} : verboseOk v = true ↔ Global (.verbose v) := by
  unfold verboseOk Global
  simp only [Bool.or_eq_true, decide_eq_true_eq, or_assoc]

theorem pass1_second : ∀ {l : List Arg1} {o : CmdLine} {x : Object} {c : Cmd}, o.object = some x →
    ((∃ o', pass1 o l = .go (o', c)) ↔ ∃ g a rest, l = g ++ .word a.str :: rest ∧ (∀ y ∈ g, Global y) ∧ getCmd x a = some c)
  | [], o, x, c, ho => by
    constructor
    · rintro ⟨_, h⟩; cases h
    · rintro ⟨g, a, rest, h, _⟩; cases g <;> cases h
  | y :: l, o, x, c, ho => by
    have no : (∀ o', pass1 o (y :: l) ≠ .go (o', c)) → ¬ Global y → (∀ w, y ≠ .word w) →
        ((∃ o', pass1 o (y :: l) = .go (o', c)) ↔ ∃ g a rest, y :: l = g ++ .word a.str :: rest ∧ (∀ y ∈ g, Global y) ∧ getCmd x a = some c) := by
      intro h1 h2 h3
      constructor
      · rintro ⟨o', h⟩; exact absurd h (h1 o')
      · rintro ⟨g, a, rest, h, hg, _⟩
        cases g with
        | nil => cases h; exact absurd rfl (h3 _)
        | cons z g => cases h; exact absurd (hg _ List.mem_cons_self) h2
    have yes : ∀ o1 : CmdLine, o1.object = some x → pass1 o (y :: l) = pass1 o1 l → Global y →
        ((∃ o', pass1 o (y :: l) = .go (o', c)) ↔ ∃ g a rest, y :: l = g ++ .word a.str :: rest ∧ (∀ y ∈ g, Global y) ∧ getCmd x a = some c) := by
      intro o1 h1 h2 h3
      rw [h2, pass1_second h1]
      constructor
      · rintro ⟨g, a, rest, rfl, hg, h⟩
        exact ⟨y :: g, a, rest, rfl, fun z hz => by
          rcases List.mem_cons.mp hz with rfl | hz
          · exact h3
          · exact hg z hz, h⟩
      · rintro ⟨g, a, rest, h, hg, h'⟩
        cases g with
        | nil => cases h; exact absurd h3 (by simp [Global])
        | cons z g => cases h; exact ⟨g, a, rest, rfl, fun z hz => hg z (List.mem_cons_of_mem _ hz), h'⟩
    cases y
    case help => exact no (by intro o' h; cases h) (by simp [Global]) (by simp)
    case usage => exact no (by intro o' h; cases h) (by simp [Global]) (by simp)
    case version => exact no (by intro o' h; cases h) (by simp [Global]) (by simp)
    case bad => exact no (by intro o' h; cases h) (by simp [Global]) (by simp)
    case deprecated => exact yes o ho rfl trivial
    case withToken => exact yes { o with withToken := true } ho rfl trivial
    case bpffs p => exact yes { o with bpffs := p } ho rfl trivial
    case verbose v =>
      cases hv : verboseOk v with
      | true => exact yes o ho (by simp [pass1, hv]) (verbose_iff.mp hv)
      | false => exact no (by intro o' h; simp [pass1, hv] at h) (fun h => by rw [← verbose_iff, hv] at h; cases h) (by simp)
    case word w =>
      simp only [pass1, ho]
      constructor
      · rintro ⟨o', h⟩
        split at h
        · cases h
        · next a ha =>
          split at h
          · cases h
          · next c' hc =>
            cases h
            exact ⟨[], a, l, by rw [action_word.mp ha]; rfl, by simp, hc⟩
      · rintro ⟨g, a, rest, h, hg, hc⟩
        cases g with
        | nil =>
          cases h
          rw [action_word.mpr rfl]
          dsimp only
          rw [hc]
          exact ⟨_, rfl⟩
        | cons z g => cases h; exact absurd (hg _ List.mem_cons_self) (by simp [Global])

theorem pass1_first : ∀ {l : List Arg1} {o : CmdLine} {c : Cmd}, o.object = none →
    ((∃ o', pass1 o l = .go (o', c)) ↔ ∃ x a, Commands l x a ∧ getCmd x a = some c)
  | [], o, c, ho => by
    constructor
    · rintro ⟨_, h⟩; cases h
    · rintro ⟨_, _, ⟨g, _, _, h, _⟩, _⟩; cases g <;> cases h
  | y :: l, o, c, ho => by
    have no : (∀ o', pass1 o (y :: l) ≠ .go (o', c)) → ¬ Global y → (∀ w, y ≠ .word w) →
        ((∃ o', pass1 o (y :: l) = .go (o', c)) ↔ ∃ x a, Commands (y :: l) x a ∧ getCmd x a = some c) := by
      intro h1 h2 h3
      constructor
      · rintro ⟨o', h⟩; exact absurd h (h1 o')
      · rintro ⟨x, a, ⟨g, _, _, h, hg, _⟩, _⟩
        cases g with
        | nil => cases h; exact absurd rfl (h3 _)
        | cons z g => cases h; exact absurd (hg _ List.mem_cons_self) h2
    have yes : ∀ o1 : CmdLine, o1.object = none → pass1 o (y :: l) = pass1 o1 l → Global y →
        ((∃ o', pass1 o (y :: l) = .go (o', c)) ↔ ∃ x a, Commands (y :: l) x a ∧ getCmd x a = some c) := by
      intro o1 h1 h2 h3
      rw [h2, pass1_first h1]
      constructor
      · rintro ⟨x, a, ⟨g, g2, rest, rfl, hg, h⟩, hc⟩
        exact ⟨x, a, ⟨y :: g, g2, rest, rfl, fun z hz => by
          rcases List.mem_cons.mp hz with rfl | hz
          · exact h3
          · exact hg z hz, h⟩, hc⟩
      · rintro ⟨x, a, ⟨g, g2, rest, h, hg, h'⟩, hc⟩
        cases g with
        | nil => cases h; exact absurd h3 (by simp [Global])
        | cons z g => cases h; exact ⟨x, a, ⟨g, g2, rest, rfl, fun z hz => hg z (List.mem_cons_of_mem _ hz), h'⟩, hc⟩
    cases y
    case help => exact no (by intro o' h; cases h) (by simp [Global]) (by simp)
    case usage => exact no (by intro o' h; cases h) (by simp [Global]) (by simp)
    case version => exact no (by intro o' h; cases h) (by simp [Global]) (by simp)
    case bad => exact no (by intro o' h; cases h) (by simp [Global]) (by simp)
    case deprecated => exact yes o ho rfl trivial
    case withToken => exact yes { o with withToken := true } ho rfl trivial
    case bpffs p => exact yes { o with bpffs := p } ho rfl trivial
    case verbose v =>
      cases hv : verboseOk v with
      | true => exact yes o ho (by simp [pass1, hv]) (verbose_iff.mp hv)
      | false => exact no (by intro o' h; simp [pass1, hv] at h) (fun h => by rw [← verbose_iff, hv] at h; cases h) (by simp)
    case word w =>
      simp only [pass1, ho]
      cases hw : Object.fromStr w with
      | none =>
        constructor
        · rintro ⟨o', h⟩; cases h
        · rintro ⟨x, a, ⟨g, _, _, h, hg, _⟩, _⟩
          cases g with
          | nil => cases h; rw [object_word.mpr rfl] at hw; cases hw
          | cons z g => cases h; exact absurd (hg _ List.mem_cons_self) (by simp [Global])
      | some x =>
        dsimp only
        rw [pass1_second (x := x) rfl]
        constructor
        · rintro ⟨g, a, rest, rfl, hg, hc⟩
          exact ⟨x, a, ⟨[], g, rest, by rw [object_word.mp hw]; rfl, by simp, hg⟩, hc⟩
        · rintro ⟨x', a, ⟨g, g2, rest, h, hg, hg2⟩, hc⟩
          cases g with
          | nil =>
            cases h
            rw [object_word.mpr rfl] at hw
            cases hw
            exact ⟨g2, a, rest, rfl, hg2, hc⟩
          | cons z g => cases h; exact absurd (hg _ List.mem_cons_self) (by simp [Global])

/-! ### The second pass -/

theorem findOpt_flag {c : Cmd} {f : Flag} {i : OptId} (h : findOpt c f = some i) : i ∈ c.valid ∧ i.flag = f := by
  have h1 := List.find?_some h
  simpa using h1

/-- An option can be read. -/
def Reads1 (c : Cmd) (a : Flag × List Char) : Prop :=
  (∃ i, findOpt c a.1 = some i) ∧ ¬ asksHelp a.1 ∧ (a.1 = .name ∨ a.1 = .setName ∨ a.1 = .add ∨ a.1 = .remove → a.2 ≠ [])

theorem given_cons_same {f : Flag} {x : List Char} {as : List (Flag × List Char)} : given f ((f, x) :: as) = x :: given f as := by simp [given]
theorem given_cons_other {f g : Flag} (h : g ≠ f) {x : List Char} {as : List (Flag × List Char)} : given f ((g, x) :: as) = given f as := by simp [given, h]

def lastOr (l : List (List Char)) (d : Option (List Char)) : Option (List Char) := l.foldl (fun _ x => some x) d

/-- What the options leave. -/
structure After (c : Cmd) (as : List (Flag × List Char)) (o o' : CmdLine) : Prop where
  reads : ∀ a ∈ as, Reads1 c a
  setOpts : ∀ i, i ∈ o'.setOpts ↔ i ∈ o.setOpts ∨ ∃ a ∈ as, findOpt c a.1 = some i
  fromStr : o'.fromStr = lastOr (given .fromStr as) o.fromStr
  fromFile : o'.fromFile = lastOr (given .fromFile as) o.fromFile
  name : o'.name = lastOr (given .name as) o.name
  hookopts : parseOpts o.hookopts (given .option as) = .ok o'.hookopts
  setName : o'.setName = lastOr (given .setName as) o.setName
  setAdd : o'.setAdd = o.setAdd ++ given .add as
  setRemove : o'.setRemove = o.setRemove ++ given .remove as
  dryRun : o'.dryRun = (o.dryRun || decide (given .dryRun as ≠ []))
  noSetContent : o'.noSetContent = (o.noSetContent || decide (given .noSetContent as ≠ []))

theorem pass2_after : ∀ {as : List (Flag × List Char)} {c : Cmd} {o o' : CmdLine}, pass2 c o as = .go o' → After c as o o'
  | [], c, o, o', h => by
    cases h
    exact ⟨by simp, by simp, rfl, rfl, rfl, rfl, rfl, by simp [given], by simp [given], by simp [given], by simp [given]⟩
  | (f, x) :: as, c, o, o', h => by
    unfold pass2 at h
    cases hf : findOpt c f with
    | none => rw [hf] at h; cases h
    | some i =>
      rw [hf] at h
      dsimp only at h
      have hfl := (findOpt_flag hf).2
      cases ho : optAct o x i with
      | exit s => rw [ho] at h; cases h
      | go o1 =>
        rw [ho] at h
        have ih := pass2_after (o := { o1 with setOpts := i :: o1.setOpts }) h
        have build : o1.setOpts = o.setOpts → Reads1 c (f, x) → (∀ a ∈ (f, x) :: as, Reads1 c a) ∧
            ∀ j, j ∈ o'.setOpts ↔ j ∈ o.setOpts ∨ ∃ a ∈ (f, x) :: as, findOpt c a.1 = some j := by
          intro h1 h3
          refine ⟨fun a ha => ?_, fun j => ?_⟩
          · rcases List.mem_cons.mp ha with rfl | ha
            · exact h3
            · exact ih.reads a ha
          · rw [ih.setOpts]
            simp only [h1, List.mem_cons]
            constructor
            · rintro ((rfl | h) | ⟨a, ha, h⟩)
              · exact .inr ⟨_, .inl rfl, hf⟩
              · exact .inl h
              · exact .inr ⟨a, .inr ha, h⟩
            · rintro (h | ⟨a, rfl | ha, h⟩)
              · exact .inl (.inr h)
              · rw [hf] at h; cases h; exact .inl (.inl rfl)
              · exact .inr ⟨a, ha, h⟩
        clear h
        have fin : o1.setOpts = o.setOpts → (¬ asksHelp f) → (f = .name ∨ f = .setName ∨ f = .add ∨ f = .remove → x ≠ []) →
            lastOr (given .fromStr as) o1.fromStr = lastOr (given .fromStr ((f, x) :: as)) o.fromStr →
            lastOr (given .fromFile as) o1.fromFile = lastOr (given .fromFile ((f, x) :: as)) o.fromFile →
            lastOr (given .name as) o1.name = lastOr (given .name ((f, x) :: as)) o.name →
            parseOpts o1.hookopts (given .option as) = parseOpts o.hookopts (given .option ((f, x) :: as)) →
            lastOr (given .setName as) o1.setName = lastOr (given .setName ((f, x) :: as)) o.setName →
            o1.setAdd ++ given .add as = o.setAdd ++ given .add ((f, x) :: as) →
            o1.setRemove ++ given .remove as = o.setRemove ++ given .remove ((f, x) :: as) →
            (o1.dryRun || decide (given .dryRun as ≠ [])) = (o.dryRun || decide (given .dryRun ((f, x) :: as) ≠ [])) →
            (o1.noSetContent || decide (given .noSetContent as ≠ [])) = (o.noSetContent || decide (given .noSetContent ((f, x) :: as) ≠ [])) →
            After c ((f, x) :: as) o o' := by
          intro h1 h2 h3 e1 e2 e3 e4 e5 e6 e7 e8 e9
          obtain ⟨g1, g2⟩ := build h1 ⟨⟨_, hf⟩, h2, h3⟩
          exact ⟨g1, g2, ih.fromStr.trans e1, ih.fromFile.trans e2, ih.name.trans e3, e4.symm.trans ih.hookopts, ih.setName.trans e5, ih.setAdd.trans e6,
            ih.setRemove.trans e7, ih.dryRun.trans e8, ih.noSetContent.trans e9⟩
        clear ih build
        cases i <;> simp only [optAct, OptId.flag] at ho hfl <;> subst hfl
        case help => cases ho
        case usage => cases ho
        case version => cases ho
        case chainHookOpts =>
          cases hp : parseOpt o.hookopts x with
          | err e => rw [hp] at ho; cases ho
          | ub => rw [hp] at ho; cases ho
          | ok hk =>
            rw [hp] at ho
            cases ho
            refine fin rfl (by simp [asksHelp]) (by simp) (by rw [given_cons_other (by decide)]) (by rw [given_cons_other (by decide)])
              (by rw [given_cons_other (by decide)]) ?_ (by rw [given_cons_other (by decide)]) (by rw [given_cons_other (by decide)])
              (by rw [given_cons_other (by decide)]) (by rw [given_cons_other (by decide)]) (by rw [given_cons_other (by decide)])
            rw [given_cons_same]
            conv => rhs; unfold parseOpts
            rw [hp]
            rfl
        case chainName | setName | setAdd | setRemove =>
          by_cases hx : x = []
          · rw [if_pos hx] at ho
            cases ho
          · rw [if_neg hx] at ho
            cases ho
            refine fin rfl (by simp [asksHelp]) (fun _ => hx) ?_ ?_ ?_ ?_ ?_ ?_ ?_ ?_ ?_ <;>
              first | (rw [given_cons_other (by decide)]) | (rw [given_cons_same]; simp [lastOr])
        all_goals
          cases ho
          refine fin rfl (by simp [asksHelp]) (by simp) ?_ ?_ ?_ ?_ ?_ ?_ ?_ ?_ ?_ <;>
              first | (rw [given_cons_other (by decide)]) | (rw [given_cons_same]; simp [lastOr])

theorem pass2_reads : ∀ {as : List (Flag × List Char)} {c : Cmd} {o : CmdLine}, (∀ a ∈ as, Reads1 c a) → (∃ h, parseOpts o.hookopts (given .option as) = .ok h) →
    ∃ o', pass2 c o as = .go o'
  | [], c, o, _, _ => ⟨o, rfl⟩
  | (f, x) :: as, c, o, hr, hp => by
    obtain ⟨⟨i, hi⟩, hn, hx⟩ := hr _ List.mem_cons_self
    have hr' : ∀ a ∈ as, Reads1 c a := fun a ha => hr a (List.mem_cons_of_mem _ ha)
    unfold pass2
    have hi' : findOpt c f = some i := hi
    rw [hi']
    dsimp only
    have hfl := (findOpt_flag hi').2
    cases i <;> simp only [OptId.flag] at hfl <;> subst hfl <;> simp only [optAct, Got.bind]
    case help => exact absurd (.inl rfl) hn
    case usage => exact absurd (.inr (.inl rfl)) hn
    case version => exact absurd (.inr (.inr rfl)) hn
    case chainHookOpts =>
      rw [given_cons_same] at hp
      obtain ⟨h, hp⟩ := hp
      unfold parseOpts at hp
      cases hq : parseOpt o.hookopts x with
      | err e => rw [hq] at hp; cases hp
      | ub => rw [hq] at hp; cases hp
      | ok hk =>
        rw [hq] at hp
        dsimp only
        exact pass2_reads hr' ⟨h, hp⟩
    all_goals rw [given_cons_other (by decide)] at hp
    all_goals first
      | exact pass2_reads hr' hp
      | (rw [if_neg (hx (by simp))]
         exact pass2_reads hr' hp)

theorem pass2_exit : ∀ {as : List (Flag × List Char)} {c : Cmd} {o : CmdLine} {s : Status}, pass2 c o as = .exit s →
    s = .usage ∨ s = .ok ∧ ∃ a ∈ as, asksHelp a.1
  | [], c, o, s, h => by cases h
  | (f, x) :: as, c, o, s, h => by
    unfold pass2 at h
    cases hf : findOpt c f with
    | none => rw [hf] at h; cases h; exact .inl rfl
    | some i =>
      rw [hf] at h
      dsimp only at h
      have hfl := (findOpt_flag hf).2
      have ih : ∀ o : CmdLine, pass2 c o as = .exit s → s = .usage ∨ s = .ok ∧ ∃ a ∈ (f, x) :: as, asksHelp a.1 := fun o h =>
        (pass2_exit h).imp id fun ⟨e, a, ha, h⟩ => ⟨e, a, List.mem_cons_of_mem _ ha, h⟩
      cases i <;> simp only [optAct, Got.bind, OptId.flag] at h hfl <;> subst hfl
      case help => cases h; exact .inr ⟨rfl, _, List.mem_cons_self, .inl rfl⟩
      case usage => cases h; exact .inr ⟨rfl, _, List.mem_cons_self, .inr (.inl rfl)⟩
      case version => cases h; exact .inr ⟨rfl, _, List.mem_cons_self, .inr (.inr rfl)⟩
      case chainHookOpts =>
        cases hp : parseOpt o.hookopts x with
        | err e => rw [hp] at h; cases h; exact .inl rfl
        | ub => rw [hp] at h; cases h; exact .inl rfl
        | ok hk => rw [hp] at h; exact ih _ h
      all_goals first
        | (by_cases hx : x = []
           · rw [if_pos hx] at h
             cases h
             exact .inl rfl
           · rw [if_neg hx] at h
             exact ih _ h)
        | exact ih _ h

end Bf.Cli
