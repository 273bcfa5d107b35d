import Verif.Cli.SetText
import Verif.Cli.Spell
import Verif.Props.C38_Doc
import Verif.Props.C15_Inert
import Verif.Frag.TotalM
import Verif.Props.C27_UpdateSet
/-!
# What a ruleset is read as is what it says
-/
namespace Bf.Cli
open Bf.Spec

theorem Run.bind_ok {α β : Type} {x : Run α} {f : α → Run β} {b : β} (h : x.bind f = some (.ok b)) : ∃ a, x = some (.ok a) ∧ f a = some (.ok b) := by
  unfold Run.bind at h
  split at h
  · cases h
  · exact ⟨_, rfl, h⟩
  · cases h
  · cases h

theorem orAbort_ok {α : Type} {r : Res α} {a : α} (h : orAbort r = some (.ok a)) : r = .ok a := by
  cases r with
  | ok b => cases h; rfl
  | err e => cases h
  | ub => cases h

theorem orAbort?_ok {α : Type} {r : Option α} {a : α} (h : orAbort? r = some (.ok a)) : r = some a := by
  cases r with
  | some b => cases h; rfl
  | none => cases h

theorem andAbort_ok {α : Type} {r : Run α} {a : α} (h : andAbort r = some (.ok a)) : r = some (.ok a) := by
  cases r with
  | none => cases h
  | some r => rw [orAbort_ok h]

theorem ofList_eq {w : List Char} {s : String} (h : String.ofList w = s) : w = s.toList := by rw [← h, String.toList_ofList]

theorem opOf_says {w : Option (List Char)} {o : MOp} (h : opOf w = some (.ok o)) : OpSays w o := by
  cases w with
  | none => cases h; exact .inl ⟨rfl, rfl⟩
  | some w =>
    have := orAbort_ok h
    have := (C38_understood.2.2.2.2.1 _ _).mp this
    exact .inr (congrArg some (ofList_eq this))

theorem opOf_in {w : Option (List Char)} (h : opOf w = some (.ok .in_)) : w = some (Doc.op .in_).toList := by
  rcases opOf_says h with ⟨_, h⟩ | h
  · cases h
  · exact h

theorem rd_set {i : Nat} (h : i < 4294967296) : rd (leBytes 4 i) 0 4 = .ok i := by
  rw [rd_get (by simp)]
  congr 1
  rw [List.drop_zero, List.take_of_length_le (by simp), leNat_leBytes]
  exact Nat.mod_eq_of_lt h

theorem findSet_says {name : List Char} {found : Nat × BSet} : ∀ {sets : List BSet} {i : Nat}, findSet name sets i = some found →
    ∃ j, found.1 = i + j ∧ sets[j]? = some found.2 ∧ found.2.name = some (String.ofList name) ∧
      ∀ k s', k < j → sets[k]? = some s' → s'.name ≠ some (String.ofList name)
  | [], i, h => by cases h
  | s :: ss, i, h => by
    unfold findSet at h
    split at h
    · next hn =>
      cases h
      exact ⟨0, rfl, rfl, hn, fun k _ hk => by omega⟩
    · next hn =>
      obtain ⟨j, h1, h2, h3, h4⟩ := findSet_says h
      refine ⟨j + 1, by omega, h2, h3, fun k s' hk hs => ?_⟩
      cases k with
      | zero => cases hs; exact hn
      | succ k => exact h4 k s' (by omega) hs

/-- The sets that an action adds are those of the text. -/
def Adds (e : PEnv) (st st' : PState) (l : List (List Char × List Char)) : Prop :=
  ∃ new, st'.sets = st.sets ++ new ∧ Each (fun d x => SetSays e.text none d.1 d.2 x) l new

theorem matcherAct_says {e : PEnv} {st st' : PState} {s : MatcherS} {m : Matcher} (h : matcherAct e st s = some (.ok (m, st'))) :
    Adds e st st' (inlineSet s).toList ∧ ∀ more, (st'.sets ++ more).length ≤ 4294967296 → MatcherSays e.text (st'.sets ++ more) s m := by
  cases s with
  | plain t neg op p =>
    unfold matcherAct at h
    obtain ⟨ty, h1, h⟩ := Run.bind_ok h
    obtain ⟨o, h2, h⟩ := Run.bind_ok h
    obtain ⟨m', h3, h⟩ := Run.bind_ok h
    cases h
    refine ⟨⟨[], by simp, .nil⟩, fun _ _ => ?_⟩
    have h3 := orAbort_ok h3
    unfold matcherNewFromRaw at h3
    have hlen : (block (e.mem st.n 0) (ty.refSize o)).length = ty.refSize o := by simp [block]
    rw [List.take_of_length_le (by omega)] at h3
    cases hp : parsePayload e.text ty o (block (e.mem st.n 0) (ty.refSize o)) p with
    | err e => rw [hp] at h3; cases h3
    | ub => rw [hp] at h3; cases h3
    | ok x =>
      rw [hp] at h3
      cases h3
      refine ⟨ofList_eq ((C38_understood.2.2.2.1 _ _).mp (orAbort_ok h1)), opOf_says h2, rfl, ?_, _, hlen, hp⟩
      exact (parsePayload_prefix (by omega) hp).2.2.trans hlen
  | inline k neg op p =>
    unfold matcherAct at h
    obtain ⟨o, h1, h⟩ := Run.bind_ok h
    split at h
    · cases h
    · next ho =>
      have ho : o = .in_ := Classical.not_not.mp ho
      subst ho
      obtain ⟨set, h2, h⟩ := Run.bind_ok h
      cases h
      have hs := setNewFromRaw_says (andAbort_ok h2)
      refine ⟨⟨[set], rfl, .cons hs .nil⟩, fun more hm => ⟨opOf_in h1, rfl, rfl, rfl, st.sets.length, set, rd_set ?_, ?_, hs⟩⟩
      · simp at hm; omega
      · simp
  | named k neg op name =>
    unfold matcherAct at h
    obtain ⟨o, h1, h⟩ := Run.bind_ok h
    split at h
    · cases h
    · next ho =>
      have ho : o = .in_ := Classical.not_not.mp ho
      subst ho
      obtain ⟨test, h2, h⟩ := Run.bind_ok h
      obtain ⟨found, h3, h⟩ := Run.bind_ok h
      split at h
      · cases h
      · next hk =>
        have hk : found.2.key = test.key := Classical.not_not.mp hk
        cases h
        obtain ⟨j, e1, e2, e3, e4⟩ := findSet_says (orAbort?_ok h3)
        rw [Nat.zero_add] at e1
        have hs := setNewFromRaw_says (andAbort_ok h2)
        have hj : j < st.sets.length := by
          rcases Nat.lt_or_ge j st.sets.length with h | h
          · exact h
          · rw [List.getElem?_eq_none h] at e2; cases e2
        refine ⟨⟨[], by simp, .nil⟩, fun more hm => ⟨opOf_in h1, rfl, rfl, rfl, j, found.2, ?_, ?_, e3, ?_, ?_⟩⟩
        · rw [setMatcher, e1]
          refine rd_set ?_
          simp only [List.length_append] at hm
          omega
        · rw [List.getElem?_append_left hj]; exact e2
        · rw [hk]; exact hs.2.1
        · intro i s' hi hs'
          rw [List.getElem?_append_left (Nat.lt_trans hi hj)] at hs'
          exact e4 i s' hi hs'

theorem _root_.Bf.Each.append {α β : Type} {R : α → β → Prop} {a c : List α} {b d : List β} (h : Each R a b) (h' : Each R c d) : Each R (a ++ c) (b ++ d) := by
  induction h with
  | nil => exact h'
  | cons h _ ih => exact .cons h ih

theorem Adds.refl {e : PEnv} {st : PState} : Adds e st st [] := ⟨[], by simp, .nil⟩

theorem Adds.trans {e : PEnv} {a b c : PState} {l m : List (List Char × List Char)} (h : Adds e a b l) (h' : Adds e b c m) : Adds e a c (l ++ m) := by
  obtain ⟨x, e1, h1⟩ := h
  obtain ⟨y, e2, h2⟩ := h'
  exact ⟨x ++ y, by rw [e2, e1, List.append_assoc], h1.append h2⟩

theorem Adds.more {e : PEnv} {a b : PState} {l : List (List Char × List Char)} (h : Adds e a b l) : ∃ more, b.sets = a.sets ++ more := by
  obtain ⟨x, e1, _⟩ := h
  exact ⟨x, e1⟩

theorem matchersAct_says {e : PEnv} : ∀ {l : List MatcherS} {st st' : PState} {ms : List Matcher}, matchersAct e st l = some (.ok (ms, st')) →
    Adds e st st' (l.filterMap inlineSet) ∧ ∀ more, (st'.sets ++ more).length ≤ 4294967296 → Each (MatcherSays e.text (st'.sets ++ more)) l ms
  | [], st, st', ms, h => by
    cases h
    exact ⟨.refl, fun _ _ => .nil⟩
  | s :: l, st, st', ms, h => by
    unfold matchersAct at h
    obtain ⟨a, h1, h⟩ := Run.bind_ok h
    obtain ⟨b, h2, h⟩ := Run.bind_ok h
    cases h
    obtain ⟨a1, a2⟩ := matcherAct_says (m := a.1) (st' := a.2) h1
    obtain ⟨b1, b2⟩ := matchersAct_says (ms := b.1) (st' := b.2) h2
    refine ⟨?_, fun more hm => .cons ?_ (b2 more hm)⟩
    · have := a1.trans b1
      rw [List.filterMap_cons]
      cases hi : inlineSet s <;> rw [hi] at this <;> exact this
    · obtain ⟨x, ex⟩ := b1.more
      rw [ex, List.append_assoc] at hm ⊢
      exact a2 _ hm

/-! ## Options -/

theorem headsAct_says : ∀ {hs : List (List Char)} {v r : BitVec 8}, headsAct v hs = some (.ok r) →
    (∀ h ∈ hs, ∃ n x, Doc.log n = some x ∧ lower (String.ofList h) = lower x) ∧
    ∀ n, r.getLsbD n = true ↔ v.getLsbD n = true ∨ ∃ h ∈ hs, ∃ x, Doc.log n = some x ∧ lower (String.ofList h) = lower x
  | [], v, r, h => by
    cases h
    simp
  | w :: hs, v, r, h => by
    unfold headsAct at h
    obtain ⟨k, h1, h⟩ := Run.bind_ok h
    have hk := (C38_understood.2.2.2.2.2.1 _ _).mp (orAbort_ok h1)
    have hk8 : k < 3 := by
      obtain ⟨x, hx, _⟩ := hk
      match k, hx with
      | 0, _ => omega
      | 1, _ => omega
      | 2, _ => omega
      | k + 3, hx => cases hx
    obtain ⟨a, b⟩ := headsAct_says h
    refine ⟨?_, fun n => ?_⟩
    · intro h' hm
      rcases List.mem_cons.mp hm with rfl | hm
      · exact ⟨k, hk⟩
      · exact a h' hm
    · rw [b, BitVec.getLsbD_or]
      have hbit : (1#8 <<< k).getLsbD n = true ↔ n = k := by
        rw [BitVec.getLsbD_shiftLeft]
        simp only [Bool.and_eq_true, decide_eq_true_eq, Bool.not_eq_true', decide_eq_false_iff_not, Nat.not_lt]
        constructor
        · rintro ⟨⟨_, h2⟩, h3⟩
          rw [BitVec.getLsbD_one] at h3
          simp at h3
          omega
        · rintro rfl
          exact ⟨⟨by omega, by omega⟩, by simp⟩
      rw [Bool.or_eq_true, hbit]
      constructor
      · rintro ((h | rfl) | ⟨h', hm, hx⟩)
        · exact .inl h
        · exact .inr ⟨w, List.mem_cons_self, hk⟩
        · exact .inr ⟨h', List.mem_cons_of_mem _ hm, hx⟩
      · rintro (h | ⟨h', hm, hx⟩)
        · exact .inl (.inl h)
        · rcases List.mem_cons.mp hm with rfl | hm
          · have : logOptFromStr (String.ofList h') = .ok n := (C38_understood.2.2.2.2.2.1 _ _).mpr hx
            rw [orAbort_ok h1] at this
            cases this
            exact .inl (.inr rfl)
          · exact .inr ⟨h', hm, hx⟩

theorem logAct_says {hs : List (List Char)} {l : BitVec 8} (h : logAct hs = some (.ok l)) : LogSays hs l := by
  unfold logAct at h
  split at h
  · next hn => cases h; exact .inl ⟨hn, rfl⟩
  · next hn =>
    obtain ⟨a, b⟩ := headsAct_says h
    refine .inr ⟨hn, a, fun n => ?_⟩
    rw [b]
    simp

theorem parseMark_says {s : List Char} {n : Nat} (h : parseMark s = some n) : MarkSays s n := by
  unfold parseMark at h
  dsimp only at h
  split at h
  · cases h
  · next h1 =>
    split at h
    · cases h
    · next h2 =>
      split at h
      · cases h
      · next h3 =>
        cases h
        have h1 : (strtoll s 0).2 = [] := Classical.not_not.mp h1
        refine ⟨?_, by omega⟩
        rw [← h1]
        refine Prod.ext ?_ rfl
        simp only
        omega

/-- What the options say of the options read so far. -/
structure OptsInv (e : PEnv) (done : List OptionS) (o : Opts) : Prop where
  logs : (done.filter isLog).length = if o.log.isSome then 1 else 0
  log : ∀ hs t, .log hs t ∈ done → ∃ l, o.log = some l ∧ LogSays hs l ∧ RateSays e.rate t (BitVec.ofNat 64 (o.rate.getD 0))
  noLog : o.log = none → o.rate = none
  counters : (done.filter isCounter).length = if o.counter then 1 else 0
  counter : o.counter = true ↔ .counter ∈ done
  marks : (done.filter isMark).length = if o.mark.isSome then 1 else 0
  mark : ∀ s, .mark s ∈ done → ∃ n, o.mark = some n ∧ MarkSays s n

theorem optionAct_inv {e : PEnv} {done : List OptionS} {o o' : Opts} {x : OptionS} (hi : OptsInv e done o) (h : optionAct e o x = some (.ok o')) :
    OptsInv e (done ++ [x]) o' := by
  cases x with
  | log hs r =>
    unfold optionAct at h
    obtain ⟨l, h1, h⟩ := Run.bind_ok h
    obtain ⟨rate, h2, h⟩ := Run.bind_ok h
    split at h
    · cases h
    · next hn =>
      cases h
      have hnone : o.log = none := by simpa using hn
      have hl0 : done.filter isLog = [] := by
        have := hi.logs
        rw [hnone] at this
        exact List.eq_nil_of_length_eq_zero this
      have hrate : RateSays e.rate r (BitVec.ofNat 64 (rate.getD 0)) := by
        cases r with
        | none =>
          cases h2
          rw [hi.noLog hnone]
          exact .inl ⟨rfl, rfl⟩
        | some s =>
          unfold rateAct at h2
          obtain ⟨ns, h3, h2⟩ := Run.bind_ok h2
          cases h2
          exact .inr ⟨s, ns, rfl, orAbort?_ok h3, rfl⟩
      refine ⟨?_, ?_, (fun h => by cases h), ?_, ?_, ?_, ?_⟩
      · rw [List.filter_append, hl0]; rfl
      · intro hs' t hm
        rcases List.mem_append.mp hm with hm | hm
        · have : OptionS.log hs' t ∈ done.filter isLog := List.mem_filter.mpr ⟨hm, rfl⟩
          rw [hl0] at this
          cases this
        · simp only [List.mem_singleton, OptionS.log.injEq] at hm
          obtain ⟨rfl, rfl⟩ := hm
          exact ⟨l, rfl, logAct_says h1, hrate⟩
      · rw [List.filter_append, List.length_append, hi.counters]; rfl
      · rw [List.mem_append, ← hi.counter]; simp
      · rw [List.filter_append, List.length_append, hi.marks]; rfl
      · intro s hm
        rcases List.mem_append.mp hm with hm | hm
        · exact hi.mark s hm
        · simp at hm
  | counter =>
    rw [optionAct] at h
    split at h
    · cases h
    · next hn =>
      cases h
      have hf : o.counter = false := by simpa using hn
      refine ⟨?_, ?_, hi.noLog, ?_, ?_, ?_, ?_⟩
      · rw [List.filter_append, List.length_append, hi.logs]; rfl
      · intro hs t hm
        rcases List.mem_append.mp hm with hm | hm
        · exact hi.log hs t hm
        · simp at hm
      · rw [List.filter_append, List.length_append, hi.counters, hf]; rfl
      · simp
      · rw [List.filter_append, List.length_append, hi.marks]; rfl
      · intro s hm
        rcases List.mem_append.mp hm with hm | hm
        · exact hi.mark s hm
        · simp at hm
  | mark v =>
    unfold optionAct at h
    obtain ⟨m, h1, h⟩ := Run.bind_ok h
    split at h
    · cases h
    · next hn =>
      cases h
      have hnone : o.mark = none := by simpa using hn
      have hl0 : done.filter isMark = [] := by
        have := hi.marks
        rw [hnone] at this
        exact List.eq_nil_of_length_eq_zero this
      refine ⟨?_, ?_, hi.noLog, ?_, ?_, ?_, ?_⟩
      · rw [List.filter_append, List.length_append, hi.logs]; rfl
      · intro hs t hm
        rcases List.mem_append.mp hm with hm | hm
        · exact hi.log hs t hm
        · simp at hm
      · rw [List.filter_append, List.length_append, hi.counters]; rfl
      · rw [List.mem_append, ← hi.counter]; simp
      · rw [List.filter_append, hl0]; rfl
      · intro s hm
        rcases List.mem_append.mp hm with hm | hm
        · have : OptionS.mark s ∈ done.filter isMark := List.mem_filter.mpr ⟨hm, rfl⟩
          rw [hl0] at this
          cases this
        · simp only [List.mem_singleton, OptionS.mark.injEq] at hm
          subst hm
          exact ⟨m, rfl, parseMark_says (orAbort?_ok h1)⟩

theorem optionsAct_inv {e : PEnv} : ∀ {xs done : List OptionS} {o o' : Opts}, OptsInv e done o → optionsAct e o xs = some (.ok o') → OptsInv e (done ++ xs) o'
  | [], done, o, o', hi, h => by cases h; simpa using hi
  | x :: xs, done, o, o', hi, h => by
    unfold optionsAct at h
    obtain ⟨o1, h1, h⟩ := Run.bind_ok h
    have := optionsAct_inv (optionAct_inv hi h1) h
    rwa [List.append_assoc] at this

theorem markField_none : (markField none) >>> 32 = 0 := by decide

theorem markField_some (m : Nat) : (markField (some m)) >>> 32 ≠ 0 ∧ (markField (some m)).setWidth 32 = BitVec.ofNat 32 m := by
  unfold markField
  refine ⟨fun h => ?_, ?_⟩
  · have := congrArg (fun v => BitVec.getLsbD v 0) h
    simp [BitVec.getLsbD_or] at this
  · rw [BitVec.setWidth_or, show BitVec.setWidth 32 0xFFFFFFFF00000000#64 = 0#32 by decide, BitVec.zero_or]
    rw [BitVec.setWidth_ofNat_of_le (by omega)]

/-! ## Rules -/

theorem verdict_says {e : PEnv} {s : VerdictS} {v : Verdict × Nat × RedirDir} (h : verdictAct e s = some (.ok v)) (r : Rule) (h1 : r.verdict = v.1)
    (h2 : v.1 = .redirect → r.redirIfindex = BitVec.ofNat 32 v.2.1) (h3 : v.1 = .redirect → r.redirDir = v.2.2) : VerdictSays e.text s r := by
  cases s with
  | plain w =>
    unfold verdictAct at h
    obtain ⟨x, hx, h⟩ := Run.bind_ok h
    cases h
    have := ofList_eq ((C38_understood.2.1 _ _).mp (orAbort_ok hx))
    rw [VerdictSays, h1]
    exact this
  | redirect i d =>
    unfold verdictAct at h
    obtain ⟨n, hn, h⟩ := Run.bind_ok h
    obtain ⟨x, hx, h⟩ := Run.bind_ok h
    cases h
    refine ⟨h1, ?_, ?_⟩
    · rw [h2 rfl]
      have hn := orAbort?_ok hn
      unfold parseIface at hn
      dsimp only at hn
      unfold IfaceSays
      split at hn
      · next hc =>
        rw [if_pos hc]
        cases hn
        show (BitVec.ofNat 32 (e.text.nameToIndex i)).toNat = _
        rw [BitVec.toNat_ofNat]
        exact Nat.mod_eq_of_lt (by omega)
      · next hc =>
        rw [if_neg hc]
        split at hn
        · next hr =>
          cases hn
          have : (BitVec.ofNat 32 (strtoul i 10).val).toNat = (strtoul i 10).val := by
            rw [BitVec.toNat_ofNat]
            exact Nat.mod_eq_of_lt (by omega)
          simp only [this]
          refine ⟨?_, hr.2.2.1, hr.2.2.2⟩
          have h4 := hr.1
          have h5 := hr.2.1
          revert h4 h5
          cases strtoul i 10
          rintro rfl rfl
          rfl
        · cases hn
    · rw [h3 rfl]
      exact ofList_eq ((C38_understood.2.2.1 _ _).mp (orAbort_ok hx))

theorem ruleAct_says {e : PEnv} {st st' : PState} {s : RuleS} {r : Rule} (h : ruleAct e st s = some (.ok (r, st'))) :
    Adds e st st' (s.matchers.filterMap inlineSet) ∧
    ∀ more, (st'.sets ++ more).length ≤ 4294967296 → RuleSays e.text e.rate (st'.sets ++ more) s r := by
  unfold ruleAct at h
  obtain ⟨ms, h1, h⟩ := Run.bind_ok h
  obtain ⟨o, h2, h⟩ := Run.bind_ok h
  obtain ⟨v, h3, h⟩ := Run.bind_ok h
  cases h
  obtain ⟨a1, a2⟩ := matchersAct_says (ms := ms.1) (st' := ms.2) h1
  refine ⟨a1, fun more hm => ⟨a2 more hm, ?_, verdict_says h3 _ rfl (fun h => by simp [h]) (fun h => by simp [h])⟩⟩
  have hi : OptsInv e s.options o := optionsAct_inv (done := [])
    ⟨rfl, (fun _ _ h => by cases h), (fun _ => rfl), rfl, by simp, rfl, (fun _ h => by cases h)⟩ h2
  refine ⟨⟨?_, ?_, ?_⟩, ?_, ?_, hi.counter, ?_, ?_⟩
  · rw [hi.logs]; split <;> omega
  · rw [hi.counters]; split <;> omega
  · rw [hi.marks]; split <;> omega
  · intro hs t hm
    obtain ⟨l, e1, e2, e3⟩ := hi.log hs t hm
    refine ⟨?_, e3⟩
    simp only [e1]
    exact e2
  · intro hn
    have : o.log = none := by
      have h0 := hi.logs
      rw [List.filter_eq_nil_iff.mpr (fun x hx => by rw [hn x hx]; simp)] at h0
      cases ho : o.log with
      | none => rfl
      | some l => rw [ho] at h0; cases h0
    simp only [this, hi.noLog this]
    exact ⟨rfl, rfl⟩
  · intro w hm
    obtain ⟨n, e1, e2⟩ := hi.mark w hm
    refine ⟨n, e2, ?_, ?_⟩
    · simp only [Rule.markSet, e1]
      exact decide_eq_true (markField_some n).1
    · simp only [Rule.markVal, e1]
      exact (markField_some n).2
  · intro hn
    have : o.mark = none := by
      have h0 := hi.marks
      rw [List.filter_eq_nil_iff.mpr (fun x hx => by rw [hn x hx]; simp)] at h0
      cases ho : o.mark with
      | none => rfl
      | some l => rw [ho] at h0; cases h0
    simp only [Rule.markSet, this]
    decide

theorem rulesAct_says {e : PEnv} : ∀ {l : List RuleS} {st st' : PState} {rs : List Rule}, rulesAct e st l = some (.ok (rs, st')) →
    Adds e st st' (inlineSets l) ∧ ∀ more, (st'.sets ++ more).length ≤ 4294967296 → Each (RuleSays e.text e.rate (st'.sets ++ more)) l rs
  | [], st, st', rs, h => by
    cases h
    exact ⟨.refl, fun _ _ => .nil⟩
  | s :: l, st, st', rs, h => by
    unfold rulesAct at h
    obtain ⟨a, h1, h⟩ := Run.bind_ok h
    obtain ⟨b, h2, h⟩ := Run.bind_ok h
    cases h
    obtain ⟨a1, a2⟩ := ruleAct_says (r := a.1) (st' := a.2) h1
    obtain ⟨b1, b2⟩ := rulesAct_says (rs := b.1) (st' := b.2) h2
    refine ⟨a1.trans b1, fun more hm => .cons ?_ (b2 more hm)⟩
    obtain ⟨x, ex⟩ := b1.more
    rw [ex, List.append_assoc] at hm ⊢
    exact a2 _ hm

/-! ## Chains -/

theorem setsAct_says {e : PEnv} : ∀ {l : List SetS} {st st' : PState}, setsAct e st l = some (.ok st') →
    (∀ d ∈ l, d.op = some (Doc.op .in_).toList) ∧
    ∃ new, st'.sets = st.sets ++ new ∧ Each (fun d x => SetSays e.text (some (String.ofList d.name)) d.key d.payload x) l new
  | [], st, st', h => by
    cases h
    exact ⟨(fun _ h => by cases h), [], by simp, .nil⟩
  | s :: l, st, st', h => by
    unfold setsAct at h
    obtain ⟨a, h1, h⟩ := Run.bind_ok h
    unfold setAct at h1
    obtain ⟨o, h2, h1⟩ := Run.bind_ok h1
    split at h1
    · cases h1
    · next ho =>
      have ho : o = .in_ := Classical.not_not.mp ho
      subst ho
      obtain ⟨set, h3, h1⟩ := Run.bind_ok h1
      cases h1
      obtain ⟨a1, new, e1, a2⟩ := setsAct_says h
      refine ⟨?_, set :: new, by rw [e1]; simp, .cons (setNewFromRaw_says (andAbort_ok h3)) a2⟩
      intro d hd
      rcases List.mem_cons.mp hd with rfl | hd
      · exact opOf_in h2
      · exact a1 d hd

theorem hookopts_says {opts : List (List Char)} {o : Option HookOpts} {hook : Hook} (h : hookoptsAct opts = some (.ok o)) (hv : validateAct hook o = some (.ok ())) :
    HookOptsSay hook opts o := by
  cases opts with
  | nil => cases h; exact .inl ⟨rfl, rfl⟩
  | cons x xs =>
    unfold hookoptsAct at h
    obtain ⟨ho, h1, h⟩ := Run.bind_ok h
    cases h
    have h1 := orAbort_ok h1
    have hv := orAbort_ok hv
    obtain ⟨a1, a2⟩ := C34_accepts.mp ⟨ho, h1, hv⟩
    refine .inr ⟨ho, by simp, rfl, ?_, fun t ht => ⟨a2 t ht, validate_iff.mp hv t⟩⟩
    intro raw hr
    obtain ⟨t, v, g1, g2⟩ := a1 raw hr
    exact ⟨t, v, g1, g2, C34_values h1 hr g1⟩

theorem _root_.Bf.Each.mapIdx {α β : Type} {R : α → β → Prop} {as : List α} {bs : List β} (f : Nat → β → β) (hf : ∀ i a b, R a b → R a (f i b)) (h : Each R as bs) :
    Each R as (bs.mapIdx f) := by
  induction h generalizing f with
  | nil => exact .nil
  | cons h _ ih =>
    rw [List.mapIdx_cons]
    exact .cons (hf 0 _ _ h) (ih _ (fun i a b hr => hf (i + 1) a b hr))

theorem chainAct_says {e : PEnv} {st st' : PState} {s : ChainS} {c : Chain × Option HookOpts} (h0 : st.sets = []) (h : chainAct e st s = some (.ok (c, st')))
    (hn : c.1.sets.length ≤ 4294967296) : st'.sets = [] ∧ ChainSays e.text e.rate s c := by
  unfold chainAct at h
  obtain ⟨hook, h1, h⟩ := Run.bind_ok h
  obtain ⟨o, h2, h⟩ := Run.bind_ok h
  obtain ⟨policy, h3, h⟩ := Run.bind_ok h
  obtain ⟨st1, h4, h⟩ := Run.bind_ok h
  obtain ⟨rs, h5, h⟩ := Run.bind_ok h
  split at h
  · cases h
  · next hp =>
    obtain ⟨chain, h6, h⟩ := Run.bind_ok h
    obtain ⟨u, h7, h⟩ := Run.bind_ok h
    cases h
    refine ⟨rfl, ?_⟩
    have h6 := orAbort_ok h6
    unfold chainNew at h6
    split at h6
    · cases h6
    · obtain ⟨c1, c2, c3, c4, _⟩ := checkRules_list h6
      have c5 := checkRules_name h6
      simp only [List.nil_append, List.length_nil, Nat.zero_add] at c1 c2 c3 c4 c5
      obtain ⟨s1, decl, s2, s3⟩ := setsAct_says h4
      obtain ⟨⟨inl, r1, r2⟩, r3⟩ := rulesAct_says (rs := rs.1) (st' := rs.2) h5
      rw [h0, List.nil_append] at s2
      have r4 := r3 [] (by rw [List.append_nil, ← c3]; exact hn)
      rw [List.append_nil, ← c3] at r4
      refine ⟨c5, ?_, ?_, ?_, ?_, ⟨decl, inl, ?_, s3, s1, r2⟩, ?_, ?_⟩
      · rw [c1]; exact ofList_eq ((C38_understood.1 _ _).mp (orAbort_ok h1))
      · exact hookopts_says h2 h7
      · rw [c2]; exact ofList_eq ((C38_understood.2.1 _ _).mp (orAbort_ok h3))
      · rw [c2]
        revert hp
        cases policy <;> simp [Verdict.validPolicy]
      · rw [c3, r1, s2]
      · rw [c4]
        refine Each.mapIdx _ (fun i a b hr => ?_) r4
        exact ⟨hr.matchers, ⟨hr.options.once, hr.options.log, hr.options.noLog, hr.options.counter, hr.options.mark, hr.options.noMark⟩,
          by have := hr.verdict; cases ha : a.verdict <;> rw [ha] at this <;> exact this⟩
      · intro i r hr
        rw [c4, List.getElem?_mapIdx] at hr
        obtain ⟨q, _, rfl⟩ := Option.map_eq_some_iff.mp hr
        rfl

theorem chainsAct_says {e : PEnv} : ∀ {l : List ChainS} {st : PState} {rs : List (Chain × Option HookOpts)}, st.sets = [] →
    chainsAct e st l = some (.ok rs) → (∀ c ∈ rs, c.1.sets.length ≤ 4294967296) → Each (ChainSays e.text e.rate) l rs
  | [], st, rs, _, h, _ => by cases h; exact .nil
  | s :: l, st, rs, h0, h, hn => by
    unfold chainsAct at h
    obtain ⟨a, h1, h⟩ := Run.bind_ok h
    obtain ⟨b, h2, h⟩ := Run.bind_ok h
    cases h
    obtain ⟨a1, a2⟩ := chainAct_says (c := a.1) (st' := a.2) h0 h1 (hn _ List.mem_cons_self)
    exact .cons a2 (chainsAct_says a1 h2 (fun c hc => hn c (List.mem_cons_of_mem _ hc)))

/-- What a text is read as is what it says, up to a byte that ends it. -/
theorem bfcParse_says {e : PEnv} {text : List Char} {rs : List (Chain × Option HookOpts)} (h : bfcParse e text = some (.ok rs))
    (hn : ∀ c ∈ rs, c.1.sets.length ≤ 4294967296) :
    ∃ pre post cs, text = pre ++ post ∧ (∀ c, post.head? = some c → Stops c) ∧ Sentence cs ∧ Spelled pre (cs.flatMap (·.toks)) ∧
      Each (ChainSays e.text e.rate) cs rs := by
  unfold bfcParse at h
  cases hp : parse (lex text) with
  | none => rw [hp] at h; cases h
  | some cs =>
    rw [hp] at h
    obtain ⟨h1, h2⟩ := parse_iff.mp hp
    obtain ⟨pre, post, e1, e2, e3⟩ := lexGo_spelled text.length .initial text (Nat.le_refl _)
    have e2 : Spelled pre (lex text) := e2
    rw [h2] at e2
    exact ⟨pre, post, cs, e1, e3, h1, e2, chainsAct_says rfl h hn⟩

end Bf.Cli
