import Verif.Props.C45_Text
/-!
# C45: samples
-/
namespace Bf.Cli
open Bf.Spec

/-! ## A check that a text is made of words -/

def blankB (c : Char) : Bool := c = ' ' || c = '\t' || c = '\n'
def sepB (c : Char) : Bool := blankB c || c = '#' || c = '(' || c = ')' || c = '{' || c = '}' || c = ','

def apartB (w s : List Char) : Bool :=
  match s with
  | [] => true
  | c :: _ => sepB c || (match w.getLast? with | some d => sepB d | none => false)

def laidB : List (List Char) → List Char → Bool
  | [], s => s.all blankB
  | w :: ws, s => w.isPrefixOf (s.dropWhile blankB) && apartB w ((s.dropWhile blankB).drop w.length) && laidB ws ((s.dropWhile blankB).drop w.length)

theorem blankB_iff {c : Char} (h : blankB c = true) : Blank c := by
  simpa [blankB, Blank, or_assoc] using h

theorem sepB_iff {c : Char} (h : sepB c = true) : Separates c := by
  simpa [sepB, blankB, Separates, Blank, or_assoc] using h

theorem gap_blank : ∀ {s : List Char}, (∀ c ∈ s, blankB c = true) → Gap s
  | [], _ => .nil
  | c :: s, h => .blank (blankB_iff (h c List.mem_cons_self)) (gap_blank fun d hd => h d (List.mem_cons_of_mem _ hd))

theorem laidB_laid : ∀ {ws : List (List Char)} {s : List Char}, laidB ws s = true → Laid ws s
  | [], s, h => .nil (gap_blank (List.all_eq_true.mp h))
  | w :: ws, s, h => by
    unfold laidB at h
    simp only [Bool.and_eq_true] at h
    obtain ⟨⟨h1, h2⟩, h3⟩ := h
    obtain ⟨t, ht⟩ := List.isPrefixOf_iff_prefix.mp h1
    rw [← ht, List.drop_left] at h2 h3
    rw [← List.takeWhile_append_dropWhile (p := blankB) (l := s), ← ht]
    refine .cons (gap_blank fun c hc => ?_) ?_ (laidB_laid h3)
    · exact mem_takeWhile_imp hc
    · cases t with
      | nil => exact Or.inl rfl
      | cons c t =>
        unfold apartB at h2
        simp only [Bool.or_eq_true] at h2
        rcases h2 with h2 | h2
        · exact Or.inr ⟨c, sepB_iff h2, Or.inl rfl⟩
        · cases hl : w.getLast? with
          | none => rw [hl] at h2; cases h2
          | some d =>
            rw [hl] at h2
            exact Or.inr ⟨d, sepB_iff h2, Or.inr hl⟩

/-! ## A ruleset -/

def text1 : List Char :=
  "chain web BF_HOOK_TC_INGRESS{ifindex=2} ACCEPT\n  set bad (ip4.saddr, tcp.dport) in {1.2.3.4, 22; 1.2.3.5, 80}\n  rule ip4.saddr eq 1.2.3.4 counter DROP\n  rule (ip4.saddr,tcp.dport) in bad tcp.flags any syn,ack log link,transport mark 0x10 CONTINUE\nchain egress BF_HOOK_TC_EGRESS DROP".toList

def cs1 : List ChainS :=
  [⟨"web".toList, "BF_HOOK_TC_INGRESS".toList, ["ifindex=2".toList], "ACCEPT".toList,
     [⟨"bad".toList, "(ip4.saddr, tcp.dport)".toList, some "in".toList, "{1.2.3.4, 22; 1.2.3.5, 80}".toList⟩],
     [⟨[.plain "ip4.saddr".toList false (some "eq".toList) "1.2.3.4".toList], [.counter], .plain "DROP".toList⟩,
      ⟨[.named "(ip4.saddr,tcp.dport)".toList false (some "in".toList) "bad".toList, .plain "tcp.flags".toList false (some "any".toList) "syn,ack".toList],
        [.log ["link".toList, "transport".toList] none, .mark "0x10".toList], .plain "CONTINUE".toList⟩]⟩,
   ⟨"egress".toList, "BF_HOOK_TC_EGRESS".toList, [], "DROP".toList, [], []⟩]

def env1 : PEnv := ⟨env0, fun _ => none, fun _ _ _ => 0xAA, 400⟩

/-- What the code makes of it. -/
def isOk {α : Type} (p : α → Bool) : Run α → Bool
  | some (.ok a) => p a
  | _ => false


instance (c : Char) : Decidable (Digit c) := inferInstanceAs (Decidable (_ ∧ _))
instance (c : Char) : Decidable (Lower c) := inferInstanceAs (Decidable (_ ∧ _))
instance (c : Char) : Decidable (Upper c) := inferInstanceAs (Decidable (_ ∧ _))
instance (c : Char) : Decidable (Letter c) := inferInstanceAs (Decidable (_ ∨ _))
instance (c : Char) : Decidable (Alnum c) := inferInstanceAs (Decidable (_ ∨ _))
instance (c : Char) : Decidable (WordChar c) := inferInstanceAs (Decidable (_ ∨ _))
instance (c : Char) : Decidable (Blank c) := inferInstanceAs (Decidable (_ ∨ _ ∨ _))
instance (k : Char → Prop) [DecidablePred k] (w : List Char) : Decidable (Made k w) := inferInstanceAs (Decidable (_ ∧ _))
instance (w : List Char) : Decidable (NumberText w) := inferInstanceAs (Decidable (Made _ _))

/-- The reserved words. -/
def reservedB (w : List Char) : Bool :=
  (["chain", "rule", "set", "not", "counter", "log", "mark", "every", "ACCEPT", "DROP", "CONTINUE", "NEXT", "REDIRECT", "in", "out", "eq", "any", "all", "range"].map
    String.toList).contains w || (w.contains '.' && !(w.headD ' ').isDigit) || "BF_HOOK_".toList.isPrefixOf w || w = (Doc.matcher .set).toList

theorem reserved_of {w : List Char} (h : reservedB w = false) : ¬ Reserved w := by
  unfold reservedB at h
  simp only [Bool.or_eq_false_iff] at h
  obtain ⟨⟨⟨h1, h2⟩, h3⟩, h4⟩ := h
  rintro (hr | ⟨v, rfl⟩ | ⟨d, rfl⟩ | ⟨o, rfl⟩ | ⟨t, rfl⟩ | hr)
  · simp only [List.map_cons, List.map_nil, List.mem_cons, List.not_mem_nil, or_false] at hr
    rcases hr with rfl | rfl | rfl | rfl | rfl | rfl | rfl | rfl <;> revert h1 <;> decide
  · cases v <;> revert h1 <;> decide
  · cases d <;> revert h1 <;> decide
  · cases o <;> revert h1 <;> decide
  · cases t
    case set => revert h4; decide
    all_goals revert h2; decide
  · rw [List.isPrefixOf_iff_prefix.mpr hr] at h3
    cases h3

theorem name_of {w : List Char} (h : Made WordChar w) (hr : reservedB w = false) : NameText w := ⟨h, reserved_of hr⟩

theorem quad1 : Quad "1.2.3.4".toList := ⟨"1".toList, "2".toList, "3".toList, "4".toList, by decide, by decide, by decide, by decide, by decide⟩

theorem key1 : KeyText "(ip4.saddr, tcp.dport)".toList :=
  ⟨"ip4.saddr".toList, [" tcp.dport".toList], by decide, ⟨[], "ip4".toList, "saddr".toList, [], by decide, by decide, by decide, by decide, by decide⟩, fun d hd => by
    cases List.mem_singleton.mp hd
    exact ⟨[' '], "tcp".toList, "dport".toList, [], by decide, by decide, by decide, by decide, by decide⟩⟩

theorem key2 : KeyText "(ip4.saddr,tcp.dport)".toList :=
  ⟨"ip4.saddr".toList, ["tcp.dport".toList], by decide, ⟨[], "ip4".toList, "saddr".toList, [], by decide, by decide, by decide, by decide, by decide⟩, fun d hd => by
    cases List.mem_singleton.mp hd
    exact ⟨[], "tcp".toList, "dport".toList, [], by decide, by decide, by decide, by decide, by decide⟩⟩

theorem writes1 : Writes text1 cs1 := by
  refine ⟨by decide, fun c hc => ?_, laidB_laid (by decide +kernel)⟩
  simp only [cs1, List.mem_cons, List.not_mem_nil, or_false] at hc
  rcases hc with rfl | rfl
  · refine ⟨name_of (by decide) (by decide), ⟨.tcIngress, rfl⟩, fun o ho => ?_, ⟨.accept, by decide, rfl⟩, fun s hs => ?_, fun r hr => ?_⟩
    · cases List.mem_singleton.mp ho
      exact ⟨"ifindex".toList, "2".toList, by decide, by decide, by decide⟩
    · cases List.mem_singleton.mp hs
      exact ⟨name_of (by decide) (by decide), key1, rfl, "1.2.3.4, 22; 1.2.3.5, 80".toList, by decide, by decide, by decide⟩
    · simp only [List.mem_cons, List.not_mem_nil, or_false] at hr
      rcases hr with rfl | rfl
      · refine ⟨by simp, fun m hm => ?_, fun o ho => ?_, ⟨.drop, by decide, rfl⟩⟩
        · cases List.mem_singleton.mp hm
          exact ⟨.ip4Saddr, rfl, (fun w hw => by cases hw; exact ⟨.eq, by decide, rfl⟩), quad1, reserved_of (by decide)⟩
        · cases List.mem_singleton.mp ho
          trivial
      · refine ⟨by simp, fun m hm => ?_, fun o ho => ?_, ⟨.continue_, by decide, rfl⟩⟩
        · simp only [List.mem_cons, List.not_mem_nil, or_false] at hm
          rcases hm with rfl | rfl
          · exact ⟨key2, rfl, name_of (by decide) (by decide)⟩
          · exact ⟨.tcpFlags, rfl, (fun w hw => by cases hw; exact ⟨.any, by decide, rfl⟩), .more (w := "syn".toList) (by decide) (.one (by decide)), reserved_of (by decide)⟩
        · simp only [List.mem_cons, List.not_mem_nil, or_false] at ho
          rcases ho with rfl | rfl
          · refine ⟨fun h hh => ?_, (fun w hw => by cases hw)⟩
            simp only [List.mem_cons, List.not_mem_nil, or_false] at hh
            rcases hh with rfl | rfl <;> exact name_of (by decide) (by decide)
          · exact ⟨by decide, reserved_of (by decide)⟩
  · exact ⟨name_of (by decide) (by decide), ⟨.tcEgress, rfl⟩, (fun o ho => by cases ho), ⟨.drop, by decide, rfl⟩, (fun o ho => by cases ho), (fun o ho => by cases ho)⟩

/-- It is accepted. -/
def rs1 : List (Chain × Option HookOpts) := match bfcParse env1 text1 with
  | some (.ok rs) => rs
  | _ => []

theorem parse1 : bfcParse env1 text1 = some (.ok rs1) := by decide +kernel

theorem sets1 : ∀ c ∈ rs1, c.1.sets.length ≤ 4294967296 := by decide +kernel

/-- What it says: the hypotheses of `C45_read` hold. -/
theorem says1 : Each (ChainSays env1.text env1.rate) cs1 rs1 := C45_read writes1 parse1 sets1

theorem blank1 : ∀ c ∈ cs1, ∀ p ∈ setTexts c, ¬ blankFirst p := by
  have h : ∀ c ∈ cs1, ∀ p ∈ setTexts c, ((tokens isElemSep p).head?.map trim) ≠ some [] := by decide +kernel
  rintro c hc p hp ⟨q, h1, h2⟩
  exact h c hc p hp (by rw [h1, Option.map_some, h2])

/-- So do those of `C45_accepts_partial`, on both sides. -/
example : ∀ s ∈ cs1, ∃ c, ChainSays env1.text env1.rate s c ∧ (∀ r ∈ c.1.rules, Evaluable c.1.hook c.1.sets r) ∧ c.1.sets.length ≤ 4294967296 :=
  (C45_accepts_partial (e := env1) writes1 (by decide +kernel) blank1).mp ⟨rs1, parse1, says1, sets1⟩

/-! ## What is wrong -/

/-- A no-break space (bytes C2 A0) before the first rule: the chain is accepted, with no rule. -/
theorem C45_nbsp : isOk (fun rs => rs.map (fun c => (c.1.name, c.1.rules)) = [("a", [])])
    (bfcParse env1 "chain a BF_HOOK_XDP ACCEPT\xc2\xa0rule ip4.saddr eq 1.2.3.4 DROP".toList) = true ∧
    isOk (fun rs => rs.map (fun c => (c.1.name, c.1.rules.length)) = [("a", 1)]) (bfcParse env1 "chain a BF_HOOK_XDP ACCEPT rule ip4.saddr eq 1.2.3.4 DROP".toList) = true := by
  decide +kernel

/-- The same of a text of `C45_ignores`. -/
example : bfcParse env1 (text1 ++ " \xe2\x80\x83 chain last BF_HOOK_XDP DROP".toList) = some (.ok rs1) := by
  rw [← parse1]
  exact C45_ignores (junk := "\xe2\x80\x83 chain last BF_HOOK_XDP DROP".toList) writes1 (c := '\xe2') (by unfold Ascii; decide) (by decide) rfl (laidB_laid (by decide +kernel))

/-- A rule with no matcher is not accepted. -/
theorem C45_no_matcher : bfcParse env1 "chain a BF_HOOK_XDP ACCEPT rule DROP".toList = some (.err .EINVAL) := by decide +kernel

/-- The braces of hook options need not be closed. -/
theorem C45_unclosed : isOk (fun rs => rs.map (fun c => (c.1.name, c.2.map (·.ifindex))) = [("a", some 2)]) (bfcParse env1 "chain a BF_HOOK_XDP{ifindex=2 ACCEPT".toList) = true := by
  decide +kernel

/-- A comment inside the braces of a set is not a comment: a set with one is refused. -/
theorem C45_set_comment : bfcParse env1 "chain a BF_HOOK_XDP ACCEPT set s (ip4.saddr) in {1.2.3.4 # one\n}".toList = some (.err .EINVAL) := by decide +kernel

end Bf.Cli
