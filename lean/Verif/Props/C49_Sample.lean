import Verif.Props.C49_Loads
import Verif.Props.C45_Sample
/-!
# C49: a sample

The first chain of the ruleset of `C45_Sample.lean`:

    chain web BF_HOOK_TC_INGRESS{ifindex=2} ACCEPT
      set bad (ip4.saddr, tcp.dport) in {1.2.3.4, 22; 1.2.3.5, 80}
      rule ip4.saddr eq 1.2.3.4 counter DROP
      rule (ip4.saddr,tcp.dport) in bad tcp.flags any syn,ack log link,transport mark 0x10 CONTINUE
-/
namespace Bf
open Spec Cli

theorem keyPair {k : List Char} (h : tokens (fun c => c = '(' || c = ')' || c = ',') k = ["ip4.saddr".toList, "tcp.dport".toList] ∨
    tokens (fun c => c = '(' || c = ')' || c = ',') k = ["ip4.saddr".toList, " tcp.dport".toList]) : KeyOf k [.ip4Saddr, .tcpDport] := by
  refine ⟨by decide, by decide, ?_⟩
  rcases h with h | h <;> rw [h]
  · exact .cons (by decide) (.cons (by decide) .nil)
  · exact .cons (by decide) (.cons (by decide) .nil)

theorem keyA : KeyOf "(ip4.saddr, tcp.dport)".toList [.ip4Saddr, .tcpDport] := keyPair (Or.inr (by decide))
theorem keyB : KeyOf "(ip4.saddr,tcp.dport)".toList [.ip4Saddr, .tcpDport] := keyPair (Or.inl (by decide))

def web : Chain := (rs1[0]?.map (·.1)).getD ⟨"", .xdp, .accept, [], [], false, false, false⟩
def webS : ChainS := cs1[0]'(by decide)
def webO : Option HookOpts := (rs1[0]?.map (·.2)).getD none

theorem web_at : rs1[0]? = some (web, webO) := by decide +kernel
theorem web_hook : web.hook = .tcIngress := by decide +kernel

theorem web_modest : Modest webS web.hook (fun _ => 0) where
  keys := by
    intro k hk key hkey
    have : k = "(ip4.saddr, tcp.dport)".toList := by
      have e : webS.sets.map (·.key) ++ (inlineSets webS.rules).map (·.1) = ["(ip4.saddr, tcp.dport)".toList] := by decide
      rw [e] at hk
      exact List.mem_singleton.mp hk
    subst this
    rw [keyOf_unique hkey keyA]
    decide
  sets := by decide
  matchers := by decide
  redirects := by
    intro r hr i x h
    have e : webS.rules.all (fun r => match r.verdict with | .plain _ => true | .redirect _ _ => false) = true := by decide
    have := List.all_eq_true.mp e r hr
    rw [h] at this
    cases this
  rules := by decide

theorem fits_of {ty : MType} {op : MOp} {s : List Char} (h : s ≠ [] ∧ (∀ c ∈ s, c ∉ [' ', '\t', '\n', '\x0b', '\x0c', '\r', '+', '-'])) (hr : room ty op = none)
    (hn : ty.isNet = false) : Fits ty op s :=
  ⟨ordinary_of h, (fun k hk => by rw [hr] at hk; cases hk), (fun h => by rw [hn] at h; cases h)⟩

/-- All its matchers are in the scope of C49, whatever the packet. -/
theorem web_scope (i : Input) : ∀ sr ∈ webS.rules, ∀ m ∈ sr.matchers, InScope i webS.sets m := by
  have hm : ∀ m, (∃ sr ∈ webS.rules, m ∈ sr.matchers) → m = .plain "ip4.saddr".toList false (some "eq".toList) "1.2.3.4".toList ∨
      m = .named "(ip4.saddr,tcp.dport)".toList false (some "in".toList) "bad".toList ∨
      m = .plain "tcp.flags".toList false (some "any".toList) "syn,ack".toList := by
    rintro m ⟨sr, h1, h2⟩
    simp only [webS, cs1, List.getElem_cons_zero, List.mem_cons, List.not_mem_nil, or_false] at h1
    rcases h1 with rfl | rfl
    · exact Or.inl (List.mem_singleton.mp h2)
    · simp only [List.mem_cons, List.not_mem_nil, or_false] at h2
      exact Or.inr h2
  intro sr hsr m hmm
  rcases hm m ⟨sr, hsr, hmm⟩ with rfl | rfl | rfl
  · intro ty o h1 h2
    cases doc_matcher_inj (a := .ip4Saddr) h1
    exact ⟨fits_of (by decide) rfl rfl, by decide, by intro h; (cases h), by rintro (h | h) <;> cases h⟩
  · intro d hd
    have e : d.payload = "{1.2.3.4, 22; 1.2.3.5, 80}".toList := by
      obtain ⟨j, h1, _⟩ := hd
      match j, h1 with
      | 0, h1 => cases h1; rfl
      | j + 1, h1 => simp [webS, cs1] at h1
    rw [e]
    refine ⟨fun key hkey t ht => ?_, fun h => by cases h⟩
    cases keyOf_unique keyB hkey
    have et : elemTexts "{1.2.3.4, 22; 1.2.3.5, 80}".toList = ["1.2.3.4, 22".toList, "1.2.3.5, 80".toList] := by decide +kernel
    rw [et] at ht
    simp only [List.mem_cons, List.not_mem_nil, or_false] at ht
    rcases ht with rfl | rfl
    · rw [show tokens (· = ',') "1.2.3.4, 22".toList = ["1.2.3.4".toList, " 22".toList] by decide]
      exact .cons (fits_of (by decide) rfl rfl) (.cons (fits_of (by decide) rfl rfl) .nil)
    · rw [show tokens (· = ',') "1.2.3.5, 80".toList = ["1.2.3.5".toList, " 80".toList] by decide]
      exact .cons (fits_of (by decide) rfl rfl) (.cons (fits_of (by decide) rfl rfl) .nil)
  · intro ty o h1 h2
    cases doc_matcher_inj (a := .tcpFlags) h1
    exact ⟨fits_of (by decide) rfl rfl, by decide, by intro h; (cases h), by rintro (h | h) <;> cases h⟩

theorem addr1234 {x : List Byte} (h : x.length = 4) : Addr4 "1.2.3.4".toList (x.map BitVec.toNat) ↔ x = [1, 2, 3, 4] := by
  rw [← pton4_iff, show pton4 "1.2.3.4".toList = some [1, 2, 3, 4] by decide +kernel]
  constructor
  · intro h
    have h : [1, 2, 3, 4] = x.map BitVec.toNat := Option.some.inj h
    exact map_toNat_inj (b := [1, 2, 3, 4]) h.symm
  · rintro rfl; rfl

/-- This text is turned into a program that ends on every packet and blocks, among those it can read, the IPv4 packets from 1.2.3.4, and no other. -/
theorem C49_web : ∃ img, compile web (fun _ => 0) (fun _ => 0) stdFds = .ok img ∧ ∀ base w, ∃ r w', Runs (envOf base web) img w r w' ∧
    (¬ Unreadable (envOf base web) web → (meaning .tc (kernelReads r) = some .block ↔ HasField (inputOf base .tcIngress) .ip4Saddr [1, 2, 3, 4]) ∧
      (meaning .tc (kernelReads r) = some .pass ↔ ¬ HasField (inputOf base .tcIngress) .ip4Saddr [1, 2, 3, 4])) := by
  have hf : web.hook.flavor ≠ .sockAddr := by rw [web_hook]; decide
  obtain ⟨img, hi, h⟩ := C49_program_partial (k := 0) (s := webS) writes1 parse1 rfl web_at web_modest sets1 hf (fun _ => 0)
  refine ⟨img, hi, fun base w => ?_⟩
  obtain ⟨r, w', hr, h⟩ := h base w
  refine ⟨r, w', hr, fun hu => ?_⟩
  obtain ⟨_, h⟩ := h hu (web_scope _)
  rw [web_hook] at h
  have hsel : Applies env1.text (inputOf base .tcIngress) w.mark.toNat webS.sets (webS.rules[0]'(by decide)) ↔ HasField (inputOf base .tcIngress) .ip4Saddr [1, 2, 3, 4] := by
    have hone : Applies env1.text (inputOf base .tcIngress) w.mark.toNat webS.sets (webS.rules[0]'(by decide)) ↔
        Selects env1.text (inputOf base .tcIngress) w.mark.toNat webS.sets (.plain "ip4.saddr".toList false (some "eq".toList) "1.2.3.4".toList) := by
      constructor
      · intro h; exact h _ (List.mem_singleton.mpr rfl)
      · intro h m hm
        cases List.mem_singleton.mp hm
        exact h
    rw [hone]
    constructor
    · rintro ⟨ty, o, h1, h2, h3, h4⟩
      cases doc_matcher_inj (a := .ip4Saddr) h1
      obtain ⟨b, hb, ha⟩ := h4.mpr rfl
      rw [addr1234 (HasField.length hb rfl)] at ha
      rw [← ha]
      exact hb
    · intro hb
      refine ⟨.ip4Saddr, .eq, rfl, Or.inr rfl, ⟨_, hb⟩, fun _ => rfl, fun _ => ⟨_, hb, ?_⟩⟩
      rw [addr1234 rfl]
  by_cases hb : HasField (inputOf base .tcIngress) .ip4Saddr [1, 2, 3, 4]
  · have ho := h _ (.rule (hsel.mpr hb) (by unfold continues; decide))
    have ho : meaning .tc (kernelReads r) = some .block := by
      rcases ho with ⟨e, _⟩ | ⟨_, ho⟩ | ⟨e, _⟩
      · exact absurd e (by decide)
      · exact ho
      · exact absurd e (by decide)
    rw [ho]
    exact ⟨⟨fun _ => hb, fun _ => rfl⟩, ⟨fun h => (by cases h), fun h => absurd hb h⟩⟩
  · have hpol : Rules env1.text (inputOf base .tcIngress) webS.sets webS.policy w.mark.toNat webS.rules (.plain webS.policy) := by
      refine .skip (fun ha => hb (hsel.mp ha)) ?_
      by_cases ha : Applies env1.text (inputOf base .tcIngress) w.mark.toNat webS.sets (webS.rules[1]'(by decide))
      · refine .goOn (mark' := 16) ha rfl ⟨fun s hs => ?_, fun hno => ?_⟩ .policy
        · have : s = "0x10".toList := by
            simpa [webS, cs1] using hs
          rw [this]
          exact ⟨by decide +kernel, by decide⟩
        · exact absurd (hno (.mark "0x10".toList) (by simp)) (by decide)
      · exact .skip ha .policy
    have ho := h _ hpol
    have ho : meaning .tc (kernelReads r) = some .pass := by
      rcases ho with ⟨_, ho⟩ | ⟨e, _⟩ | ⟨e, _⟩
      · exact ho
      · exact absurd e (by decide)
      · exact absurd e (by decide)
    rw [ho]
    exact ⟨⟨fun h => (by cases h), fun h => absurd h hb⟩, ⟨fun _ => hb, fun _ => rfl⟩⟩

end Bf
