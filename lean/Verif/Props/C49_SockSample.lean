import Verif.Props.C49_Sock
import Verif.Props.C49_Sample
/-!
# C49 for socket operations: a sample

    chain guard BF_HOOK_CGROUP_SOCK_ADDR_CONNECT4 ACCEPT
      rule ip4.daddr eq 1.2.3.4 tcp.dport not eq 22 DROP
-/
namespace Bf
open Spec Cli

def text4 : List Char := "chain guard BF_HOOK_CGROUP_SOCK_ADDR_CONNECT4 ACCEPT\n  rule ip4.daddr eq 1.2.3.4 tcp.dport not eq 22 DROP".toList

def guardS : ChainS :=
  ⟨"guard".toList, "BF_HOOK_CGROUP_SOCK_ADDR_CONNECT4".toList, [], "ACCEPT".toList, [],
    [⟨[.plain "ip4.daddr".toList false (some "eq".toList) "1.2.3.4".toList, .plain "tcp.dport".toList true (some "eq".toList) "22".toList], [], .plain "DROP".toList⟩]⟩

theorem writes4 : Writes text4 [guardS] := by
  refine ⟨by decide, fun c hc => ?_, laidB_laid (by decide +kernel)⟩
  cases List.mem_singleton.mp hc
  refine ⟨name_of (by decide) (by decide), ⟨.connect4, rfl⟩, (fun o ho => by cases ho), ⟨.accept, by decide, rfl⟩, (fun s hs => by cases hs), fun r hr => ?_⟩
  cases List.mem_singleton.mp hr
  refine ⟨by simp, fun m hm => ?_, (fun o ho => by cases ho), ⟨.drop, by decide, rfl⟩⟩
  simp only [List.mem_cons, List.not_mem_nil, or_false] at hm
  rcases hm with rfl | rfl
  · exact ⟨.ip4Daddr, rfl, (fun w hw => by cases hw; exact ⟨.eq, by decide, rfl⟩), quad1, reserved_of (by decide)⟩
  · exact ⟨.tcpDport, rfl, (fun w hw => by cases hw; exact ⟨.eq, by decide, rfl⟩), .inl (by decide), reserved_of (by decide)⟩

def rs4 : List (Chain × Option HookOpts) := match bfcParse env1 text4 with
  | some (.ok rs) => rs
  | _ => []

theorem parse4 : bfcParse env1 text4 = some (.ok rs4) := by decide +kernel
theorem sets4 : ∀ c ∈ rs4, c.1.sets.length ≤ 4294967296 := by decide +kernel

def guard : Chain := (rs4[0]?.map (·.1)).getD ⟨"", .xdp, .accept, [], [], false, false, false⟩
def guardO : Option HookOpts := (rs4[0]?.map (·.2)).getD none

theorem guard_at : rs4[0]? = some (guard, guardO) := by decide +kernel
theorem guard_hook : guard.hook = .connect4 := by decide +kernel

theorem guard_modest : Modest guardS guard.hook (fun _ => 0) where
  keys := by
    intro k hk
    have e : guardS.sets.map (·.key) ++ (inlineSets guardS.rules).map (·.1) = [] := by decide
    rw [e] at hk
    cases hk
  sets := by decide
  matchers := by decide
  redirects := by
    intro r hr i x h
    cases List.mem_singleton.mp hr
    cases h
  rules := by decide

theorem guard_scope (bs : List Byte) : ∀ sr ∈ guardS.rules, ∀ m ∈ sr.matchers, SockInScope bs guardS.sets m := by
  intro sr hsr m hm
  cases List.mem_singleton.mp hsr
  simp only [List.mem_cons, List.not_mem_nil, or_false] at hm
  rcases hm with rfl | rfl
  · intro ty o h1 h2
    cases doc_matcher_inj (a := .ip4Daddr) h1
    exact ⟨fits_of (by decide) rfl rfl, by decide, by decide⟩
  · intro ty o h1 h2
    cases doc_matcher_inj (a := .tcpDport) h1
    cases opSays_unique (a := .eq) (.inr rfl) h2
    exact ⟨fits_of (by decide) rfl rfl, by decide, by decide⟩

/-- An IPv4 TCP socket, to 1.2.3.4 and to another port than 22. -/
def Guarded (bs : List Byte) : Prop := HasSockField bs .ip4Daddr [1, 2, 3, 4] ∧ ∃ b, HasSockField bs .tcpDport b ∧ Spec.beNat b ≠ 22

theorem num22 {n : Nat} : Numeral 10 "22".toList n ↔ n = 22 := by
  have h : Numeral 10 "22".toList 22 :=
    Numeral.more (w := ['2']) (c := '2') (n := 2) (v := 2) (.one (Or.inl (by decide)) (by decide)) (Or.inl (by decide)) (by decide)
  exact ⟨fun h' => numeral_unique (by decide) h' h, fun e => e ▸ h⟩

/-- This text is turned into a program that ends on every socket operation and blocks those of IPv4 TCP sockets to 1.2.3.4, but for port 22, and no other. -/
theorem C49_guard : ∃ img, compile guard (fun _ => 0) (fun _ => 0) stdFds = .ok img ∧ ∀ base w, SockAbi base.sock → ∃ r w', Runs (envOf base guard) img w r w' ∧
    (meaning .sockAddr (kernelReads r) = some .block ↔ Guarded base.sock) ∧ (meaning .sockAddr (kernelReads r) = some .pass ↔ ¬ Guarded base.sock) := by
  have hf : guard.hook.flavor = .sockAddr := by rw [guard_hook]; decide
  obtain ⟨img, hi, h⟩ := C49_sockets_program_partial (k := 0) (s := guardS) writes4 parse4 rfl guard_at guard_modest sets4 hf (fun _ => 0)
  refine ⟨img, hi, fun base w hb => ?_⟩
  obtain ⟨r, w', hr, h⟩ := h base w hb
  refine ⟨r, w', hr, ?_⟩
  obtain ⟨_, h⟩ := h (guard_scope _)
  rw [hf] at h
  have hsel : (∀ m ∈ (guardS.rules[0]'(by decide)).matchers, SockSelects base.sock guardS.sets m) ↔ Guarded base.sock := by
    constructor
    · intro h
      obtain ⟨ty, o, h1, h2, h3, h4⟩ := h (.plain "ip4.daddr".toList false (some "eq".toList) "1.2.3.4".toList) (by simp [guardS])
      cases doc_matcher_inj (a := .ip4Daddr) h1
      obtain ⟨b, hb1, ha⟩ := h4.mpr rfl
      rw [addr1234 (hb1.length hb.size rfl)] at ha
      subst ha
      refine ⟨hb1, ?_⟩
      obtain ⟨ty, o, h1, h2, h3, h4⟩ := h (.plain "tcp.dport".toList true (some "eq".toList) "22".toList) (by simp [guardS])
      cases doc_matcher_inj (a := .tcpDport) h1
      cases opSays_unique (a := .eq) (.inr rfl) h2
      obtain ⟨b, hb2⟩ := h3
      refine ⟨b, hb2, fun e => ?_⟩
      have : SockDescribes base.sock .tcpDport .eq "22".toList := ⟨b, hb2, by rw [if_neg (by decide)]; exact num22.mpr e⟩
      exact absurd (h4.mp this) (by decide)
    · rintro ⟨h1, b, h2, h3⟩ m hm
      simp only [guardS, List.getElem_cons_zero, List.mem_cons, List.not_mem_nil, or_false] at hm
      rcases hm with rfl | rfl
      · exact ⟨.ip4Daddr, .eq, rfl, Or.inr rfl, ⟨_, h1⟩, fun _ => rfl, fun _ => ⟨_, h1, (addr1234 rfl).mpr rfl⟩⟩
      · refine ⟨.tcpDport, .eq, rfl, Or.inr rfl, ⟨_, h2⟩, fun hd => ?_, fun h => by cases h⟩
        obtain ⟨b', hb', hn⟩ := hd
        rw [if_neg (by decide), num22] at hn
        rw [HasSockField.unique hb' h2] at hn
        exact absurd hn h3
  by_cases hg : Guarded base.sock
  · have ho := h _ (.rule (hsel.mpr hg) (by unfold continues; decide))
    have ho : meaning .sockAddr (kernelReads r) = some .block := by
      rcases ho with ⟨e, _⟩ | ⟨_, ho⟩ | ⟨e, _⟩
      · exact absurd e (by decide)
      · exact ho
      · exact absurd e (by decide)
    rw [ho]
    exact ⟨⟨fun _ => hg, fun _ => rfl⟩, ⟨fun h => (by cases h), fun h => absurd hg h⟩⟩
  · have ho := h _ (.skip (fun ha => hg (hsel.mp ha)) .policy)
    have ho : meaning .sockAddr (kernelReads r) = some .pass := by
      rcases ho with ⟨_, ho⟩ | ⟨e, _⟩ | ⟨e, _⟩
      · exact ho
      · exact absurd e (by decide)
      · exact absurd e (by decide)
    rw [ho]
    exact ⟨⟨fun h => (by cases h), fun h => absurd h hg⟩, ⟨fun _ => hg, fun _ => rfl⟩⟩

/-- There are such operations: to 10.0.0.2, and to 1.2.3.4 port 80. -/
example : SockAbi (Sample.sock 6).sock ∧ ¬ Guarded (Sample.sock 6).sock := by
  refine ⟨Sample.sockAbi 6, fun h => ?_⟩
  obtain ⟨_, _, _, h1, h2⟩ := h.1
  cases h1
  exact absurd h2 (by decide)

def sock4 : List Byte := [2, 0, 0, 0] ++ [1, 2, 3, 4] ++ List.replicate 16 0 ++ [0, 80, 0, 0] ++ [2, 0, 0, 0] ++ [1, 0, 0, 0] ++ [6, 0, 0, 0] ++ List.replicate 32 0

example : SockAbi sock4 ∧ Guarded sock4 := by
  refine ⟨⟨rfl, rfl, by decide⟩, ⟨⟨?_, ?_⟩, 4, 4, rfl, by decide⟩, [0, 80], ⟨⟨?_, ?_⟩, 24, 2, rfl, by decide⟩, by decide⟩
  · intro n hn; cases hn; decide
  · intro n hn; cases hn
  · intro n hn; cases hn
  · intro n hn; cases hn; decide

end Bf
