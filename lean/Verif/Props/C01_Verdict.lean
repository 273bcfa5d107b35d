import Verif.Props.Sample
import Verif.Spec.TraceLemmas
/-!
# C01, C02, C04, C17: who decides, and what is returned
-/
namespace Bf

variable {E : Env} {chain : Chain} {thr : Nat → BitVec 32} {img : List Insn} {w w' : World} {r : BitVec 64}

/-- A program always ends, having touched no memory it should not. -/
theorem C01_returns (h : IsLoaded E chain thr img) (w : World) : ∃ r w', Runs E img w r w' := by
  obtain ⟨r, w', h1, _⟩ := program_ok h w
  exact ⟨r, w', h1⟩

/-- **C01.**  What a program sees of a packet decides what it returns: the value of the first rule that
fires with a terminal verdict, or that of the policy if there is none.  A packet that can't be read is
the subject of C04. -/
theorem C01_first_match (h : IsLoaded E chain thr img) (hr : Runs E img w r w') {c : Spec.Sem} (hc : Sees E chain thr c) :
      (∃ k rule wk, chain.rules[k]? = some rule ∧ Spec.Reaches c chain.rules w k wk ∧
          Spec.Fires c rule wk ∧ rule.verdict ≠ .continue_ ∧ r = Spec.ruleRet c rule ∧
          ∀ j < k, ∃ q wj, chain.rules[j]? = some q ∧ Spec.Reaches c chain.rules w j wj ∧
            (Spec.Fires c q wj → q.verdict = .continue_)) ∨
        ((∀ j < chain.rules.length, ∃ q wj, chain.rules[j]? = some q ∧ Spec.Reaches c chain.rules w j wj ∧
            (Spec.Fires c q wj → q.verdict = .continue_)) ∧
          r = BitVec.ofInt 64 ((Spec.retCode chain.hook.flavor chain.policy).getD 0)) := by
  obtain ⟨logs, hd⟩ := h.course hr hc
  have e := Spec.decides_iff.mp hd
  generalize { w' with logs := logs } = w1 at hd
  cases hd with
  | rule h1 h2 h3 h4 => exact Or.inl ⟨_, _, _, h2, h1, h3, h4, rfl, fun j hj => h1.before hj⟩
  | policy h1 => exact Or.inr ⟨fun j hj => h1.before hj, by rw [hc.flavor]⟩

/-- Conversely, the first rule that fires with a terminal verdict gives the returned value. -/
theorem C01_rule_decides (h : IsLoaded E chain thr img) (hr : Runs E img w r w') {c : Spec.Sem} (hc : Sees E chain thr c)
    {k : Nat} {rule : Rule} {wk : World} (hk : chain.rules[k]? = some rule) (hreach : Spec.Reaches c chain.rules w k wk)
    (hf : Spec.Fires c rule wk) (hv : rule.verdict ≠ .continue_) : r = Spec.ruleRet c rule := by
  obtain ⟨logs, hd⟩ := h.course hr hc
  have e1 := Spec.decides_iff.mp hd
  have e2 := Spec.decides_iff.mp (Spec.Decides.rule (policy := chain.policy) hreach hk hf hv)
  rw [e1] at e2
  injection e2

/-- The hypotheses of `C01_first_match` are met by the sample: its packet can be read. -/
example : ∃ img c r w', IsLoaded (envOf Sample.base Sample.chain) Sample.chain Sample.thr img ∧
    Sees (envOf Sample.base Sample.chain) Sample.chain Sample.thr c ∧ Runs (envOf Sample.base Sample.chain) img Sample.w0 r w' := by
  obtain ⟨img, h⟩ := Sample.loaded
  rcases unreadable_or_sees (envOf Sample.base Sample.chain) Sample.chain Sample.thr with ⟨_, hu⟩ | ⟨c, hc⟩
  · exact absurd hu (by decide)
  · obtain ⟨r, w', hr⟩ := C01_returns h Sample.w0
    exact ⟨img, c, r, w', h, hc, hr⟩

/-- **C04.**  If the packet can't be read, it is accepted; the error counter, and nothing else, changes. -/
theorem C04_unreadable (h : IsLoaded E chain thr img) (hr : Runs E img w r w') (hu : Unreadable E chain) :
    r = BitVec.ofInt 64 ((Spec.retCode chain.hook.flavor .accept).getD 0) ∧
    w' = { w with counters := fun j => if j = chain.rules.length + 1 then
        ((w.counters j).1 + 1, (w.counters j).2 + (Spec.inputOf E chain.hook).size) else w.counters j } := by
  rcases h.outcome hr with ⟨_, e⟩ | ⟨c, hc, _⟩
  · injection e with e1 e2
    refine ⟨e1, ?_⟩
    rw [e2]
    unfold Spec.count
    congr 1
    funext j
    by_cases hj : j = chain.rules.length + 1 <;> simp [hj]
  · exact absurd hu hc.readable

/-- A network packet whose header, or announced transport header, is not complete. -/
def TruncatedNet (pkt : List Byte) (rec_ : Bool) (net : Option Spec.Net) (off : Nat) : Prop :=
  ∃ n, net = some n ∧ (pkt.length < off + n.hdrLen ∨
    ∃ t, let p := Spec.transportOf pkt rec_ n ((pkt.drop off).take n.hdrLen) off
      Spec.Trans.ofNum p.1 = some t ∧ pkt.length < p.2.1 + t.hdrLen)

theorem parseNet_none (pkt : List Byte) (rec_ : Bool) (net : Option Spec.Net) (off : Nat) :
    Spec.parseNet pkt rec_ net off = none ↔ TruncatedNet pkt rec_ net off := by
  unfold TruncatedNet Spec.parseNet
  cases net with
  | none => simp
  | some n =>
    simp only [Option.some.injEq, exists_eq_left']
    unfold Spec.bytesAt
    by_cases h : off + n.hdrLen ≤ pkt.length
    · rw [if_pos h]
      simp only [Option.bind_some]
      unfold Spec.parseTrans
      cases ht : Spec.Trans.ofNum (Spec.transportOf pkt rec_ n ((pkt.drop off).take n.hdrLen) off).1 with
      | none => simp; omega
      | some t =>
        simp only [Option.some.injEq, exists_eq_left']
        unfold Spec.bytesAt
        split
        · simp; omega
        · simp; omega
    · rw [if_neg h]
      simp; omega

/-- What an unreadable packet is, on hooks that see Ethernet frames: the kernel does not give access to
its bytes, or it has no complete Ethernet header, or it announces IPv4 or IPv6 without a complete
header, or a transport protocol bpfilter knows without a complete header. -/
theorem C04_unreadable_ethernet (hf : chain.hook.flavor = .xdp ∨ chain.hook.flavor = .tc) :
    Unreadable E chain ↔ E.dynptrOk = false ∨ E.pkt.length < 14 ∨
      TruncatedNet E.pkt chain.flagNexthdr (Spec.Net.ofEtherType (Spec.beNat ((E.pkt.drop 12).take 2))) 14 := by
  have hi : (Spec.inputOf E chain.hook).link = .ethernet ∧ (Spec.inputOf E chain.hook).bytes = E.pkt ∧
      (Spec.inputOf E chain.hook).readable = E.dynptrOk := by
    rcases hf with h | h <;> simp [Spec.inputOf, h]
  unfold Unreadable Spec.understand
  rw [hi.1, hi.2.1, hi.2.2]
  have hs : chain.hook.flavor ≠ .sockAddr := by rcases hf with h | h <;> simp [h]
  cases E.dynptrOk with
  | false => simp [hs]
  | true =>
    simp only [if_true, hs, ne_eq, not_false_eq_true, true_and, Bool.true_eq_false, false_or]
    unfold Spec.parse
    dsimp only
    by_cases hl : 14 ≤ E.pkt.length
    · rw [show Spec.bytesAt E.pkt 0 14 = some (E.pkt.take 14) by unfold Spec.bytesAt; rw [if_pos (by omega)]; rfl]
      simp only [Option.bind_some]
      rw [parseNet_none, show (E.pkt.take 14).drop 12 = (E.pkt.drop 12).take 2 by rw [List.drop_take]]
      constructor
      · exact Or.inr
      · rintro (h | h)
        · omega
        · exact h
    · rw [show Spec.bytesAt E.pkt 0 14 = none by unfold Spec.bytesAt; rw [if_neg (by omega)]]
      simp; omega

/-- The same, on hooks that see network packets. -/
theorem C04_unreadable_network (hf : chain.hook.flavor = .nf ∨ chain.hook.flavor = .cgroupSkb) :
    Unreadable E chain ↔ E.dynptrOk = false ∨ TruncatedNet E.pkt chain.flagNexthdr
      (Spec.Net.ofFamily (if chain.hook.flavor = .nf then E.pf.toNat else E.family.toNat)) 0 := by
  have hi : (Spec.inputOf E chain.hook).link = .network (Spec.Net.ofFamily
        (if chain.hook.flavor = .nf then E.pf.toNat else E.family.toNat)) ∧ (Spec.inputOf E chain.hook).bytes = E.pkt ∧
      (Spec.inputOf E chain.hook).readable = E.dynptrOk := by
    rcases hf with h | h <;> simp [Spec.inputOf, h]
  unfold Unreadable Spec.understand
  rw [hi.1, hi.2.1, hi.2.2]
  have hs : chain.hook.flavor ≠ .sockAddr := by rcases hf with h | h <;> simp [h]
  cases E.dynptrOk with
  | false => simp [hs]
  | true =>
    simp only [if_true, hs, ne_eq, not_false_eq_true, true_and, Bool.true_eq_false, false_or]
    unfold Spec.parse
    exact parseNet_none ..

/-- A packet cut inside its TCP header, on the sample's hook. -/
example : Unreadable (envOf { Sample.base with pkt := Sample.base.pkt.take 40 } Sample.chain) Sample.chain := by
  refine ⟨by decide, by decide⟩

/-! ### C17 -/

/-- The kernel's meaning of a returned value: let the packet through, block it, or leave it to the
programs attached after (linux/bpf.h, linux/netfilter.h). -/
inductive Meaning
  | pass | block | later
  deriving DecidableEq

/-- `XDP_PASS` is 2, `XDP_DROP` 1; `TCX_PASS` 0, `TCX_DROP` 2, `TCX_NEXT` -1; `NF_ACCEPT` 1, `NF_DROP` 0;
for cgroups, 1 lets through and 0 blocks. -/
def meaning : Flavor → Int → Option Meaning
  | .xdp, 2 => some .pass
  | .xdp, 1 => some .block
  | .tc, 0 => some .pass
  | .tc, 2 => some .block
  | .tc, -1 => some .later
  | .nf, 1 => some .pass
  | .nf, 0 => some .block
  | .cgroupSkb, 1 => some .pass
  | .cgroupSkb, 0 => some .block
  | .sockAddr, 1 => some .pass
  | .sockAddr, 0 => some .block
  | _, _ => none

/-- The value a hook returns, as the kernel reads it (a 32-bit signed integer). -/
def kernelReads (r : BitVec 64) : Int := (r.setWidth 32).toInt

/-- **C17.**  ACCEPT, DROP and NEXT always have a return value with the right meaning. -/
theorem C17_codes (f : Flavor) :
    (∃ a, Spec.retCode f .accept = some a ∧ meaning f (kernelReads (BitVec.ofInt 64 a)) = some .pass) ∧
    (∃ d, Spec.retCode f .drop = some d ∧ meaning f (kernelReads (BitVec.ofInt 64 d)) = some .block) ∧
    (∃ n, Spec.retCode f .next = some n ∧ meaning f (kernelReads (BitVec.ofInt 64 n)) =
      some (if f = .tc then .later else .pass)) := by
  cases f <;> refine ⟨⟨_, rfl, ?_⟩, ⟨_, rfl, ?_⟩, ⟨_, rfl, ?_⟩⟩ <;> decide

/-- The program's own table (cgen/{xdp,tc,nf,cgroup_skb,cgroup_sock_addr}.c `get_verdict`) is the
specification's: a chain that always drops makes the program block everything it can read. -/
theorem C17_policy (h : IsLoaded E chain thr img) (hr : Runs E img w r w') (hread : ¬ Unreadable E chain)
    (hnone : ∀ rule ∈ chain.rules, rule.verdict = .continue_) :
    meaning chain.hook.flavor (kernelReads r) = some (match chain.policy with
      | .drop => .block
      | .next => if chain.hook.flavor = .tc then .later else .pass
      | _ => .pass) := by
  obtain ⟨c, hc⟩ := (unreadable_or_sees E chain thr).resolve_left hread
  obtain ⟨k, rule, wk, h1, _, _, h4, _⟩ | ⟨_, e⟩ := C01_first_match h hr hc
  · exact absurd (hnone rule (List.mem_of_getElem? h1)) h4
  · have hp := h.api.ok.policy
    obtain ⟨⟨a, a1, a2⟩, ⟨d, d1, d2⟩, ⟨n, n1, n2⟩⟩ := C17_codes chain.hook.flavor
    cases hpol : chain.policy with
    | accept => rw [e, hpol, a1]; exact a2
    | drop => rw [e, hpol, d1]; exact d2
    | next => rw [e, hpol, n1]; exact n2
    | continue_ => rw [hpol] at hp; cases hp
    | redirect => rw [hpol] at hp; cases hp

/-- A rule that decides: what its verdict means. -/
theorem C17_rule (h : IsLoaded E chain thr img) (hr : Runs E img w r w') {c : Spec.Sem} {k : Nat} {rule : Rule} {wk : World}
    (hc : Sees E chain thr c) (hk : chain.rules[k]? = some rule)
    (hreach : Spec.Reaches c chain.rules w k wk) (hf : Spec.Fires c rule wk) :
    (rule.verdict = .accept → meaning chain.hook.flavor (kernelReads r) = some .pass) ∧
    (rule.verdict = .drop → meaning chain.hook.flavor (kernelReads r) = some .block) ∧
    (rule.verdict = .next → meaning chain.hook.flavor (kernelReads r) =
      some (if chain.hook.flavor = .tc then .later else .pass)) ∧
    (rule.verdict = .redirect → r = E.redirectRet rule.redirIfindex (if rule.redirDir = .ingress then 1 else 0) ∧
      w'.redirect = some (rule.redirIfindex, if rule.redirDir = .ingress then 1 else 0)) := by
  have key := fun hv => C01_rule_decides h hr hc hk hreach hf hv
  obtain ⟨⟨a, a1, a2⟩, ⟨d, d1, d2⟩, ⟨n, n1, n2⟩⟩ := C17_codes chain.hook.flavor
  refine ⟨?_, ?_, ?_, ?_⟩
  · intro hv
    rw [key (by rw [hv]; simp), Spec.ruleRet, hv]
    simp only [hc.flavor, a1]
    exact a2
  · intro hv
    rw [key (by rw [hv]; simp), Spec.ruleRet, hv]
    simp only [hc.flavor, d1]
    exact d2
  · intro hv
    rw [key (by rw [hv]; simp), Spec.ruleRet, hv]
    simp only [hc.flavor, n1]
    exact n2
  · intro hv
    constructor
    · rw [key (by rw [hv]; simp), Spec.ruleRet, hv, hc.kernel]
      rfl
    · obtain ⟨logs, hd⟩ := h.course hr hc
      have e1 := Spec.decides_iff.mp hd
      have e2 := Spec.decides_iff.mp (Spec.Decides.rule (policy := chain.policy) hreach hk hf (by rw [hv]; simp))
      rw [e1] at e2
      injection e2 with _ e
      have := congrArg World.redirect e
      rw [this, Spec.ruleEnd, hv]

/-- **C17.**  A chain whose policy is CONTINUE or REDIRECT is never accepted. -/
theorem C17_policy_rejected {name : String} {hook : Hook} {policy : Verdict} {sets : List BSet} {rules : List Rule}
    (h : policy = .continue_ ∨ policy = .redirect) : chainNew name hook policy sets rules = .err .EINVAL := by
  rcases h with rfl | rfl <;> rfl

theorem C17_policy_valid (h : ApiChain chain) : chain.policy ≠ .continue_ ∧ chain.policy ≠ .redirect := by
  have hp := h.ok.policy
  constructor <;> (intro e; rw [e] at hp; cases hp)

end Bf
