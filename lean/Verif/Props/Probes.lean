import Verif.Props.C05_Negation
/-!
# Matcher properties: concrete cases, and cases where a property fails
-/
namespace Bf
open Spec

namespace Sample

/-- A chain whose only rule drops what a matcher matches. -/
def one (hook : Hook) (sets : List BSet) (m : Matcher) (nh : Bool := false) : Chain :=
  ⟨"one", hook, .accept, sets, [rule [m] .drop], false, false, nh⟩

theorem one_probe {hook : Hook} {sets : List BSet} {m : Matcher} {nh : Bool} {thr : Nat → BitVec 32} (base : Env)
    (hnew : chainNew "one" hook .accept sets [rule [m] .drop] = .ok (one hook sets m nh)) (hm : MatcherWf m)
    (hs : SetsWf sets) (hg : (buildGroups sets).length < 4294967292)
    (hsock : hook.flavor = .sockAddr → SockAbi base.sock)
    (hc : (match compile (one hook sets m nh) thr slen stdFds with | .ok _ => true | _ => false) = true) :
    ∃ img, Probe (envOf base (one hook sets m nh)) (one hook sets m nh) thr img m := by
  obtain ⟨img, h⟩ := compiles_of hc
  refine ⟨img, ⟨.of_compile (.new hnew) ?_ hs (by simp [one]) hg hsock h, rfl, ⟨_, rfl, rfl, rfl, rfl⟩⟩⟩
  intro r hr q hq
  simp only [one, List.mem_singleton] at hr
  subst hr
  simp only [rule, List.mem_singleton] at hq
  subst hq
  exact hm

theorem noSets : SetsWf [] := ⟨by simp, by decide⟩

/-- `tcp.dport eq 80` -/
def mHttp : Matcher := ⟨.tcpDport, .eq, [0, 80], false⟩
/-- `ip4.saddr eq 10.0.0.0/9` -/
def mNet : Matcher := ⟨.ip4Snet, .eq, [9, 0, 0, 0, 10, 0, 0, 0], false⟩
/-- `tcp.dport range 79-81` -/
def mRange : Matcher := ⟨.tcpDport, .range, [79, 0, 81, 0], false⟩
/-- `tcp.flags not any syn` -/
def mFlags : Matcher := ⟨.tcpFlags, .any, [2], true⟩
/-- `meta.sport not eq 80` -/
def mSport : Matcher := ⟨.metaSport, .eq, [0, 80], true⟩
/-- `meta.iface eq 3` -/
def mIface : Matcher := ⟨.metaIface, .eq, [3, 0, 0, 0], false⟩
/-- `meta.probability` -/
def mProb : Matcher := ⟨.metaProbability, .eq, [0, 0, 0, 0], false⟩
/-- Two sets sharing a map, the second used; and a set of networks. -/
def set2 : BSet := ⟨some "two", [.ip4Saddr, .tcpDport], 6, false, [[10, 0, 0, 1, 0, 80], [1, 2, 3, 4, 0, 80]]⟩
def set3 : BSet := ⟨some "three", [.ip4Saddr, .tcpDport], 6, false, [[10, 0, 0, 1, 0, 81]]⟩
def set4 : BSet := ⟨some "net", [.ip4Snet], 8, true, [[8, 0, 0, 0, 10, 0, 0, 0], [24, 0, 0, 0, 10, 0, 1, 0]]⟩
def mSet1 : Matcher := ⟨.set, .in_, [1, 0, 0, 0], false⟩
def mSet2 : Matcher := ⟨.set, .in_, [2, 0, 0, 0], false⟩

theorem sets3 : SetsWf [set2, set3, set4] := by
  refine ⟨?_, by decide⟩
  intro s hs
  simp only [List.mem_cons, List.not_mem_nil, or_false] at hs
  rcases hs with rfl | rfl | rfl
  · exact ⟨⟨_, rfl, rfl, rfl⟩, by decide, by decide, by decide⟩
  · exact ⟨⟨_, rfl, rfl, rfl⟩, by decide, by decide, by decide⟩
  · exact ⟨⟨_, rfl, rfl, rfl⟩, by decide, by decide, by decide⟩

end Sample

open Sample

/-- Non-empty hypotheses: C06, C07, C08, C09, C10, C11, C21, C22 on all four kinds of packet hooks. -/
example (b : Env) : ∃ img, Probe (envOf b (one .xdp [] mHttp)) (one .xdp [] mHttp) thr img mHttp :=
  one_probe b (by decide) (by decide) noSets (by decide) (by intro h; cases h) (by decide +kernel)
example (b : Env) : ∃ img, Probe (envOf b (one .tcIngress [] mNet)) (one .tcIngress [] mNet) thr img mNet :=
  one_probe b (by decide) (by decide) noSets (by decide) (by intro h; cases h) (by decide +kernel)
example (b : Env) : ∃ img, Probe (envOf b (one .nfLocalIn [] mRange)) (one .nfLocalIn [] mRange) thr img mRange :=
  one_probe b (by decide) (by decide) noSets (by decide) (by intro h; cases h) (by decide +kernel)
example (b : Env) : ∃ img, Probe (envOf b (one .cgroupSkbIngress [] mFlags)) (one .cgroupSkbIngress [] mFlags) thr img mFlags :=
  one_probe b (by decide) (by decide) noSets (by decide) (by intro h; cases h) (by decide +kernel)
example (b : Env) : ∃ img, Probe (envOf b (one .xdp [set2, set3, set4] mSet1)) (one .xdp [set2, set3, set4] mSet1) thr img mSet1 :=
  one_probe b (by decide) (by decide) sets3 (by decide) (by intro h; cases h) (by decide +kernel)
example (b : Env) : ∃ img, Probe (envOf b (one .xdp [set2, set3, set4] mSet2)) (one .xdp [set2, set3, set4] mSet2) thr img mSet2 :=
  one_probe b (by decide) (by decide) sets3 (by decide) (by intro h; cases h) (by decide +kernel)

/-- The packet of the samples: a TCP segment to port 80, from 10.0.0.1. -/
example : HasField (inputOf (envOf base (one .xdp [] mHttp)) .xdp) .tcpDport [0, 80] := by
  refine ⟨.trans .tcp, 2, 2, 34, rfl, ⟨Or.inl ⟨14, ?_, by decide, by decide⟩, by decide⟩, by decide⟩
  exact ⟨rfl, by decide⟩

/-- An IPv6 packet with a hop-by-hop header, then TCP: the transport header is found. -/
example : HasHdr (inputOf { base with pkt := cut6.pkt ++ List.replicate 20 0 } .xdp) (.trans .tcp) 62 := by
  refine ⟨Or.inr ⟨14, ⟨rfl, by decide⟩, Or.inr ⟨by decide, ?_⟩⟩, by decide⟩
  refine .ext (len := 8) (by decide) (by decide) ?_
  have : byteAt (inputOf { base with pkt := cut6.pkt ++ List.replicate 20 0 } .xdp).bytes (14 + 40) = BitVec.ofNat 8 Trans.tcp.num := by
    decide
  rw [this]
  exact .here

/-- A TCP packet with source port 0. -/
def port0 : Env := { Sample.base with
  pkt := List.replicate 12 0 ++ [8, 0] ++ [0x45, 0, 0, 40, 0, 0, 0, 0, 64, 6, 0, 0, 10, 0, 0, 1, 10, 0, 0, 2] ++
    [0, 0, 0, 80] ++ List.replicate 16 0 }

/-- **C05 fails** for `meta.sport` and port 0: the packet has a TCP header and a source port, which is not
80, and is matched neither by `meta.sport eq 80` nor by its negation. -/
theorem C05_fails_port0 : ∃ img img' r r' w' u',
    Probe (envOf port0 (one .xdp [] mSport)) (one .xdp [] mSport) thr img mSport ∧
    Probe (envOf port0 (one .xdp [] mSport.not)) (one .xdp [] mSport.not) thr img' mSport.not ∧
    HasPort (inputOf port0 .xdp) .metaSport [0, 0] ∧
    Runs (envOf port0 (one .xdp [] mSport)) img w0 r w' ∧ ¬ Blocked (one .xdp [] mSport) r ∧
    Runs (envOf port0 (one .xdp [] mSport.not)) img' w0 r' u' ∧ ¬ Blocked (one .xdp [] mSport.not) r' := by
  obtain ⟨img, p⟩ := one_probe (hook := .xdp) (sets := []) (m := mSport) (nh := false) (thr := thr) port0 (by decide) (by decide)
    noSets (by decide) (by intro h; cases h) (by decide +kernel)
  obtain ⟨img', p'⟩ := one_probe (hook := .xdp) (sets := []) (m := mSport.not) (nh := false) (thr := thr) port0 (by decide) (by decide)
    noSets (by decide) (by intro h; cases h) (by decide +kernel)
  obtain ⟨r, w', hr⟩ := C01_returns p.loaded w0
  obtain ⟨r', u', hr'⟩ := C01_returns p'.loaded w0
  have hport : ∀ ch : Chain, HasPort (inputOf (envOf port0 ch) .xdp) .metaSport [0, 0] := by
    intro ch
    refine Or.inl ⟨rfl, Or.inl ⟨.trans .tcp, 0, 2, 34, rfl, ⟨Or.inl ⟨14, ?_, ?_, ?_⟩, ?_⟩, ?_⟩⟩
    · exact ⟨rfl, by show slice port0.pkt 12 2 = Net.ip4.wire; decide⟩
    · show (byteAt port0.pkt (14 + 9)).toNat = Trans.tcp.num; decide
    · show 34 = 14 + 4 * ((byteAt port0.pkt 14).toNat % 16); decide
    · show 34 + 20 ≤ port0.pkt.length; decide
    · show slice port0.pkt 34 2 = _; decide
  have no : ∀ (i : Input) (b : List Byte), HasPort i .metaSport [0, 0] → HasPort i .metaSport b → beNat b ≠ 0 → False := by
    intro i b h1 h2 h3
    have key : b = [0, 0] := by
      rcases h1 with ⟨_, h1⟩ | ⟨h1, _⟩
      · rcases h2 with ⟨_, h2⟩ | ⟨h2, _⟩
        · rcases h1 with h1 | h1 <;> rcases h2 with h2 | h2
          · exact HasField.unique h2 h1
          · obtain ⟨_, _, _, _, a, b, _⟩ := h1
            obtain ⟨_, _, _, _, a', b', _⟩ := h2
            cases a; cases a'
            have := (TransAt.unique b.1 b'.1).1
            cases this
          · obtain ⟨_, _, _, _, a, b, _⟩ := h1
            obtain ⟨_, _, _, _, a', b', _⟩ := h2
            cases a; cases a'
            have := (TransAt.unique b.1 b'.1).1
            cases this
          · exact HasField.unique h2 h1
        · cases h2
      · cases h1
    rw [key] at h3
    exact h3 rfl
  refine ⟨img, img', r, r', w', u', p, p', hport (one .xdp [] mSport), hr, ?_, hr', ?_⟩
  · rw [C08_meta_blocks p (by decide) hr (Or.inl rfl)]
    rintro ⟨_, b, h1, h2, _⟩
    exact no _ b (hport _) h1 h2
  · rw [C08_meta_blocks p' (by decide) hr' (Or.inl rfl)]
    rintro ⟨_, b, h1, h2, _⟩
    exact no _ b (hport _) h1 h2

/-- **C22 fails** for interfaces whose index is 65536 or more: a packet going through interface 65539 is
dropped by a chain that drops packets of interface 3. -/
theorem C22_fails : ∃ img r w', Probe (envOf { Sample.base with ifindex := 65539 } (one .xdp [] mIface)) (one .xdp [] mIface) thr img mIface ∧
    (inputOf { Sample.base with ifindex := 65539 } .xdp).ifindex ≠ host mIface.payload 0 4 ∧ mIface.negate = false ∧
    Runs (envOf { Sample.base with ifindex := 65539 } (one .xdp [] mIface)) img w0 r w' ∧ Blocked (one .xdp [] mIface) r := by
  obtain ⟨img, p⟩ := one_probe (hook := .xdp) (sets := []) (m := mIface) (nh := false) (thr := thr)
    { Sample.base with ifindex := 65539 } (by decide) (by decide) noSets (by decide) (by intro h; cases h) (by decide +kernel)
  obtain ⟨r, w', hr⟩ := C01_returns p.loaded w0
  refine ⟨img, r, w', p, by decide, rfl, hr, ?_⟩
  rw [p.blocked_iff hr fun c hc => hits_iface hc (by decide) rfl]
  exact ⟨fun h => absurd h.2 (by decide), by decide⟩

/-- **C21 fails** from 50% on: with threshold 2^31 (50%), a packet for which the random number is above the
threshold is nevertheless dropped. -/
theorem C21_fails : ∃ img r w', Probe (envOf { Sample.base with rng := fun _ => 0xffffffff } (one .xdp [] mProb)) (one .xdp [] mProb)
      (fun _ => 0x80000000) img mProb ∧
    Runs (envOf { Sample.base with rng := fun _ => 0xffffffff } (one .xdp [] mProb)) img w0 r w' ∧
    Blocked (one .xdp [] mProb) r := by
  obtain ⟨img, p⟩ := one_probe (hook := .xdp) (sets := []) (m := mProb) (nh := false) (thr := fun _ => 0x80000000)
    { Sample.base with rng := fun _ => 0xffffffff } (by decide) (by decide) noSets (by decide) (by intro h; cases h) (by decide +kernel)
  obtain ⟨r, w', hr⟩ := C01_returns p.loaded w0
  refine ⟨img, r, w', p, hr, ?_⟩
  rw [p.blocked_iff hr fun c hc => C21_fails_high hc rfl (by decide)]
  exact ⟨fun h => absurd h.2 (by decide), rfl⟩

end Bf
