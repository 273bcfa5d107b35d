import Verif.Props.Probes
import Verif.Spec.Rfc6
/-!
# C23: IPv6 extension headers
-/
namespace Bf
open Spec

variable {E E' : Env} {chain chain' : Chain} {thr : Nat → BitVec 32} {img img' : List Insn} {w w' u' : World} {r r' : BitVec 64}
  {m : Matcher}

/-- **C23 (partial).**  The transport header fields of an IPv6 packet are read where RFC 8200 says they are, after all
the extension headers, if the chain of extension headers is a usual one.  Missing: other chains, for which the
code does not do so (`C23_fails_routing`, `C23_fails_fragment`, `C23_fails_seven`). -/
theorem C23_field_partial {i : Input} {o uoff : Nat} {hs : List (Byte × Nat)} {up : Byte} (h : NetAt i .ip6 o)
    (e : Exts i.bytes (byteAt i.bytes (o + 6)) (o + 40) hs up uoff) (hu : Usual i.bytes hs)
    {ty : MType} {t : Trans} {fo n : Nat} (hty : fieldSpec ty = some (.trans t, fo, n)) (b : List Byte) :
    HasField i ty b ↔ up.toNat = t.num ∧ uoff + t.hdrLen ≤ i.bytes.length ∧ b = slice i.bytes (uoff + fo) n := by
  unfold HasField
  constructor
  · rintro ⟨p, o', n', off, h1, ⟨h2, h3⟩, rfl⟩
    rw [hty] at h1
    cases h1
    obtain ⟨e1, rfl⟩ := (transAt_rfc h e hu).mp h2
    exact ⟨e1, h3, rfl⟩
  · rintro ⟨h1, h2, rfl⟩
    exact ⟨_, _, _, uoff, hty, ⟨(transAt_rfc h e hu).mpr ⟨h1, rfl⟩, h2⟩, rfl⟩

/-- **C23 (partial)**, end to end: a chain that drops packets with a given port, type or code drops an IPv6
packet iff the header that ends the chain of extension headers is of that protocol and has that value. -/
theorem C23_blocks_partial (p : Probe E chain thr img m) (hf : chain.hook.flavor ≠ .sockAddr) (hr : Runs E img w r w')
    (ht : m.type ∈ plainTypes) (hop : m.op = .eq) {t : Trans} {fo n : Nat}
    (hty : fieldSpec m.type = some (.trans t, fo, n)) {o uoff : Nat} {hs : List (Byte × Nat)} {up : Byte}
    (h : NetAt (inputOf E chain.hook) .ip6 o)
    (e : Exts (inputOf E chain.hook).bytes (byteAt (inputOf E chain.hook).bytes (o + 6)) (o + 40) hs up uoff)
    (hu : Usual (inputOf E chain.hook).bytes hs) :
    Blocked chain r ↔ ¬ Unreadable E chain ∧ up.toNat = t.num ∧ uoff + t.hdrLen ≤ (inputOf E chain.hook).bytes.length ∧
      (slice (inputOf E chain.hook).bytes (uoff + fo) n = m.payload ↔ m.negate = false) := by
  rw [C06_blocks p hf hr ht hop]
  constructor
  · rintro ⟨h1, b, h2, h3⟩
    obtain ⟨e1, e2, rfl⟩ := (C23_field_partial h e hu hty b).mp h2
    exact ⟨h1, e1, e2, h3⟩
  · rintro ⟨h1, h2, h3, h4⟩
    exact ⟨h1, _, (C23_field_partial h e hu hty _).mpr ⟨h2, h3, rfl⟩, h4⟩

/-- **C23 (partial).**  What a chain sees of a packet does not depend on its rules: two chains of a hook with the same
sets, whatever their rules (and whether or not one has an `ip6.nexthdr` rule), that can read a packet agree on
every matcher. -/
theorem C23_consistent {c c' : Sem} (hc : Sees E chain thr c) (hc' : Sees E' chain' thr c')
    (hf : chain.hook.flavor ≠ .sockAddr) (hook : chain'.hook = chain.hook) (hi : inputOf E' chain.hook = inputOf E chain.hook)
    (hrng : E'.rng = E.rng) (hsets : chain'.sets = chain.sets) : Hits c' m w ↔ Hits c m w := by
  obtain ⟨v, h1, h2, h3, h4, h5⟩ := hc.view hf
  obtain ⟨v', k1, k2, k3, k4, k5⟩ := hc'.view (by rw [hook]; exact hf)
  rw [hook, hi] at k1
  have hv : v' = v := by
    cases hn : chain.flagNexthdr <;> cases hn' : chain'.flagNexthdr <;> rw [hn] at h1 <;> rw [hn'] at k1
    · rw [h1] at k1; cases k1; rfl
    · rw [understand_plain k1] at h1; cases h1; rfl
    · rw [understand_plain h1] at k1; cases k1; rfl
    · rw [h1] at k1; cases k1; rfl
  subst hv
  unfold Hits
  rw [h2, h3, h4, h5, k2, k3, k4, k5, hook, hi, hsets]
  unfold kernelOf
  rw [hrng]

/-- **C23 (partial).**  Whether a chain can read a packet does not depend on its rules either, but for a packet that
ends where a transport header is announced after extension headers.  (For such a packet it does:
`C36_fails_nexthdr`.) -/
theorem C23_readable_partial (hook : chain'.hook = chain.hook) (hi : inputOf E' chain.hook = inputOf E chain.hook)
    (hend : ∀ t off, TransAt (inputOf E chain.hook) t off → off + 2 ≤ (inputOf E chain.hook).bytes.length) :
    Unreadable E' chain' ↔ Unreadable E chain := by
  unfold Unreadable
  rw [hook, hi]
  have key : understand (inputOf E chain.hook) true = none ↔ understand (inputOf E chain.hook) false = none := by
    cases hv : understand (inputOf E chain.hook) false with
    | none =>
      simp only [iff_true]
      cases ht : understand (inputOf E chain.hook) true with
      | none => rfl
      | some v => rw [understand_plain ht] at hv; cases hv
    | some v =>
      rcases understand_rec hv with e | ⟨_, _, t, off, e1, e2⟩
      · rw [e]
      · have := hend t off e1; omega
  cases chain.flagNexthdr <;> cases chain'.flagNexthdr <;> simp [key]

/-! ### Concrete cases, and where the property fails -/

namespace Sample

/-- An IPv6 packet of a given first next header and payload, in an Ethernet frame. -/
def pkt6 (nh : Byte) (payload : List Byte) : Env := { base with
  pkt := List.replicate 12 0 ++ [0x86, 0xDD] ++ [0x60, 0, 0, 0, 0, 0, nh, 64] ++ List.replicate 32 0 ++ payload }

/-- A TCP header, to port 80. -/
def tcp80 : List Byte := [0, 9, 0, 80] ++ List.replicate 16 0

/-- hop-by-hop, then routing, then fragment, then TCP -/
def usual6 : Env := pkt6 0 ([43, 0, 0, 0, 0, 0, 0, 0] ++ [44, 1] ++ List.replicate 14 0 ++ [6, 0, 0, 0, 0, 0, 0, 0] ++ tcp80)
/-- routing, then TCP -/
def routing6 : Env := pkt6 43 ([6, 0, 0, 0, 0, 0, 0, 0] ++ tcp80)
/-- hop-by-hop, then a fragment header with a reserved byte, then TCP -/
def fragment6 : Env := pkt6 0 ([44, 0, 0, 0, 0, 0, 0, 0] ++ [6, 8, 0, 0, 0, 0, 0, 0] ++ tcp80 ++ List.replicate 20 0)
/-- seven destination options headers, then TCP -/
def seven6 : Env := pkt6 60 ([60, 0, 0, 0, 0, 0, 0, 0] ++ [60, 0, 0, 0, 0, 0, 0, 0] ++ [60, 0, 0, 0, 0, 0, 0, 0] ++
  [60, 0, 0, 0, 0, 0, 0, 0] ++ [60, 0, 0, 0, 0, 0, 0, 0] ++ [60, 0, 0, 0, 0, 0, 0, 0] ++ [6, 0, 0, 0, 0, 0, 0, 0] ++ tcp80)

theorem http_probe (b : Env) : ∃ img, Probe (envOf b (one .xdp [] mHttp)) (one .xdp [] mHttp) Sample.thr img mHttp :=
  one_probe b (by decide) (by decide) noSets (by decide) (by intro h; cases h) (by decide +kernel)

end Sample
open Sample

/-- The hypotheses of `C23_field_partial` and `C23_blocks_partial` are met. -/
example : NetAt (inputOf usual6 .xdp) .ip6 14 ∧
    Exts (inputOf usual6 .xdp).bytes (byteAt (inputOf usual6 .xdp).bytes 20) 54 [(0, 54), (43, 62), (44, 78)] 6 86 ∧
    Usual (inputOf usual6 .xdp).bytes [(0, 54), (43, 62), (44, 78)] := by
  refine ⟨⟨rfl, by decide⟩, ?_, by decide, by decide, by decide⟩
  refine .ext (len := 8) (by decide) (by decide) ?_
  refine .ext (len := 16) (by decide) (by decide) ?_
  exact .ext (len := 8) (by decide) (by decide) (.done (by decide))

/-- A packet that has a TCP header to port 80, by RFC 8200, is not dropped by a chain that drops these. -/
def MissesHttp (b : Env) : Prop :=
  (∃ hs uoff, NetAt (inputOf b .xdp) .ip6 14 ∧ Exts (inputOf b .xdp).bytes (byteAt (inputOf b .xdp).bytes 20) 54 hs 6 uoff ∧
    uoff + 20 ≤ (inputOf b .xdp).bytes.length ∧ slice (inputOf b .xdp).bytes (uoff + 2) 2 = [0, 80]) ∧
  ∃ img r w', Probe (envOf b (one .xdp [] mHttp)) (one .xdp [] mHttp) Sample.thr img mHttp ∧
    ¬ Unreadable (envOf b (one .xdp [] mHttp)) (one .xdp [] mHttp) ∧
    Runs (envOf b (one .xdp [] mHttp)) img w0 r w' ∧ ¬ Blocked (one .xdp [] mHttp) r

theorem misses_of {b : Env} {v : View} (h1 : understand (inputOf b .xdp) false = some v)
    (h2 : holds (inputOf b .xdp) v 0 0 [] Sample.thr mHttp = false ∨ protoOk v .tcpDport = false) :
    ∃ img r w', Probe (envOf b (one .xdp [] mHttp)) (one .xdp [] mHttp) Sample.thr img mHttp ∧
    ¬ Unreadable (envOf b (one .xdp [] mHttp)) (one .xdp [] mHttp) ∧
    Runs (envOf b (one .xdp [] mHttp)) img w0 r w' ∧ ¬ Blocked (one .xdp [] mHttp) r := by
  obtain ⟨img, p⟩ := http_probe b
  obtain ⟨r, w', hr⟩ := C01_returns p.loaded w0
  have h1' : understand (inputOf (envOf b (one .xdp [] mHttp)) .xdp) false = some v := h1
  refine ⟨img, r, w', p, fun hu => ?_, hr, ?_⟩
  · have := hu.2
    rw [show (one .xdp [] mHttp).hook = .xdp from rfl, show (one .xdp [] mHttp).flagNexthdr = false from rfl, h1'] at this
    cases this
  · rw [p.blocked hr]
    rintro ⟨c, hc, hh1, hh2⟩
    obtain ⟨v', e1, e2, e3, e4, e5⟩ := hc.view (by decide)
    rw [show (one .xdp [] mHttp).hook = .xdp from rfl, show (one .xdp [] mHttp).flagNexthdr = false from rfl, h1'] at e1
    cases e1
    rcases h2 with h2 | h2
    · rw [e5] at hh2
      have h2' : holds (inputOf (envOf b (one .xdp [] mHttp)) .xdp) v w0.mark (c.kernel.rng w0.rng) [] Sample.thr mHttp = false := by
        rw [← h2]; rfl
      have hh2' : holds (inputOf (envOf b (one .xdp [] mHttp)) .xdp) v w0.mark (c.kernel.rng w0.rng) [] Sample.thr mHttp = true := hh2
      rw [h2'] at hh2'
      cases hh2'
    · have := hh1 .tcpDport (by simp [typesOf, mHttp])
      rw [e2, h2] at this
      cases this

/-- **C23 fails** for a packet whose first extension header is a routing header. -/
theorem C23_fails_routing : MissesHttp routing6 := by
  refine ⟨⟨[(43, 54)], 62, ⟨rfl, by decide⟩, ?_, by decide, by decide⟩, ?_⟩
  · exact .ext (len := 8) (by decide) (by decide) (.done (by decide))
  · exact misses_of (v := ⟨some (.ip6, slice routing6.pkt 14 40), none, []⟩) (by decide) (Or.inr (by decide))

/-- **C23 fails** for a packet with a fragment header whose reserved byte is not 0. -/
theorem C23_fails_fragment : MissesHttp fragment6 := by
  refine ⟨⟨[(0, 54), (44, 62)], 70, ⟨rfl, by decide⟩, ?_, by decide, by decide⟩, ?_⟩
  · refine .ext (len := 8) (by decide) (by decide) ?_
    exact .ext (len := 8) (by decide) (by decide) (.done (by decide))
  · exact misses_of (v := ⟨some (.ip6, slice fragment6.pkt 14 40), some (.tcp, slice fragment6.pkt 78 20), [44, 0]⟩) (by decide)
      (Or.inl (by decide))

set_option maxRecDepth 8000 in
/-- **C23 fails** for a packet with seven extension headers. -/
theorem C23_fails_seven : MissesHttp seven6 := by
  refine ⟨⟨[(60, 54), (60, 62), (60, 70), (60, 78), (60, 86), (60, 94), (60, 102)], 110, ⟨rfl, by decide⟩, ?_, by decide, by decide⟩, ?_⟩
  · refine .ext (len := 8) (by decide) (by decide) ?_
    refine .ext (len := 8) (by decide) (by decide) ?_
    refine .ext (len := 8) (by decide) (by decide) ?_
    refine .ext (len := 8) (by decide) (by decide) ?_
    refine .ext (len := 8) (by decide) (by decide) ?_
    refine .ext (len := 8) (by decide) (by decide) ?_
    exact .ext (len := 8) (by decide) (by decide) (.done (by decide))
  · exact misses_of (v := ⟨some (.ip6, slice seven6.pkt 14 40), none, [60, 60, 60, 60, 60, 60]⟩) (by decide) (Or.inr (by decide))

end Bf
