import Verif.Spec.Chain
/-!
# Specification: what a chain attached to a hook does to what arrives there
-/
namespace Bf.Spec

/-- Network protocol of an address family (`AF_INET`, `AF_INET6`). -/
def Net.ofFamily (f : Nat) : Option Net :=
  if f = 2 then some .ip4 else if f = 10 then some .ip6 else none

/-- What arrives at a hook, from what the kernel provides there.  The size accounted for a packet is
the length of the frame for XDP (its linear part) and TC, and the length of the network packet plus
that of an Ethernet header for netfilter and cgroups. -/
def inputOf (E : Env) (h : Hook) : Input :=
  match h.flavor with
  | .xdp => ⟨.ethernet, E.pkt, E.dynptrOk, E.linLen.setWidth 64, E.ifindex.toNat, E.hash.toNat⟩
  | .tc => ⟨.ethernet, E.pkt, E.dynptrOk, E.skbLen.setWidth 64, E.ifindex.toNat, E.hash.toNat⟩
  | .nf => ⟨.network (Net.ofFamily E.pf.toNat), E.pkt, E.dynptrOk, E.skbLen.setWidth 64 + 14,
      (if h = .nfPreRouting ∨ h = .nfLocalIn ∨ h = .nfForward then E.inIfindex else E.outIfindex).toNat, E.hash.toNat⟩
  | _ => ⟨.network (Net.ofFamily E.family.toNat), E.pkt, E.dynptrOk, E.skbLen.setWidth 64 + 14,
      E.ifindex.toNat, E.hash.toNat⟩

/-- How a packet is understood; `none` if it can't be read. -/
def understand (i : Input) (rec_ : Bool) : Option View :=
  if i.readable then parse i.link rec_ i.bytes else none

/-- A chain applied to a packet: the value returned to the kernel and the effects. -/
def evalPacket (flavor : Flavor) (i : Input) (rec_ : Bool) (k : Kernel) (sets : List BSet) (thr : Nat → BitVec 32)
    (capture : View → Capture) (policy : Verdict) (rules : List Rule) (w : World) : BitVec 64 × World :=
  match understand i rec_ with
  | none => evalError flavor i.size rules.length w
  | some v => evalView (pktSem flavor i v k sets thr (capture v)) policy rules w

end Bf.Spec
