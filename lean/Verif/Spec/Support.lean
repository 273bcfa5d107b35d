import Verif.Spec.Match
/-!
# What each hook can evaluate

Specification: the support tables of doc/usage/bfcli.rst, hook by hook.  Nothing here models code of the
repository, except the enumerations.
-/
namespace Bf.Spec

/-- What can be compared on any packet. -/
def packetTypes : List MType :=
  [.metaIface, .metaL3Proto, .metaL4Proto, .metaProbability, .metaSport, .metaDport,
   .ip4Saddr, .ip4Snet, .ip4Daddr, .ip4Dnet, .ip4Proto, .ip4Dscp,
   .ip6Saddr, .ip6Snet, .ip6Daddr, .ip6Dnet, .ip6Nexthdr, .ip6Dscp,
   .tcpSport, .tcpDport, .tcpFlags, .udpSport, .udpDport,
   .icmpType, .icmpCode, .icmpv6Type, .icmpv6Code, .set]

/-- What can be compared whatever the socket operation. -/
def socketTypes : List MType := [.metaL3Proto, .metaL4Proto, .metaProbability, .metaDport, .udpDport, .set]

/-- The matcher types a hook can evaluate. -/
def offers : Hook → List MType
  | .xdp => packetTypes ++ [.metaFlowProbability]
  | .tcIngress | .tcEgress => packetTypes ++ [.metaMark, .metaFlowHash, .metaFlowProbability]
  | .nfPreRouting | .nfLocalIn | .nfForward | .nfLocalOut | .nfPostRouting => packetTypes ++ [.metaMark]
  | .cgroupSkbIngress | .cgroupSkbEgress => packetTypes ++ [.metaMark, .metaFlowProbability]
  | .connect4 => socketTypes ++ [.ip4Daddr, .ip4Dnet, .ip4Proto, .tcpDport]
  | .connect6 => socketTypes ++ [.ip6Daddr, .ip6Dnet, .tcpDport]
  | .sendmsg4 => socketTypes ++ [.ip4Daddr, .ip4Dnet, .ip4Proto, .ip4Saddr, .ip4Snet]
  | .sendmsg6 => socketTypes ++ [.ip6Daddr, .ip6Dnet, .ip6Saddr, .ip6Snet]

/-- Hooks whose packets can be marked. -/
def marks : Hook → Prop
  | .tcIngress | .tcEgress | .cgroupSkbIngress | .cgroupSkbEgress => True
  | _ => False

/-- Hooks on socket operations. -/
def onSocket : Hook → Prop
  | .connect4 | .connect6 | .sendmsg4 | .sendmsg6 => True
  | _ => False

/-- Hooks that can redirect a packet in a direction. -/
def redirects : Hook → RedirDir → Prop
  | .tcIngress, _ | .tcEgress, _ | .xdp, .egress => True
  | _, _ => False

/-- The set a matcher designates: the number stored in its payload. -/
def setOf (sets : List BSet) (m : Matcher) : Option BSet := sets[host m.payload 0 4]?

/-- A rule the hook can evaluate, given the sets of the chain. -/
structure Evaluable (hook : Hook) (sets : List BSet) (r : Rule) : Prop where
  types : ∀ m ∈ r.matchers, m.type ∈ offers hook
  sets : ∀ m ∈ r.matchers, m.type = .set → ∃ s, setOf sets m = some s ∧ ∀ t ∈ s.key, t ∈ offers hook
  mark : r.markSet = true → marks hook
  /-- socket operations have no headers to choose from: log everything or nothing -/
  log : onSocket hook → r.log = 0 ∨ r.log = 0xFF

end Bf.Spec
