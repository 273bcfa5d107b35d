import Verif.Gen.Types
/-!
# The documented names

What `/repo/doc/usage/bfcli.rst` (and, for the numbers behind the names, the IANA registries it refers to) says of the
words of the language. Nothing here uses the tables of the code.
-/
namespace Bf.Doc

/-- bfcli.rst "Chains": `$HOOK`. -/
def hook : Hook → String
  | .xdp => "BF_HOOK_XDP"
  | .tcIngress => "BF_HOOK_TC_INGRESS"
  | .tcEgress => "BF_HOOK_TC_EGRESS"
  | .nfPreRouting => "BF_HOOK_NF_PRE_ROUTING"
  | .nfLocalIn => "BF_HOOK_NF_LOCAL_IN"
  | .nfForward => "BF_HOOK_NF_FORWARD"
  | .nfLocalOut => "BF_HOOK_NF_LOCAL_OUT"
  | .nfPostRouting => "BF_HOOK_NF_POST_ROUTING"
  | .cgroupSkbIngress => "BF_HOOK_CGROUP_SKB_INGRESS"
  | .cgroupSkbEgress => "BF_HOOK_CGROUP_SKB_EGRESS"
  | .connect4 => "BF_HOOK_CGROUP_SOCK_ADDR_CONNECT4"
  | .connect6 => "BF_HOOK_CGROUP_SOCK_ADDR_CONNECT6"
  | .sendmsg4 => "BF_HOOK_CGROUP_SOCK_ADDR_SENDMSG4"
  | .sendmsg6 => "BF_HOOK_CGROUP_SOCK_ADDR_SENDMSG6"

/-- bfcli.rst "Rules": `$VERDICT`. -/
def verdict : Verdict → String
  | .accept => "ACCEPT" | .drop => "DROP" | .continue_ => "CONTINUE" | .redirect => "REDIRECT" | .next => "NEXT"

/-- bfcli.rst "Rules": `REDIRECT $IFACE $DIRECTION`. -/
def direction : RedirDir → String
  | .ingress => "in" | .egress => "out"

/-- bfcli.rst "Matchers": the `Type` column. -/
def matcher : MType → String
  | .metaIface => "meta.iface" | .metaL3Proto => "meta.l3_proto" | .metaL4Proto => "meta.l4_proto"
  | .metaSport => "meta.sport" | .metaDport => "meta.dport" | .metaProbability => "meta.probability"
  | .metaMark => "meta.mark" | .metaFlowHash => "meta.flow_hash" | .metaFlowProbability => "meta.flow_probability"
  | .ip4Saddr => "ip4.saddr" | .ip4Daddr => "ip4.daddr" | .ip4Snet => "ip4.snet" | .ip4Dnet => "ip4.dnet"
  | .ip4Proto => "ip4.proto" | .ip4Dscp => "ip4.dscp"
  | .ip6Saddr => "ip6.saddr" | .ip6Daddr => "ip6.daddr" | .ip6Snet => "ip6.snet" | .ip6Dnet => "ip6.dnet"
  | .ip6Nexthdr => "ip6.nexthdr" | .ip6Dscp => "ip6.dscp"
  | .tcpSport => "tcp.sport" | .tcpDport => "tcp.dport" | .tcpFlags => "tcp.flags"
  | .udpSport => "udp.sport" | .udpDport => "udp.dport"
  | .icmpType => "icmp.type" | .icmpCode => "icmp.code" | .icmpv6Type => "icmpv6.type" | .icmpv6Code => "icmpv6.code"
  | .set => "<set>"

/-- bfcli.rst "Matchers": the `Operator` column. -/
def op : MOp → String
  | .eq => "eq" | .any => "any" | .all => "all" | .in_ => "in" | .range => "range"

/-- The layers of the `log` action, in the order of the ISO model. -/
def log : Nat → Option String
  | 0 => some "link" | 1 => some "internet" | 2 => some "transport" | _ => none

/-- RFC 9293, 3.1: the control bits, from the least significant. -/
def tcpFlag : Nat → Option String
  | 0 => some "fin" | 1 => some "syn" | 2 => some "rst" | 3 => some "psh" | 4 => some "ack" | 5 => some "urg"
  | 6 => some "ece" | 7 => some "cwr" | _ => none

/-- The IANA protocol numbers. -/
def ipproto : Nat → Option String
  | 0 => some "hop" | 1 => some "icmp" | 2 => some "igmp" | 6 => some "tcp" | 17 => some "udp" | 43 => some "routing"
  | 44 => some "frag" | 47 => some "gre" | 51 => some "ah" | 58 => some "icmpv6" | 60 => some "dst" | 135 => some "mh"
  | _ => none

/-- bfcli.rst "ICMP": the recognized names; the numbers are those of the IANA registry. -/
def icmp : Nat → Option String
  | 0 => some "echo-reply" | 3 => some "destination-unreachable" | 4 => some "source-quench" | 5 => some "redirect"
  | 8 => some "echo-request" | 9 => some "router-advertisement" | 10 => some "router-solicitation"
  | 11 => some "time-exceeded" | 12 => some "parameter-problem" | 13 => some "timestamp-request"
  | 14 => some "timestamp-reply" | 15 => some "info-request" | 16 => some "info-reply"
  | 17 => some "address-mask-request" | 18 => some "address-mask-reply" | _ => none

/-- bfcli.rst "ICMPv6": the recognized names; the numbers are those of the IANA registry. -/
def icmpv6 : Nat → Option String
  | 1 => some "destination-unreachable" | 2 => some "packet-too-big" | 3 => some "time-exceeded"
  | 4 => some "parameter-problem" | 128 => some "echo-request" | 129 => some "echo-reply"
  | 130 => some "mld-listener-query" | 131 => some "mld-listener-report" | 132 => some "mld-listener-reduction"
  | 133 => some "nd-router-solicit" | 134 => some "nd-router-advert" | 135 => some "nd-neighbor-solicit"
  | 136 => some "nd-neighbor-advert" | 143 => some "mld2-listener-report" | _ => none

/-- The IANA DSCP registry: class selectors are `8 x`, assured forwarding `xy` is `8 x + 2 y`, and the named code
points. "be" is documented as another name of "cs0". -/
inductive Dscp : String → Nat → Prop
  | cs0 : Dscp "cs0" 0 | cs1 : Dscp "cs1" 8 | cs2 : Dscp "cs2" 16 | cs3 : Dscp "cs3" 24
  | cs4 : Dscp "cs4" 32 | cs5 : Dscp "cs5" 40 | cs6 : Dscp "cs6" 48 | cs7 : Dscp "cs7" 56
  | af11 : Dscp "af11" (8 * 1 + 2 * 1) | af12 : Dscp "af12" (8 * 1 + 2 * 2) | af13 : Dscp "af13" (8 * 1 + 2 * 3)
  | af21 : Dscp "af21" (8 * 2 + 2 * 1) | af22 : Dscp "af22" (8 * 2 + 2 * 2) | af23 : Dscp "af23" (8 * 2 + 2 * 3)
  | af31 : Dscp "af31" (8 * 3 + 2 * 1) | af32 : Dscp "af32" (8 * 3 + 2 * 2) | af33 : Dscp "af33" (8 * 3 + 2 * 3)
  | af41 : Dscp "af41" (8 * 4 + 2 * 1) | af42 : Dscp "af42" (8 * 4 + 2 * 2) | af43 : Dscp "af43" (8 * 4 + 2 * 3)
  | ef : Dscp "ef" 46 | voiceAdmit : Dscp "voice-admit" 44 | le : Dscp "le" 1 | nqb : Dscp "nqb" 45
  | be : Dscp "be" 0

end Bf.Doc
