import Verif.Spec.SockFields
import Verif.Spec.RulesetPacket
/-!
# Specification: what the text of a chain decides for a socket operation (`connect` and `sendmsg` hooks)

Texts are sentences, socket operations are the bytes of the kernel's `struct bpf_sock_addr` (`Spec/SockFields.lean`).  No chain object, no program.
-/
namespace Bf.Spec
open Bf.Cli

/-- The number of the network protocol of the socket, as bpfilter sees it: 0 for the protocols it does not know. -/
inductive SockNetNumber (bs : List Byte) : Nat → Prop
  | known {n : Net} : Net.ofFamily (host bs 28 4) = some n → SockNetNumber bs n.etherType
  | unknown : Net.ofFamily (host bs 28 4) = none → SockNetNumber bs 0

/-- The socket operation has what a matcher of this type is about. -/
def SockConcerns (bs : List Byte) (t : MType) : Prop :=
  match t with
  | .metaL3Proto | .metaL4Proto => True
  | t => ∃ b, HasSockField bs t b

/-- The text describes the socket operation.  The protocol of the socket is the 32-bit number at offset 36. -/
def SockDescribes (bs : List Byte) (t : MType) (op : MOp) (s : List Char) : Prop :=
  match t with
  | .metaL3Proto => ∃ n, NamedBy EtherName 65535 s n ∧ SockNetNumber bs n
  | .metaL4Proto => NamedBy (fun x n => Doc.ipproto n = some x) 255 s (host bs 36 4)
  | .metaDport | .tcpDport | .udpDport =>
    ∃ b, HasSockField bs t b ∧ if op = .range then ∃ x y, RangeText (Numeral 10) 65535 s x y ∧ x ≤ beNat b ∧ beNat b ≤ y else Numeral 10 s (beNat b)
  | .ip4Saddr | .ip4Daddr => ∃ b, HasSockField bs t b ∧ Addr4 s (b.map BitVec.toNat)
  | .ip4Snet | .ip4Dnet => ∃ b net len, HasSockField bs t b ∧ NetText Addr4 32 s (net.map BitVec.toNat) len ∧ SameBits b net len
  | .ip6Saddr | .ip6Daddr => ∃ b ws, HasSockField bs t b ∧ Addr6 s ws ∧ b.map BitVec.toNat = bytesOf ws
  | .ip6Snet | .ip6Dnet => ∃ b net ws len, HasSockField bs t b ∧ NetText Addr6 128 s ws len ∧ net.map BitVec.toNat = bytesOf ws ∧ SameBits b net len
  | .ip4Proto => SockIs bs .ip4Proto ∧ NamedBy (fun x n => Doc.ipproto n = some x) 255 s (host bs 36 4)
  | _ => False

/-- One of the elements of the text of a set describes the socket operation. -/
def SockInElements (bs : List Byte) (key : List MType) (payload : List Char) : Prop :=
  ∃ t ∈ elemTexts payload, Each (fun p ty => SockDescribes bs ty .in_ (trim p)) (tokens (· = ',') t) key

/-- The matcher selects the socket operation: it has what the matcher is about, and the text describes it, or does not if there is a `not`. -/
def SockSelects (bs : List Byte) (sets : List SetS) : MatcherS → Prop
  | .plain t neg op p => ∃ ty o, t = (Doc.matcher ty).toList ∧ OpSays op o ∧ SockConcerns bs ty ∧ (SockDescribes bs ty o p ↔ neg = false)
  | .inline k neg _ p => ∃ key, KeyOf k key ∧ (∀ ty ∈ key, SockConcerns bs ty) ∧ (SockInElements bs key p ↔ neg = false)
  | .named k neg _ n => ∃ key d, KeyOf k key ∧ FirstNamed n sets d ∧ (∀ ty ∈ key, SockConcerns bs ty) ∧ (SockInElements bs key d.payload ↔ neg = false)

/-- The verdict on a socket operation, that of the first rule that applies or of the policy (`RulesBy`); there is no mark. -/
abbrev SockRules (bs : List Byte) (sets : List SetS) : List Char → Nat → List RuleS → VerdictS → Prop := RulesBy fun _ m => SockSelects bs sets m

/-- The texts that are read as they should (C46), and the operations that are matched as they should: a protocol above 255 is confused with another in sets (C40). -/
def SockInScope (bs : List Byte) (sets : List SetS) : MatcherS → Prop
  | .plain t _ op p => ∀ ty o, t = (Doc.matcher ty).toList → OpSays op o → Fits ty o p ∧ ty ≠ .metaProbability ∧ ty ≠ .set
  | .inline k neg _ p => SetFits k neg p ∧ ∀ key, KeyOf k key → .ip4Proto ∈ key → host bs 36 4 < 256
  | .named k neg _ n => ∀ d, FirstNamed n sets d → SetFits k neg d.payload ∧ ∀ key, KeyOf k key → .ip4Proto ∈ key → host bs 36 4 < 256

end Bf.Spec
