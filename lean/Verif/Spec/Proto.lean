import Verif.Spec.Match
/-!
# Specification: the protocol a matcher is about
-/
namespace Bf.Spec

/-- The network protocol a matcher type is about. -/
def netOf : MType → Option Net
  | .ip4Saddr | .ip4Snet | .ip4Daddr | .ip4Dnet | .ip4Proto | .ip4Dscp => some .ip4
  | .ip6Saddr | .ip6Snet | .ip6Daddr | .ip6Dnet | .ip6Nexthdr | .ip6Dscp => some .ip6
  | _ => none

/-- The transport protocol a matcher type is about. -/
def transOf : MType → Option Trans
  | .tcpSport | .tcpDport | .tcpFlags => some .tcp
  | .udpSport | .udpDport => some .udp
  | .icmpType | .icmpCode => some .icmp
  | .icmpv6Type | .icmpv6Code => some .icmp6
  | _ => none

/-- A rule is about a type: one of its matchers is of that type, or is a set matcher with that type as a
component of its key. -/
def About (sets : List BSet) (r : Rule) (t : MType) : Prop :=
  ∃ m ∈ r.matchers, (m.type ≠ .set ∧ t = m.type) ∨
    (m.type = .set ∧ ∃ s, sets[host m.payload 0 4]? = some s ∧ t ∈ s.key)

/-- A rule requires two different protocols at one layer. -/
def NeedsTwo (sets : List BSet) (r : Rule) : Prop :=
  ∃ t1 t2, About sets r t1 ∧ About sets r t2 ∧
    ((∃ a b, netOf t1 = some a ∧ netOf t2 = some b ∧ a ≠ b) ∨
     (∃ a b, transOf t1 = some a ∧ transOf t2 = some b ∧ a ≠ b))

/-- A rule references an empty set. -/
def RefsEmptySet (sets : List BSet) (r : Rule) : Prop :=
  ∃ m ∈ r.matchers, m.type = .set ∧ ∃ s, sets[host m.payload 0 4]? = some s ∧ s.elems = []

theorem about_iff {sets : List BSet} {r : Rule} {t : MType} :
    About sets r t ↔ ∃ m ∈ r.matchers, t ∈ typesOf sets m := by
  unfold About typesOf
  constructor
  · rintro ⟨m, hm, ⟨h1, rfl⟩ | ⟨h1, s, h2, h3⟩⟩
    · exact ⟨m, hm, by rw [if_neg h1]; simp⟩
    · exact ⟨m, hm, by rw [if_pos h1, h2]; exact h3⟩
  · rintro ⟨m, hm, ht⟩
    refine ⟨m, hm, ?_⟩
    by_cases h : m.type = .set
    · rw [if_pos h] at ht
      cases hs : sets[host m.payload 0 4]? with
      | none => rw [hs] at ht; cases ht
      | some s => rw [hs] at ht; exact Or.inr ⟨h, s, rfl, ht⟩
    · rw [if_neg h] at ht
      simp at ht
      exact Or.inl ⟨h, ht⟩

end Bf.Spec
