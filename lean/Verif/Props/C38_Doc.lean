import Verif.Spec.Doc
import Verif.Props.C38_Names
/-!
# C38: the names are the documented ones

The round trips of `C38_Names` do not see two names exchanged in a table; these do.
-/
namespace Bf

theorem sparse_eq {l : List (Nat × String)} {f : Nat → Option String}
    (h : ∀ i < 256, ((l.find? fun e => e.1 = i).map (·.2)) = f i) (hf : ∀ i, 256 ≤ i → f i = none) (n : Nat) :
    toTable (sparse l) (List.range 256) n = f n := by
  unfold toTable
  by_cases hn : n < 256
  · have h1 : (List.range 256).idxOf n = n := by
      have hm : (List.range 256)[n]? = some n := by rw [List.getElem?_range hn]
      obtain ⟨h3, h4⟩ := List.getElem?_eq_some_iff.mp hm
      have := List.nodup_range.idxOf_getElem n h3
      rwa [h4] at this
    rw [h1]
    unfold sparse
    rw [List.getElem?_map, List.getElem?_range hn]
    simp only [Option.map_some]
    exact h n hn
  · rw [List.idxOf_eq_length (by simpa using hn)]
    unfold sparse
    rw [List.getElem?_map, List.getElem?_eq_none (by simp)]
    simp only [Option.map_none]
    exact (hf n (by omega)).symm

theorem range_eq {l : List (Option String)} {k : Nat} {f : Nat → Option String} (hl : l.length = k)
    (h : ∀ i < k, l[i]? = some (f i)) (hf : ∀ i, k ≤ i → f i = none) (n : Nat) : toTable l (List.range k) n = f n := by
  unfold toTable
  by_cases hn : n < k
  · have h1 : (List.range k).idxOf n = n := by
      have hm : (List.range k)[n]? = some n := by rw [List.getElem?_range hn]
      obtain ⟨h3, h4⟩ := List.getElem?_eq_some_iff.mp hm
      have := List.nodup_range.idxOf_getElem n h3
      rwa [h4] at this
    rw [h1, h n hn]
  · rw [List.idxOf_eq_length (by simpa using hn), List.getElem?_eq_none (by simp [hl])]
    exact (hf n (by omega)).symm

/-- **C38**: the names shown are the documented ones. -/
theorem C38_shown : (∀ h : Hook, h.toStr = some (Doc.hook h)) ∧ (∀ v : Verdict, v.toStr = some (Doc.verdict v)) ∧
    (∀ d : RedirDir, d.toStr = some (Doc.direction d)) ∧ (∀ t : MType, t.toStr = some (Doc.matcher t)) ∧
    (∀ o : MOp, o.toStr = some (Doc.op o)) ∧ (∀ n, logOptToStr n = Doc.log n) ∧ (∀ n, tcpFlagToStr n = Doc.tcpFlag n) ∧
    (∀ n, ipprotoToStr n = Doc.ipproto n) ∧ (∀ n, icmpTypeToStr n = Doc.icmp n) ∧ (∀ n, icmpv6TypeToStr n = Doc.icmpv6 n) := by
  refine ⟨fun h => by cases h <;> decide, fun h => by cases h <;> decide, fun h => by cases h <;> decide,
    fun h => by cases h <;> decide, fun h => by cases h <;> decide, ?_, ?_, ?_, ?_, ?_⟩
  · exact range_eq rfl (by decide) (fun i hi => by unfold Doc.log; split <;> first | omega | rfl)
  · exact range_eq rfl (by decide) (fun i hi => by unfold Doc.tcpFlag; split <;> first | omega | rfl)
  · exact sparse_eq (by decide +kernel) (fun i hi => by unfold Doc.ipproto; split <;> first | omega | rfl)
  · exact sparse_eq (by decide +kernel) (fun i hi => by unfold Doc.icmp; split <;> first | omega | rfl)
  · exact sparse_eq (by decide +kernel) (fun i hi => by unfold Doc.icmpv6; split <;> first | omega | rfl)

/-- **C38**: the documented names, and they alone, are understood, with the documented meaning: exactly for the hooks,
verdicts, directions, matcher types and operators, whatever the case for the others. -/
theorem C38_understood : (∀ s h, Hook.fromStr s = .ok h ↔ s = Doc.hook h) ∧ (∀ s v, Verdict.fromStr s = .ok v ↔ s = Doc.verdict v) ∧
    (∀ s d, RedirDir.fromStr s = .ok d ↔ s = Doc.direction d) ∧ (∀ s t, MType.fromStr s = .ok t ↔ s = Doc.matcher t) ∧
    (∀ s o, MOp.fromStr s = .ok o ↔ s = Doc.op o) ∧
    (∀ s n, logOptFromStr s = .ok n ↔ ∃ x, Doc.log n = some x ∧ lower s = lower x) ∧
    (∀ s n, tcpFlagFromStr s = .ok n ↔ ∃ x, Doc.tcpFlag n = some x ∧ lower s = lower x) ∧
    (∀ s n, ipprotoFromStr s = .ok n ↔ ∃ x, Doc.ipproto n = some x ∧ lower s = lower x) ∧
    (∀ s n, icmpTypeFromStr s = .ok n ↔ ∃ x, Doc.icmp n = some x ∧ lower s = lower x) ∧
    (∀ s n, icmpv6TypeFromStr s = .ok n ↔ ∃ x, Doc.icmpv6 n = some x ∧ lower s = lower x) := by
  obtain ⟨h1, h2, h3, h4, h5, h6, h7, h8, h9, h10⟩ := C38_shown
  have ex : ∀ {α : Type} {to : α → Option String} {fr : String → Res α} {d : α → String}, Names String.toList to fr →
      (∀ a, to a = some (d a)) → ∀ s a, fr s = .ok a ↔ s = d a := by
    intro α to fr d hn hd s a
    rw [hn.accepts, hd]
    constructor
    · rintro ⟨n, h, he⟩
      cases h
      exact String.toList_injective he
    · rintro rfl
      exact ⟨_, rfl, rfl⟩
  have ci : ∀ {to : Nat → Option String} {fr : String → Res Nat} {d : Nat → Option String}, Names lower to fr →
      (∀ a, to a = d a) → ∀ s a, fr s = .ok a ↔ ∃ x, d a = some x ∧ lower s = lower x := by
    intro to fr d hn hd s a
    rw [hn.accepts, hd]
  exact ⟨ex C38_hook h1, ex C38_verdict h2, ex C38_redirect h3, ex C38_type h4, ex C38_op h5, ci C38_log h6, ci C38_tcp h7,
    ci C38_ipproto h8, ci C38_icmp h9, ci C38_icmpv6 h10⟩

/-- **C38**: the DSCP classes understood are those of the registry, whatever the case. -/
theorem C38_dscpDoc (s : String) (d : Nat) : dscpFromStr s = .ok d ↔ ∃ n, Doc.Dscp n d ∧ lower s = lower n := by
  rw [C38_dscp.1]
  constructor
  · rintro ⟨n, hm, he⟩
    refine ⟨n, ?_, he⟩
    simp only [dscpClasses, List.mem_cons, Prod.mk.injEq, List.not_mem_nil, or_false] at hm
    rcases hm with h | h | h | h | h | h | h | h | h | h | h | h | h | h | h | h | h | h | h | h | h | h | h | h | h <;>
      (rw [h.1, h.2]; constructor)
  · rintro ⟨n, hm, he⟩
    refine ⟨n, ?_, he⟩
    cases hm <;> decide

end Bf
