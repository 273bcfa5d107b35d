import Verif.Props.C15_Loaded
import Verif.Spec.RawLemmas
/-!
# A matcher matching, and how it is observed
-/
namespace Bf
open Spec

variable {E : Env} {chain : Chain} {thr : Nat → BitVec 32} {img : List Insn} {w w' : World} {r : BitVec 64}
  {m : Matcher}

/-- A matcher matches, for a program whose state is `w`: the protocols it is about are there, and it
holds. -/
def Hits (c : Sem) (m : Matcher) (w : World) : Prop :=
  (∀ t ∈ typesOf c.sets m, c.protoOk t = true) ∧ c.holds m w.mark (c.kernel.rng w.rng) = true

/-- A rule matches iff its matchers do; each `meta.probability` matcher uses its own random number. -/
theorem matches_iff {c : Sem} {rule : Rule} : Matches c rule w ↔
    ∀ (i : Nat) (m : Matcher), rule.matchers[i]? = some m → Hits c m (World.drew w (draws (rule.matchers.take i))) := by
  constructor
  · rintro ⟨h1, h2⟩ i m hi
    exact ⟨h1 m (List.mem_of_getElem? hi), h2 i m hi⟩
  · intro h
    refine ⟨fun m hm t ht => ?_, fun i m hi => (h i m hi).2⟩
    obtain ⟨i, hi⟩ := List.getElem?_of_mem hm
    exact (h i m hi).1 t ht

/-- A chain that shows whether a matcher matches: its only rule has that matcher and drops, its policy
accepts. -/
structure Probe (E : Env) (chain : Chain) (thr : Nat → BitVec 32) (img : List Insn) (m : Matcher) : Prop where
  loaded : IsLoaded E chain thr img
  accepts : chain.policy = .accept
  rule : ∃ rule, chain.rules = [rule] ∧ rule.matchers = [m] ∧ rule.disabled = false ∧ rule.verdict = .drop

/-- What reaches the hook is blocked. -/
def Blocked (chain : Chain) (r : BitVec 64) : Prop := meaning chain.hook.flavor (kernelReads r) = some .block

/-- The program of such a chain blocks exactly what the matcher matches. -/
theorem Probe.blocked (p : Probe E chain thr img m) (hr : Runs E img w r w') :
    Blocked chain r ↔ ∃ c, Sees E chain thr c ∧ Hits c m w := by
  obtain ⟨rule, h1, h2, h3, h4⟩ := p.rule
  have hfire : ∀ c, Fires c rule w ↔ Hits c m w := by
    intro c
    unfold Fires
    rw [matches_iff, h2]
    constructor
    · rintro ⟨_, h⟩; exact h 0 m rfl
    · intro h
      refine ⟨h3, fun i q hq => ?_⟩
      cases i with
      | zero => cases hq; exact h
      | succ i => cases hq
  obtain ⟨⟨a, a1, a2⟩, ⟨d, d1, d2⟩, _⟩ := C17_codes chain.hook.flavor
  unfold Blocked
  constructor
  · intro hb
    rcases unreadable_or_sees E chain thr with hu | ⟨c, hc⟩
    · have := (C04_unreadable p.loaded hr hu).1
      rw [this, a1] at hb
      simp only [Option.getD_some] at hb
      rw [a2] at hb; cases hb
    · refine ⟨c, hc, ?_⟩
      rcases C01_first_match p.loaded hr hc with ⟨k, q, wk, e1, e2, e3, _⟩ | ⟨_, e⟩
      · rw [h1] at e1
        cases k with
        | zero =>
          cases e1
          have := e2.unique .first
          subst this
          exact (hfire c).mp e3
        | succ k => cases e1
      · rw [e, p.accepts, a1] at hb
        simp only [Option.getD_some] at hb
        rw [a2] at hb; cases hb
  · rintro ⟨c, hc, hh⟩
    exact (C17_rule p.loaded hr hc (by rw [h1]; rfl) .first ((hfire c).mpr hh)).2.1 h4

/-- What a program sees of a packet. -/
theorem Sees.view {c : Sem} (hc : Sees E chain thr c) (hf : chain.hook.flavor ≠ .sockAddr) :
    ∃ v, understand (inputOf E chain.hook) chain.flagNexthdr = some v ∧ c.protoOk = protoOk v ∧ c.sets = chain.sets ∧
      c.kernel = kernelOf E ∧
      c.holds = fun m mark rnd => holds (inputOf E chain.hook) v mark rnd chain.sets thr m := by
  cases hc with
  | packet _ h2 _ => exact ⟨_, h2, rfl, rfl, rfl, rfl⟩
  | sock h => exact absurd h hf

/-- ... of a socket operation. -/
theorem Sees.sockView {c : Sem} (hc : Sees E chain thr c) (hf : chain.hook.flavor = .sockAddr) :
    c.protoOk = sockProtoOk (sockView E.sock) ∧ c.sets = chain.sets ∧ c.kernel = kernelOf E ∧
      c.holds = fun m _ rnd => sockHolds (Spec.sockView E.sock) rnd chain.sets thr m := by
  cases hc with
  | packet h _ _ => exact absurd hf h
  | sock h => exact ⟨rfl, rfl, rfl, rfl⟩

/-- A chain that sees a packet, and the packet it sees. -/
theorem Probe.blocked_iff (p : Probe E chain thr img m) (hr : Runs E img w r w') {P : Prop}
    (h : ∀ c, Sees E chain thr c → (Hits c m w ↔ P)) : Blocked chain r ↔ ¬ Unreadable E chain ∧ P := by
  rw [p.blocked hr]
  constructor
  · rintro ⟨c, hc, hh⟩
    exact ⟨hc.readable, (h c hc).mp hh⟩
  · rintro ⟨hu, hp⟩
    obtain ⟨c, hc⟩ := (unreadable_or_sees E chain thr).resolve_left hu
    exact ⟨c, hc, (h c hc).mpr hp⟩

/-- A matcher on a header field matches iff the packet has that header and the comparison holds. -/
theorem hits_field {c : Sem} (hc : Sees E chain thr c) (hf : chain.hook.flavor ≠ .sockAddr) (hs : m.type ≠ .set)
    {p : Proto} {o n : Nat} (ht : fieldSpec m.type = some (p, o, n)) {P : List Byte → Prop}
    (hP : ∀ v off, understand (inputOf E chain.hook) chain.flagNexthdr = some v → HasHdr (inputOf E chain.hook) p off →
      fieldOf v m.type = slice (inputOf E chain.hook).bytes (off + o) n →
      ((core (inputOf E chain.hook) v w.mark (E.rng w.rng) chain.sets thr m = some true ↔ P (fieldOf v m.type)) ∧
       ∃ b, core (inputOf E chain.hook) v w.mark (E.rng w.rng) chain.sets thr m = some b)) :
    Hits c m w ↔ ∃ b, HasField (inputOf E chain.hook) m.type b ∧ (P b ↔ m.negate = false) := by
  obtain ⟨v, h1, h2, h3, h4, h5⟩ := hc.view hf
  unfold Hits
  rw [h2, h3, h4, h5]
  unfold typesOf
  rw [if_neg hs]
  simp only [List.mem_singleton, forall_eq]
  rw [protoOk_iff h1 (fieldSpec_proto ht).1]
  have hk : (kernelOf E).rng w.rng = E.rng w.rng := rfl
  rw [hk]
  unfold holds
  constructor
  · rintro ⟨⟨off, ha⟩, hh⟩
    have e := fieldOf_eq h1 ht ha
    obtain ⟨hp, b, hb⟩ := hP v off h1 ha e
    refine ⟨_, ⟨p, o, n, off, ht, ha, rfl⟩, ?_⟩
    rw [← e, ← hp]
    rw [hb] at hh ⊢
    cases b <;> cases hn : m.negate <;> simp [hn] at hh ⊢
  · rintro ⟨b, ⟨p', o', n', off, ht', ha, rfl⟩, hh⟩
    rw [ht] at ht'
    cases ht'
    have e := fieldOf_eq h1 ht ha
    obtain ⟨hp, b, hb⟩ := hP v off h1 ha e
    refine ⟨⟨off, ha⟩, ?_⟩
    rw [← e, ← hp] at hh
    rw [hb] at hh ⊢
    cases b <;> cases hn : m.negate <;> simp [hn] at hh ⊢

end Bf
