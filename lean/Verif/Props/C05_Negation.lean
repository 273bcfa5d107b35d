import Verif.Props.C10_Sets
/-!
# C05: negation;  C21: probabilities;  C22: interface
-/
namespace Bf
open Spec

variable {E : Env} {chain : Chain} {thr : Nat → BitVec 32} {img : List Insn} {w w' : World} {r : BitVec 64}
  {m : Matcher}

/-- The same matcher, negated. -/
def Matcher.not (m : Matcher) : Matcher := { m with negate := !m.negate }

/-- A packet carries what a matcher is about: the headers of its protocol or of the protocols of its set's
key; a TCP or UDP header for `meta.sport`, `meta.dport` and `meta.flow_probability`, with a network header
for the latter. -/
def Carries (i : Input) (sets : List BSet) (m : Matcher) : Prop :=
  (∀ t ∈ typesOf sets m, ∀ p, protoOf t = some p → ∃ off, HasHdr i p off) ∧
  (m.type = .metaSport ∨ m.type = .metaDport → ∃ b, HasPort i m.type b) ∧
  (m.type = .metaFlowProbability → (∃ off, HasHdr i (.trans .tcp) off) ∨ ∃ off, HasHdr i (.trans .udp) off)

/-- A transport header comes with a network header. -/
theorem trans_net {i : Input} {rec_ : Bool} {v : View} (h : understand i rec_ = some v) (hn : v.l4Num ≠ 0) : v.l3Num ≠ 0 := by
  unfold View.l4Num at hn
  cases hl : v.l4 with
  | none => rw [hl] at hn; exact absurd rfl hn
  | some x =>
    obtain ⟨t, hdr⟩ := x
    obtain ⟨off, ⟨h1, _⟩, _⟩ := (found_l4 h t hdr).mp hl
    have : ∃ n o, NetAt i n o := by
      rcases h1 with ⟨o, a, _⟩ | ⟨o, a, _⟩
      · exact ⟨_, o, a⟩
      · exact ⟨_, o, a⟩
    obtain ⟨n, o, hno⟩ := this
    have := (view_l3 h n).2 o hno
    unfold View.l3Num
    rw [this.2]
    cases n <;> simp [Net.etherType]

theorem core_some {i : Input} {rec_ : Bool} {v : View} (h : understand i rec_ = some v) {sets : List BSet}
    (hset : m.type = .set → ∃ s, RefersTo ⟨"", .xdp, .accept, sets, [], false, false, false⟩ m s)
    (hcar : Carries i sets m) (hport : m.type = .metaSport ∨ m.type = .metaDport → ¬ HasPort i m.type [0, 0])
    (mark rnd : BitVec 32) : ∃ b, core i v mark rnd sets thr m = some b := by
  have n6 := l4Num_iff h .tcp
  have n17 := l4Num_iff h .udp
  simp only [Trans.num] at n6 n17
  unfold core
  have hp : ∀ t, t = .metaSport ∨ t = .metaDport → m.type = t →
      (v.l4Num = 6 ∨ v.l4Num = 17) ∧ beNat (fieldOf v t) ≠ 0 := by
    rintro t ht rfl
    obtain ⟨b, hb⟩ := hcar.2.1 ht
    have hb' := hb
    rw [HasPort.field h ht] at hb
    refine ⟨hb.1, fun h0 => hport ht ?_⟩
    have hl : (fieldOf v m.type).length = 2 := by
      rcases hb' with ⟨e, hh⟩ | ⟨e, hh⟩
      · rw [← hb.2]
        rcases hh with ⟨p, o, n, off, g1, g2, rfl⟩ | ⟨p, o, n, off, g1, g2, rfl⟩ <;> cases g1 <;>
          (apply slice_length; have := g2.2; simp only [Proto.hdrLen, Trans.hdrLen] at this; omega)
      · rw [← hb.2]
        rcases hh with ⟨p, o, n, off, g1, g2, rfl⟩ | ⟨p, o, n, off, g1, g2, rfl⟩ <;> cases g1 <;>
          (apply slice_length; have := g2.2; simp only [Proto.hdrLen, Trans.hdrLen] at this; omega)
    rw [HasPort.field h ht]
    refine ⟨hb.1, ?_⟩
    match hx : fieldOf v m.type, hl with
    | [a, b], _ =>
      rw [hx, beNat_two] at h0
      have ha : a = 0 := by rw [← BitVec.toNat_inj]; simp; omega
      have hb0 : b = 0 := by rw [← BitVec.toNat_inj]; simp; omega
      rw [ha, hb0]
  cases ht : m.type <;> simp only <;> try exact ⟨_, rfl⟩
  · rw [if_pos (hp _ (Or.inl rfl) ht)]; split <;> exact ⟨_, rfl⟩
  · rw [if_pos (hp _ (Or.inr rfl) ht)]; split <;> exact ⟨_, rfl⟩
  · split <;> exact ⟨_, rfl⟩
  · have h4 : v.l4Num = 6 ∨ v.l4Num = 17 := (hcar.2.2 ht).imp n6.mpr n17.mpr
    rw [if_pos ⟨trans_net h (by omega), h4⟩]; exact ⟨_, rfl⟩
  · split <;> exact ⟨_, rfl⟩
  · split <;> exact ⟨_, rfl⟩
  · split <;> exact ⟨_, rfl⟩
  · split <;> exact ⟨_, rfl⟩
  · split <;> exact ⟨_, rfl⟩
  · split <;> exact ⟨_, rfl⟩
  · obtain ⟨s, _, hs⟩ := hset ht
    simp only at hs
    rw [hs]
    exact ⟨_, rfl⟩

theorem core_not {i : Input} {v : View} {sets : List BSet} {mark rnd : BitVec 32} :
    core i v mark rnd sets thr m.not = core i v mark rnd sets thr m := rfl

/-- **C05.**  On packets that carry what a matcher is about, its negation matches iff it does not.
Missing: TCP and UDP packets with port 0, which `meta.sport` and `meta.dport` matchers never match, negated
or not (`C05_fails_port0`). -/
theorem C05_negation_partial (h : IsLoaded E chain thr img) {c : Sem} (hc : Sees E chain thr c)
    (hf : chain.hook.flavor ≠ .sockAddr) {rule : Rule} (hr : rule ∈ chain.rules) (hm : m ∈ rule.matchers)
    (hcar : Carries (inputOf E chain.hook) chain.sets m)
    (hport : m.type = .metaSport ∨ m.type = .metaDport → ¬ HasPort (inputOf E chain.hook) m.type [0, 0]) (w : World) :
    Hits c m.not w ↔ ¬ Hits c m w := by
  obtain ⟨v, h1, h2, h3, h4, h5⟩ := hc.view hf
  have hpr : ∀ t ∈ typesOf chain.sets m, protoOk v t = true := by
    intro t ht
    cases hp : protoOf t with
    | none => exact protoOk_none hp
    | some p => exact (protoOk_iff h1 hp).mpr (hcar.1 t ht p hp)
  obtain ⟨b, hb⟩ := core_some (thr := thr) h1 (m := m) (sets := chain.sets) (fun ht => by
    obtain ⟨s, a, _⟩ := (h.api.ok.rule rule hr).set m hm ht
    exact ⟨s, ht, a⟩) hcar hport w.mark ((kernelOf E).rng w.rng)
  unfold Hits
  rw [h2, h3, h4, h5]
  have e : typesOf chain.sets m.not = typesOf chain.sets m := rfl
  rw [e]
  simp only [holds, core_not, hb]
  have hn : m.not.negate = !m.negate := rfl
  rw [hn]
  constructor
  · rintro ⟨_, h⟩ ⟨_, h'⟩
    revert h h'; cases b <;> cases m.negate <;> simp
  · intro h
    refine ⟨hpr, ?_⟩
    cases hx : (b != !m.negate) with
    | true => rfl
    | false =>
      exfalso; apply h; refine ⟨hpr, ?_⟩
      revert hx; cases b <;> cases m.negate <;> simp

/-- **C05**, for socket operations: the matcher's protocol is that of the socket. -/
theorem C05_negation_sock {c : Sem} (hc : Sees E chain thr c)
    (hf : chain.hook.flavor = .sockAddr) (hsup : ∃ b, sockCore (sockView E.sock) (E.rng w.rng) chain.sets thr m = some b)
    (hp : ∀ t ∈ typesOf chain.sets m, c.protoOk t = true) :
    Hits c m.not w ↔ ¬ Hits c m w := by
  obtain ⟨h2, h3, h4, h5⟩ := hc.sockView hf
  obtain ⟨b, hb⟩ := hsup
  have hk : (kernelOf E).rng w.rng = E.rng w.rng := rfl
  unfold Hits
  rw [h3, h4, h5, hk]
  have e : typesOf chain.sets m.not = typesOf chain.sets m := rfl
  have e2 : sockCore (sockView E.sock) (E.rng w.rng) chain.sets thr m.not = some b := hb
  rw [e]
  simp only [sockHolds, e2, hb]
  have hn : m.not.negate = !m.negate := rfl
  rw [hn]
  constructor
  · rintro ⟨_, h⟩ ⟨_, h'⟩
    revert h h'; cases b <;> cases m.negate <;> simp
  · intro h
    refine ⟨hp, ?_⟩
    cases hx : (b != !m.negate) with
    | true => rfl
    | false =>
      exfalso; apply h; refine ⟨hp, ?_⟩
      revert hx; cases b <;> cases m.negate <;> simp

/-- `meta.probability` on any hook. -/
theorem hits_probability {c : Sem} (hc : Sees E chain thr c) (ht : m.type = .metaProbability) :
    Hits c m w ↔ (2 ^ 31 ≤ (thr (host m.payload 0 4)).toNat ∨ (E.rng w.rng).toNat ≤ (thr (host m.payload 0 4)).toNat ↔
      m.negate = false) := by
  have hty : ∀ sets, typesOf sets m = [.metaProbability] := by
    intro sets; unfold typesOf; rw [if_neg (by rw [ht]; simp), ht]
  unfold Hits
  rw [hty]
  by_cases hf : chain.hook.flavor = .sockAddr
  · obtain ⟨h2, h3, h4, h5⟩ := hc.sockView hf
    rw [h2, h4, h5]
    simp only [List.mem_singleton, forall_eq, sockProtoOk, true_and, sockHolds, sockCore, ht]
    exact bne_iff
  · obtain ⟨v, h1, h2, h3, h4, h5⟩ := hc.view hf
    rw [h2, h4, h5]
    simp only [List.mem_singleton, forall_eq, protoOk, true_and, holds, core, ht]
    exact bne_iff

/-- **C21.**  `meta.probability` matches iff the 32-bit random number drawn is at most the threshold, *if*
the threshold is below 2^31 (50%).  The conversion of a percentage to a threshold (floating point) is not
modelled: `thr` stands for it. -/
theorem C21_probability_partial {c : Sem} (hc : Sees E chain thr c) (ht : m.type = .metaProbability)
    (hlow : (thr (host m.payload 0 4)).toNat < 2 ^ 31) :
    Hits c m w ↔ ((E.rng w.rng).toNat ≤ (thr (host m.payload 0 4)).toNat ↔ m.negate = false) := by
  rw [hits_probability hc ht]
  have : ¬ 2 ^ 31 ≤ (thr (host m.payload 0 4)).toNat := by omega
  simp only [this, false_or]

/-- **C21.**  From 50% on, `meta.probability` always matches, and its negation never does. -/
theorem C21_fails_high {c : Sem} (hc : Sees E chain thr c) (ht : m.type = .metaProbability)
    (hhigh : 2 ^ 31 ≤ (thr (host m.payload 0 4)).toNat) : Hits c m w ↔ m.negate = false := by
  rw [hits_probability hc ht]
  simp only [hhigh, true_or, true_iff]

/-- **C21.**  `meta.flow_probability` matches TCP and UDP packets whose flow hash is at most the threshold. -/
theorem C21_flow {c : Sem} (hc : Sees E chain thr c) (hf : chain.hook.flavor ≠ .sockAddr)
    (ht : m.type = .metaFlowProbability) :
    Hits c m w ↔ ∃ v, understand (inputOf E chain.hook) chain.flagNexthdr = some v ∧
      ((∃ off, HasHdr (inputOf E chain.hook) (.trans .tcp) off) ∨ ∃ off, HasHdr (inputOf E chain.hook) (.trans .udp) off) ∧
      ((flowHash v).toNat ≤ (thr (host m.payload 0 4)).toNat ↔ m.negate = false) := by
  obtain ⟨v, h1, h2, h3, h4, h5⟩ := hc.view hf
  have n6 := l4Num_iff h1 .tcp
  have n17 := l4Num_iff h1 .udp
  simp only [Trans.num] at n6 n17
  have hty : typesOf chain.sets m = [.metaFlowProbability] := by
    unfold typesOf; rw [if_neg (by rw [ht]; simp), ht]
  unfold Hits
  rw [h2, h3, h4, h5, hty, ← n6, ← n17]
  simp only [List.mem_singleton, forall_eq, protoOk, true_and, holds, core, ht, h1, Option.some.injEq, exists_eq_left']
  by_cases h4 : v.l4Num = 6 ∨ v.l4Num = 17
  · rw [if_pos ⟨trans_net h1 (by omega), h4⟩]
    simp only [h4, true_and]
    exact bne_iff
  · rw [if_neg fun h => h4 h.2]
    simp [h4]

/-- `meta.iface`: only the low 16 bits of the interface index are compared. -/
theorem hits_iface {c : Sem} (hc : Sees E chain thr c) (hf : chain.hook.flavor ≠ .sockAddr) (ht : m.type = .metaIface) :
    Hits c m w ↔ ((inputOf E chain.hook).ifindex % 65536 = host m.payload 0 4 ↔ m.negate = false) := by
  obtain ⟨v, h1, h2, h3, h4, h5⟩ := hc.view hf
  have hty : typesOf chain.sets m = [.metaIface] := by
    unfold typesOf; rw [if_neg (by rw [ht]; simp), ht]
  unfold Hits
  rw [h2, h3, h4, h5, hty]
  simp only [List.mem_singleton, forall_eq, protoOk, true_and, holds, core, ht]
  exact bne_iff

/-- **C22.**  `meta.iface` compares the interface index, for interfaces whose index is below 65536. -/
theorem C22_iface_partial {c : Sem} (hc : Sees E chain thr c) (hf : chain.hook.flavor ≠ .sockAddr)
    (ht : m.type = .metaIface) (hsmall : (inputOf E chain.hook).ifindex < 65536) :
    Hits c m w ↔ ((inputOf E chain.hook).ifindex = host m.payload 0 4 ↔ m.negate = false) := by
  rw [hits_iface hc hf ht, Nat.mod_eq_of_lt hsmall]

/-- **C22**, end to end. -/
theorem C22_blocks_partial (p : Probe E chain thr img m) (hf : chain.hook.flavor ≠ .sockAddr) (hr : Runs E img w r w')
    (ht : m.type = .metaIface) (hsmall : (inputOf E chain.hook).ifindex < 65536) :
    Blocked chain r ↔ ¬ Unreadable E chain ∧ ((inputOf E chain.hook).ifindex = host m.payload 0 4 ↔ m.negate = false) :=
  p.blocked_iff hr fun _ hc => C22_iface_partial hc hf ht hsmall

/-- **C21**, end to end. -/
theorem C21_blocks_partial (p : Probe E chain thr img m) (hr : Runs E img w r w') (ht : m.type = .metaProbability)
    (hlow : (thr (host m.payload 0 4)).toNat < 2 ^ 31) :
    Blocked chain r ↔ ¬ Unreadable E chain ∧
      ((E.rng w.rng).toNat ≤ (thr (host m.payload 0 4)).toNat ↔ m.negate = false) :=
  p.blocked_iff hr fun _ hc => C21_probability_partial hc ht hlow

/-- **C08**, `meta.sport` and `meta.dport`, end to end. -/
theorem C08_meta_blocks (p : Probe E chain thr img m) (hf : chain.hook.flavor ≠ .sockAddr) (hr : Runs E img w r w')
    (ht : m.type = .metaSport ∨ m.type = .metaDport) :
    Blocked chain r ↔ ¬ Unreadable E chain ∧ ∃ b, HasPort (inputOf E chain.hook) m.type b ∧ beNat b ≠ 0 ∧
      ((m.op = .range ∧ (host m.payload 0 2 ≤ beNat b ∧ beNat b ≤ host m.payload 2 2 ↔ m.negate = false)) ∨
       (m.op = .eq ∧ (b = m.payload ↔ m.negate = false))) :=
  p.blocked_iff hr fun _ hc => C08_meta_ports hc hf p.wf ht

end Bf
