import Verif.Props.Hits
/-!
# C06, C07, C08, C09: matchers on header fields

Each property is stated twice: for any rule of any chain (`Hits`, which `matches_iff` and C01 relate to
what the program does), and end to end for a chain whose only rule drops what the matcher matches.
-/
namespace Bf
open Spec

variable {E : Env} {chain : Chain} {thr : Nat → BitVec 32} {img : List Insn} {w w' : World} {r : BitVec 64}
  {m : Matcher}

theorem bne_iff {P : Prop} [Decidable P] {n : Bool} : (decide P != n) = true ↔ (P ↔ n = false) := by
  by_cases h : P <;> cases n <;> simp [h]

/-- The types compared byte for byte. -/
def plainTypes : List MType :=
  [.ip4Saddr, .ip4Daddr, .ip4Proto, .ip6Saddr, .ip6Daddr, .tcpSport, .tcpDport, .udpSport, .udpDport,
    .icmpType, .icmpCode, .icmpv6Type, .icmpv6Code]

/-- **C06.**  Equality matchers compare the header field, byte for byte. -/
theorem C06_eq {c : Sem} (hc : Sees E chain thr c) (hf : chain.hook.flavor ≠ .sockAddr) (hm : MatcherWf m)
    (ht : m.type ∈ plainTypes) (hop : m.op = .eq) :
    Hits c m w ↔ ∃ b, HasField (inputOf E chain.hook) m.type b ∧ (b = m.payload ↔ m.negate = false) := by
  have hs : m.type ≠ .set := by intro e; rw [e] at ht; revert ht; decide
  have hlen : m.payload.length = m.type.refSize .eq := by
    unfold MatcherWf at hm
    rw [if_neg hs, hop] at hm
    exact hm.2.2
  have hfs : ∃ p o, fieldSpec m.type = some (p, o, m.payload.length) := by
    rw [hlen]
    simp only [plainTypes, List.mem_cons, List.not_mem_nil, or_false] at ht
    rcases ht with e | e | e | e | e | e | e | e | e | e | e | e | e <;> rw [e] <;> exact ⟨_, _, rfl⟩
  obtain ⟨p, o, hfs⟩ := hfs
  refine hits_field hc hf hs hfs fun v off hv ha he => ?_
  have htake : m.payload.take m.payload.length = m.payload := List.take_length
  simp only [plainTypes, List.mem_cons, List.not_mem_nil, or_false] at ht
  unfold core
  rcases ht with e | e | e | e | e | e | e | e | e | e | e | e | e <;>
    (rw [e] at hlen ⊢; simp only [MType.refSize] at hlen; rw [hlen] at htake
     simp [hop, htake])

/-- **C06**, end to end. -/
theorem C06_blocks (p : Probe E chain thr img m) (hf : chain.hook.flavor ≠ .sockAddr) (hr : Runs E img w r w')
    (ht : m.type ∈ plainTypes) (hop : m.op = .eq) :
    Blocked chain r ↔ ¬ Unreadable E chain ∧
      ∃ b, HasField (inputOf E chain.hook) m.type b ∧ (b = m.payload ↔ m.negate = false) := by
  refine p.blocked_iff hr fun c hc => C06_eq hc hf ?_ ht hop
  obtain ⟨rule, h1, h2, _⟩ := p.rule
  exact p.loaded.matchers rule (by rw [h1]; simp) m (by rw [h2]; simp)

/-- The matcher of a probe is well-formed. -/
theorem Probe.wf (p : Probe E chain thr img m) : MatcherWf m := by
  obtain ⟨rule, h1, h2, _⟩ := p.rule
  exact p.loaded.matchers rule (by rw [h1]; simp) m (by rw [h2]; simp)

/-- The types of network matchers. -/
def netTypes : List MType := [.ip4Snet, .ip4Dnet, .ip6Snet, .ip6Dnet]

/-- An address is in a network: they have the same first `len` bits. -/
def InNetwork (addr net : List Byte) (len : Nat) : Prop := ∀ k < len, bitAt addr k = bitAt net k

theorem inNetwork_iff {n : Nat} {a b : List Byte} : samePrefix n a b = true ↔ InNetwork a b n := by
  unfold samePrefix InNetwork
  simp

/-- **C07.**  A network matcher, of payload (length, network), matches iff the packet's address is in the
network. -/
theorem C07_cidr {c : Sem} (hc : Sees E chain thr c) (hf : chain.hook.flavor ≠ .sockAddr)
    (ht : m.type ∈ netTypes) :
    Hits c m w ↔ ∃ b, HasField (inputOf E chain.hook) m.type b ∧
      (InNetwork b (m.payload.drop 4) (host m.payload 0 4) ↔ m.negate = false) := by
  have hs : m.type ≠ .set := by intro e; rw [e] at ht; revert ht; decide
  have hfs : ∃ p o n, fieldSpec m.type = some (p, o, n) := by
    simp only [netTypes, List.mem_cons, List.not_mem_nil, or_false] at ht
    rcases ht with e | e | e | e <;> rw [e] <;> exact ⟨_, _, _, rfl⟩
  obtain ⟨p, o, n, hfs⟩ := hfs
  refine hits_field hc hf hs hfs fun v off hv ha he => ?_
  simp only [netTypes, List.mem_cons, List.not_mem_nil, or_false] at ht
  unfold core
  rcases ht with e | e | e | e <;> rw [e] <;> simp only [inNet, Option.some.injEq, inNetwork_iff, exists_eq', and_true]

/-- **C07**, end to end. -/
theorem C07_blocks (p : Probe E chain thr img m) (hf : chain.hook.flavor ≠ .sockAddr) (hr : Runs E img w r w')
    (ht : m.type ∈ netTypes) :
    Blocked chain r ↔ ¬ Unreadable E chain ∧ ∃ b, HasField (inputOf E chain.hook) m.type b ∧
      (InNetwork b (m.payload.drop 4) (host m.payload 0 4) ↔ m.negate = false) :=
  p.blocked_iff hr fun _ hc => C07_cidr hc hf ht

theorem beNat_append (a b : List Byte) : beNat (a ++ b) = beNat a * 256 ^ b.length + beNat b := by
  have key : ∀ (b : List Byte) (x : Nat), b.foldl (fun a b => 256 * a + b.toNat) x = x * 256 ^ b.length + beNat b := by
    intro b
    induction b with
    | nil => intro x; simp [beNat]
    | cons y b ih =>
      intro x
      have h1 := ih (256 * x + y.toNat)
      have h2 := ih (256 * 0 + y.toNat)
      unfold beNat
      simp only [List.foldl_cons]
      rw [h1, h2, List.length_cons, Nat.pow_succ, Nat.add_mul, Nat.mul_zero, Nat.zero_add,
        show 256 * x * 256 ^ b.length = x * (256 ^ b.length * 256) by rw [Nat.mul_comm 256 x, Nat.mul_assoc, Nat.mul_comm 256]]
      omega
  unfold beNat
  rw [List.foldl_append, key]
  rfl

theorem beNat_cons (x : Byte) (b : List Byte) : beNat (x :: b) = x.toNat * 256 ^ b.length + beNat b := by
  have := beNat_append [x] b
  simpa [beNat] using this

theorem beNat_lt (b : List Byte) : beNat b < 2 ^ (8 * b.length) := by
  induction b with
  | nil => simp [beNat]
  | cons x b ih =>
    rw [beNat_cons, List.length_cons, show 8 * (b.length + 1) = 8 * b.length + 8 by omega, Nat.pow_add,
      show (256 : Nat) ^ b.length = 2 ^ (8 * b.length) by rw [Nat.pow_mul]]
    have := x.isLt
    calc x.toNat * 2 ^ (8 * b.length) + beNat b < x.toNat * 2 ^ (8 * b.length) + 2 ^ (8 * b.length) := by omega
      _ = (x.toNat + 1) * 2 ^ (8 * b.length) := by rw [Nat.add_mul, Nat.one_mul]
      _ ≤ 256 * 2 ^ (8 * b.length) := Nat.mul_le_mul_right _ (by omega)
      _ = _ := by omega

/-- The bits of a byte string are those of the number it denotes in network order. -/
theorem bitAt_testBit {b : List Byte} {k : Nat} (h : k < 8 * b.length) : bitAt b k = (beNat b).testBit (8 * b.length - 1 - k) := by
  induction b generalizing k with
  | nil => simp at h
  | cons x b ih =>
    rw [beNat_cons, show (256 : Nat) ^ b.length = 2 ^ (8 * b.length) by rw [Nat.pow_mul],
      Nat.mul_comm, Nat.testBit_two_pow_mul_add _ (beNat_lt b)]
    simp only [List.length_cons] at h ⊢
    by_cases hk : k < 8
    · rw [if_neg (by omega)]
      unfold bitAt byteAt
      rw [show k / 8 = 0 by omega, show 8 * (b.length + 1) - 1 - k - 8 * b.length = 7 - k by omega,
        show k % 8 = k by omega]
      simp [BitVec.getLsbD]
    · rw [if_pos (by omega)]
      have := ih (k := k - 8) (by omega)
      rw [show 8 * (b.length + 1) - 1 - k = 8 * b.length - 1 - (k - 8) by omega, ← this]
      unfold bitAt byteAt
      rw [show k / 8 = (k - 8) / 8 + 1 by omega, show k % 8 = (k - 8) % 8 by omega]
      simp

/-- Being in a network, on numbers: the usual definition of CIDR containment. -/
theorem C07_number {a n : List Byte} {len : Nat} (hl : n.length = a.length) (h : len ≤ 8 * a.length) :
    InNetwork a n len ↔ beNat a / 2 ^ (8 * a.length - len) = beNat n / 2 ^ (8 * a.length - len) := by
  constructor
  · intro hk
    apply Nat.eq_of_testBit_eq
    intro i
    rw [Nat.testBit_div_two_pow, Nat.testBit_div_two_pow]
    by_cases hi : i < len
    · have := hk (len - 1 - i) (by omega)
      rw [bitAt_testBit (by omega), bitAt_testBit (by rw [hl]; omega), hl] at this
      rw [show i + (8 * a.length - len) = 8 * a.length - 1 - (len - 1 - i) by omega]
      exact this
    · have h1 : (beNat a) < 2 ^ (i + (8 * a.length - len)) :=
        Nat.lt_of_lt_of_le (beNat_lt a) (Nat.pow_le_pow_right (by omega) (by omega))
      have h2 : (beNat n) < 2 ^ (i + (8 * a.length - len)) :=
        Nat.lt_of_lt_of_le (beNat_lt n) (Nat.pow_le_pow_right (by omega) (by omega))
      rw [Nat.testBit_lt_two_pow h1, Nat.testBit_lt_two_pow h2]
  · intro he k hk
    rw [bitAt_testBit (by omega), bitAt_testBit (by rw [hl]; omega), hl]
    have := congrArg (fun x => Nat.testBit x (len - 1 - k)) he
    simp only [Nat.testBit_div_two_pow] at this
    rw [show len - 1 - k + (8 * a.length - len) = 8 * a.length - 1 - k by omega] at this
    exact this

/-- **C08.**  A range of ports, of payload (low, high) in host order, matches iff the port is between the
bounds, both included. -/
theorem C08_ports {c : Sem} (hc : Sees E chain thr c) (hf : chain.hook.flavor ≠ .sockAddr)
    (ht : m.type ∈ [MType.tcpSport, .tcpDport, .udpSport, .udpDport]) (hop : m.op = .range) :
    Hits c m w ↔ ∃ b, HasField (inputOf E chain.hook) m.type b ∧
      (host m.payload 0 2 ≤ beNat b ∧ beNat b ≤ host m.payload 2 2 ↔ m.negate = false) := by
  have hs : m.type ≠ .set := by intro e; rw [e] at ht; revert ht; decide
  simp only [List.mem_cons, List.not_mem_nil, or_false] at ht
  have hfs : ∃ p o n, fieldSpec m.type = some (p, o, n) := by
    rcases ht with e | e | e | e <;> rw [e] <;> exact ⟨_, _, _, rfl⟩
  obtain ⟨p, o, n, hfs⟩ := hfs
  refine hits_field hc hf hs hfs (P := fun b => host m.payload 0 2 ≤ beNat b ∧ beNat b ≤ host m.payload 2 2)
    fun v off hv ha he => ?_
  unfold core
  rcases ht with e | e | e | e <;> rw [e] <;> simp [hop]

/-- **C08**, end to end. -/
theorem C08_blocks (p : Probe E chain thr img m) (hf : chain.hook.flavor ≠ .sockAddr) (hr : Runs E img w r w')
    (ht : m.type ∈ [MType.tcpSport, .tcpDport, .udpSport, .udpDport]) (hop : m.op = .range) :
    Blocked chain r ↔ ¬ Unreadable E chain ∧ ∃ b, HasField (inputOf E chain.hook) m.type b ∧
      (host m.payload 0 2 ≤ beNat b ∧ beNat b ≤ host m.payload 2 2 ↔ m.negate = false) :=
  p.blocked_iff hr fun _ hc => C08_ports hc hf ht hop

/-- The port `meta.sport` and `meta.dport` are about: of a TCP or UDP header. -/
def HasPort (i : Input) (t : MType) (b : List Byte) : Prop :=
  (t = .metaSport ∧ (HasField i .tcpSport b ∨ HasField i .udpSport b)) ∨
  (t = .metaDport ∧ (HasField i .tcpDport b ∨ HasField i .udpDport b))

theorem HasField.unique {i : Input} {t : MType} {a b : List Byte} (h : HasField i t a) (h' : HasField i t b) : a = b := by
  obtain ⟨p, o, n, off, h1, h2, h3⟩ := h
  obtain ⟨p', o', n', off', h1', h2', h3'⟩ := h'
  rw [h1] at h1'
  cases h1'
  rw [← h3, ← h3', h2.unique h2']

/-- The transport protocol found. -/
theorem l4Num_iff {i : Input} {rec_ : Bool} {v : View} (h : understand i rec_ = some v) (t : Trans) :
    v.l4Num = t.num ↔ ∃ off, HasHdr i (.trans t) off := by
  cases t with
  | tcp => have := protoOk_iff h (t := .tcpFlags) rfl; simp only [protoOk, beq_iff_eq] at this; exact this
  | udp => have := protoOk_iff h (t := .udpSport) rfl; simp only [protoOk, beq_iff_eq] at this; exact this
  | icmp => have := protoOk_iff h (t := .icmpType) rfl; simp only [protoOk, beq_iff_eq] at this; exact this
  | icmp6 => have := protoOk_iff h (t := .icmpv6Type) rfl; simp only [protoOk, beq_iff_eq] at this; exact this

theorem HasPort.field {i : Input} {rec_ : Bool} {v : View} (h : understand i rec_ = some v) {t : MType}
    (ht : t = .metaSport ∨ t = .metaDport) {b : List Byte} :
    HasPort i t b ↔ (v.l4Num = 6 ∨ v.l4Num = 17) ∧ b = fieldOf v t := by
  have n6 := l4Num_iff h .tcp
  have n17 := l4Num_iff h .udp
  simp only [Trans.num] at n6 n17
  have key : ∀ (t t1 t2 : MType) (o : Nat), fieldSpec t1 = some (.trans .tcp, o, 2) → fieldSpec t2 = some (.trans .udp, o, 2) →
      fieldOf v t = fieldOf v t1 → fieldOf v t = fieldOf v t2 →
      ((HasField i t1 b ∨ HasField i t2 b) ↔ (v.l4Num = 6 ∨ v.l4Num = 17) ∧ b = fieldOf v t) := by
    intro t t1 t2 o f1 f2 e1 e2
    constructor
    · rintro (⟨p, o', n, off, g1, g2, g3⟩ | ⟨p, o', n, off, g1, g2, g3⟩)
      · rw [f1] at g1; cases g1
        exact ⟨Or.inl (n6.mpr ⟨off, g2⟩), by rw [e1, fieldOf_eq h f1 g2, g3]⟩
      · rw [f2] at g1; cases g1
        exact ⟨Or.inr (n17.mpr ⟨off, g2⟩), by rw [e2, fieldOf_eq h f2 g2, g3]⟩
    · rintro ⟨hn | hn, rfl⟩
      · obtain ⟨off, g⟩ := n6.mp hn
        exact Or.inl ⟨_, _, _, off, f1, g, by rw [e1, fieldOf_eq h f1 g]⟩
      · obtain ⟨off, g⟩ := n17.mp hn
        exact Or.inr ⟨_, _, _, off, f2, g, by rw [e2, fieldOf_eq h f2 g]⟩
  unfold HasPort
  rcases ht with rfl | rfl
  · simp only [true_and, reduceCtorEq, false_and, or_false]
    exact key _ _ _ 0 rfl rfl rfl rfl
  · simp only [true_and, reduceCtorEq, false_and, false_or]
    exact key _ _ _ 2 rfl rfl rfl rfl

/-- **C06, C08.**  `meta.sport`, `meta.dport`: as for TCP and UDP ports, except that port 0 never
matches, even a negated matcher. -/
theorem C08_meta_ports {c : Sem} (hc : Sees E chain thr c) (hf : chain.hook.flavor ≠ .sockAddr) (hm : MatcherWf m)
    (ht : m.type = .metaSport ∨ m.type = .metaDport) :
    Hits c m w ↔ ∃ b, HasPort (inputOf E chain.hook) m.type b ∧ beNat b ≠ 0 ∧
      ((m.op = .range ∧ (host m.payload 0 2 ≤ beNat b ∧ beNat b ≤ host m.payload 2 2 ↔ m.negate = false)) ∨
       (m.op = .eq ∧ (b = m.payload ↔ m.negate = false))) := by
  obtain ⟨v, h1, h2, h3, h4, h5⟩ := hc.view hf
  have hs : m.type ≠ .set := by intro e; rw [e] at ht; revert ht; decide
  unfold Hits
  rw [h2, h3, h4, h5]
  unfold typesOf
  rw [if_neg hs]
  simp only [List.mem_singleton, forall_eq]
  have hprot : protoOk v m.type = true := by rcases ht with e | e <;> rw [e] <;> rfl
  simp only [hprot, true_and]
  simp only [HasPort.field h1 ht]
  have hop : (m.op = .range ∧ m.payload.length = 4) ∨ (m.op = .eq ∧ m.payload.length = 2) := by
    unfold MatcherWf at hm
    rw [if_neg hs] at hm
    rcases ht with e | e <;> rw [e] at hm <;> cases ho : m.op <;> rw [ho] at hm <;> simp_all [MType.refSize]
  unfold holds
  have hcore : core (inputOf E chain.hook) v w.mark ((kernelOf E).rng w.rng) chain.sets thr m =
      if (v.l4Num = 6 ∨ v.l4Num = 17) ∧ beNat (fieldOf v m.type) ≠ 0 then
        if m.op = .range then
          some (decide (host m.payload 0 2 ≤ beNat (fieldOf v m.type) ∧ beNat (fieldOf v m.type) ≤ host m.payload 2 2))
        else some (decide (fieldOf v m.type = m.payload.take 2)) else none := by
    unfold core
    rcases ht with e | e <;> rw [e]
  rw [hcore]
  by_cases hcond : (v.l4Num = 6 ∨ v.l4Num = 17) ∧ beNat (fieldOf v m.type) ≠ 0
  · rw [if_pos hcond]
    rcases hop with ⟨ho, hl⟩ | ⟨ho, hl⟩
    · rw [if_pos ho]
      constructor
      · intro hh
        exact ⟨_, ⟨hcond.1, rfl⟩, hcond.2, Or.inl ⟨ho, bne_iff.mp hh⟩⟩
      · rintro ⟨b, ⟨_, rfl⟩, _, ⟨_, hh⟩ | ⟨ho', _⟩⟩
        · exact bne_iff.mpr hh
        · rw [ho] at ho'; cases ho'
    · have htk : m.payload.take 2 = m.payload := by rw [← hl]; exact List.take_length
      rw [if_neg (by rw [ho]; simp), htk]
      constructor
      · intro hh
        exact ⟨_, ⟨hcond.1, rfl⟩, hcond.2, Or.inr ⟨ho, bne_iff.mp hh⟩⟩
      · rintro ⟨b, ⟨_, rfl⟩, _, ⟨ho', _⟩ | ⟨_, hh⟩⟩
        · rw [ho] at ho'; cases ho'
        · exact bne_iff.mpr hh
  · rw [if_neg hcond]
    simp only [Bool.false_eq_true, false_iff]
    rintro ⟨b, ⟨ha, rfl⟩, hb, _⟩
    exact hcond ⟨ha, hb⟩

/-- **C08.**  `meta.flow_hash` ranges, on the kernel's 32-bit hash of the packet (TC). -/
theorem C08_flow_hash {c : Sem} (hc : Sees E chain thr c) (hf : chain.hook.flavor ≠ .sockAddr)
    (ht : m.type = .metaFlowHash) (hop : m.op = .range) :
    Hits c m w ↔ (host m.payload 0 4 ≤ (inputOf E chain.hook).hash ∧ (inputOf E chain.hook).hash ≤ host m.payload 4 4 ↔
      m.negate = false) := by
  obtain ⟨v, h1, h2, h3, h4, h5⟩ := hc.view hf
  unfold Hits
  rw [h2, h3, h4, h5]
  unfold typesOf
  rw [ht]
  simp only [reduceCtorEq, if_false, List.mem_singleton, forall_eq]
  have : protoOk v .metaFlowHash = true := rfl
  simp only [this, true_and]
  unfold holds core
  rw [ht]
  simp only [hop, if_true]
  exact bne_iff

/-- **C09.**  `tcp.flags`: equality, a flag in common, all flags included. -/
theorem C09_flags {c : Sem} (hc : Sees E chain thr c) (hf : chain.hook.flavor ≠ .sockAddr)
    (hm : MatcherWf m) (ht : m.type = .tcpFlags) :
    Hits c m w ↔ ∃ f : Byte, HasField (inputOf E chain.hook) .tcpFlags [f] ∧
      ((m.op = .eq ∧ ([f] = m.payload ↔ m.negate = false)) ∨
       (m.op = .any ∧ ((∃ k < 8, f.getLsbD k = true ∧ (byteAt m.payload 0).getLsbD k = true) ↔ m.negate = false)) ∨
       (m.op = .all ∧ ((∀ k < 8, (byteAt m.payload 0).getLsbD k = true → f.getLsbD k = true) ↔ m.negate = false))) := by
  have hs : m.type ≠ .set := by rw [ht]; simp
  have hop : m.payload.length = 1 ∧ (m.op = .eq ∨ m.op = .any ∨ m.op = .all) := by
    unfold MatcherWf at hm
    rw [if_neg hs, ht] at hm
    cases ho : m.op <;> rw [ho] at hm <;> simp_all [MType.refSize]
  obtain ⟨x, hx⟩ : ∃ x, m.payload = [x] := by
    match hp : m.payload, hop.1 with
    | [x], _ => exact ⟨x, rfl⟩
  have hb : ∀ a b : Byte, (a &&& b ≠ 0) ↔ ∃ k < 8, a.getLsbD k = true ∧ b.getLsbD k = true := by
    intro a b
    constructor
    · intro h
      apply Classical.byContradiction
      intro hc
      apply h
      apply BitVec.eq_of_getLsbD_eq
      intro k hk
      rw [BitVec.getLsbD_and]
      show _ = BitVec.getLsbD 0#8 k
      rw [BitVec.getLsbD_zero, Bool.and_eq_false_iff]
      cases h1 : a.getLsbD k with
      | false => exact Or.inl rfl
      | true =>
        cases h2 : b.getLsbD k with
        | false => exact Or.inr rfl
        | true => exact absurd ⟨k, hk, h1, h2⟩ hc
    · rintro ⟨k, hk, h1, h2⟩ h
      have := congrArg (fun v => BitVec.getLsbD v k) h
      simp [h1, h2] at this
  have hall : ∀ a b : Byte, (a &&& b = b) ↔ ∀ k < 8, b.getLsbD k = true → a.getLsbD k = true := by
    intro a b
    constructor
    · intro h k hk hb
      have := congrArg (fun v => BitVec.getLsbD v k) h
      simpa [hb] using this
    · intro h
      apply BitVec.eq_of_getLsbD_eq
      intro k hk
      rw [BitVec.getLsbD_and]
      cases h1 : b.getLsbD k with
      | false => simp
      | true => simp [h k hk h1]
  have key := hits_field (w := w) (P := fun b => ∃ f, b = [f] ∧ ((m.op = .eq ∧ [f] = m.payload) ∨
      (m.op = .any ∧ f &&& byteAt m.payload 0 ≠ 0) ∨ (m.op = .all ∧ f &&& byteAt m.payload 0 = byteAt m.payload 0)))
    hc hf hs (by rw [ht]; rfl) (fun v off hv ha he => by
      have hfield : fieldOf v m.type = [byteAt v.trans 13] := by
        rw [ht] at he ⊢
        have h13 : v.trans = slice (inputOf E chain.hook).bytes off 20 := by
          unfold View.trans
          rw [(found_l4 hv .tcp _).mpr ⟨off, ha, rfl⟩]
          rfl
        have hle : off + 20 ≤ (inputOf E chain.hook).bytes.length := ha.2
        have hlen : 13 < v.trans.length := by rw [h13, slice_length hle]; omega
        simp only [fieldOf]
        rw [List.drop_eq_getElem_cons hlen, List.take_succ_cons, List.take_zero, byteAt, List.getElem?_eq_getElem hlen]
        rfl
      rw [hfield]
      unfold core
      rw [ht]
      rcases hop.2 with ho | ho | ho <;> rw [ho] <;> simp [hx, byteAt] <;> exact Classical.em _)
  rw [key, ht]
  constructor
  · rintro ⟨b, hb1, hb2⟩
    have : ∃ f, b = [f] := by
      obtain ⟨p, o, n, off, g1, g2, g3⟩ := hb1
      cases g1
      have := slice_length (bs := (inputOf E chain.hook).bytes) (a := off + 13) (n := 1) (by have : off + 20 ≤ _ := g2.2; omega)
      rw [g3] at this
      match b, this with
      | [f], _ => exact ⟨f, rfl⟩
    obtain ⟨f, rfl⟩ := this
    refine ⟨f, hb1, ?_⟩
    simp only [List.cons.injEq, and_true, exists_eq_left'] at hb2
    simp only [← hb, ← hall]
    rcases hop.2 with ho | ho | ho <;> simpa [ho] using hb2
  · rintro ⟨f, hb1, hb2⟩
    refine ⟨[f], hb1, ?_⟩
    simp only [List.cons.injEq, and_true, exists_eq_left']
    simp only [← hb, ← hall] at hb2
    rcases hop.2 with ho | ho | ho <;> simpa [ho] using hb2

/-- **C09**, end to end. -/
theorem C09_blocks (p : Probe E chain thr img m) (hf : chain.hook.flavor ≠ .sockAddr) (hr : Runs E img w r w')
    (ht : m.type = .tcpFlags) :
    Blocked chain r ↔ ¬ Unreadable E chain ∧ ∃ f : Byte, HasField (inputOf E chain.hook) .tcpFlags [f] ∧
      ((m.op = .eq ∧ ([f] = m.payload ↔ m.negate = false)) ∨
       (m.op = .any ∧ ((∃ k < 8, f.getLsbD k = true ∧ (byteAt m.payload 0).getLsbD k = true) ↔ m.negate = false)) ∨
       (m.op = .all ∧ ((∀ k < 8, (byteAt m.payload 0).getLsbD k = true → f.getLsbD k = true) ↔ m.negate = false))) :=
  p.blocked_iff hr fun _ hc => C09_flags hc hf p.wf ht

end Bf
