import Verif.Props.C06_Fields
/-!
# C10, C11: set matchers;  C12: protocol guards
-/
namespace Bf
open Spec

variable {E : Env} {chain : Chain} {thr : Nat → BitVec 32} {img : List Insn} {w w' : World} {r : BitVec 64}
  {m : Matcher}

/-- The packet has the header fields of a set's key, and `b` is their concatenation. -/
def HasKey (i : Input) : List MType → List Byte → Prop
  | [], b => b = []
  | t :: ts, b => ∃ x y, b = x ++ y ∧ HasField i t x ∧ HasKey i ts y

theorem fieldSpec_of_in {t : MType} (h : t.refSize .in_ ≠ 0) : ∃ p o n, fieldSpec t = some (p, o, n) := by
  cases t <;> simp [MType.refSize] at h <;> exact ⟨_, _, _, rfl⟩

theorem hasField_iff {i : Input} {rec_ : Bool} {v : View} (h : understand i rec_ = some v) {t : MType}
    (ht : ∃ p o n, fieldSpec t = some (p, o, n)) {b : List Byte} :
    HasField i t b ↔ protoOk v t = true ∧ b = fieldOf v t := by
  obtain ⟨p, o, n, hf⟩ := ht
  rw [protoOk_iff h (fieldSpec_proto hf).1]
  constructor
  · rintro ⟨p', o', n', off, h1, h2, rfl⟩
    rw [hf] at h1; cases h1
    exact ⟨⟨off, h2⟩, (fieldOf_eq h hf h2).symm⟩
  · rintro ⟨⟨off, h2⟩, rfl⟩
    exact ⟨p, o, n, off, hf, h2, (fieldOf_eq h hf h2).symm⟩

theorem hasKey_iff {i : Input} {rec_ : Bool} {v : View} (h : understand i rec_ = some v) {ts : List MType}
    (ht : ∀ t ∈ ts, ∃ p o n, fieldSpec t = some (p, o, n)) {b : List Byte} :
    HasKey i ts b ↔ (∀ t ∈ ts, protoOk v t = true) ∧ b = keyOf (fieldOf v) ts := by
  induction ts generalizing b with
  | nil => simp [HasKey, keyOf]
  | cons t ts ih =>
    have ih := fun {b} => ih (fun t h => ht t (List.mem_cons_of_mem _ h)) (b := b)
    simp only [HasKey, hasField_iff h (ht t (List.mem_cons_self ..)), ih]
    have e : keyOf (fieldOf v) (t :: ts) = fieldOf v t ++ keyOf (fieldOf v) ts := by simp [keyOf]
    rw [e]
    simp only [List.mem_cons, forall_eq_or_imp]
    constructor
    · rintro ⟨x, y, rfl, ⟨a, rfl⟩, c, rfl⟩; exact ⟨⟨a, c⟩, rfl⟩
    · rintro ⟨⟨a, c⟩, rfl⟩; exact ⟨_, _, rfl, ⟨a, rfl⟩, c, rfl⟩

/-- The set a matcher refers to, by its position in the chain. -/
def RefersTo (chain : Chain) (m : Matcher) (s : BSet) : Prop :=
  m.type = .set ∧ chain.sets[host m.payload 0 4]? = some s

/-- **C10.**  A set matcher matches iff the packet has all the headers of the key and the concatenation of
the fields is an element of *that* set -- whatever other sets are in the chain, and whether or not they
share a BPF map with it. -/
theorem C10_member {s : BSet} {c : Sem} (hc : Sees E chain thr c) (hf : chain.hook.flavor ≠ .sockAddr)
    (hW : SetsWf chain.sets) (hs : RefersTo chain m s) (hn : ∀ t ∈ s.key, t ∉ netTypes) :
    Hits c m w ↔ ∃ b, HasKey (inputOf E chain.hook) s.key b ∧ (b ∈ s.elems ↔ m.negate = false) := by
  obtain ⟨ht, hs⟩ := hs
  obtain ⟨v, h1, h2, h3, h4, h5⟩ := hc.view hf
  have hk := (hW.each s (List.mem_of_getElem? hs)).keyOk
  unfold Hits
  rw [h2, h3, h4, h5]
  unfold typesOf
  rw [if_pos ht, hs]
  simp only [hasKey_iff h1 fun t h => fieldSpec_of_in (hk.1 t h)]
  unfold holds core
  rw [ht]
  simp only [hs]
  have hnet : (s.key.any fun t => t == .ip4Snet || t == .ip4Dnet || t == .ip6Snet || t == .ip6Dnet) = false := by
    rw [List.any_eq_false]
    intro t ht
    have := hn t ht
    simp only [netTypes, List.mem_cons, List.not_mem_nil, or_false, not_or] at this
    simp [this]
  have hin : inSet (fieldOf v) s = decide (keyOf (fieldOf v) s.key ∈ s.elems) := by
    unfold inSet
    rw [hnet]
    simp
  rw [hin]
  constructor
  · rintro ⟨a, b⟩; exact ⟨_, ⟨a, rfl⟩, bne_iff.mp b⟩
  · rintro ⟨_, ⟨a, rfl⟩, b⟩; exact ⟨a, bne_iff.mpr b⟩

/-- **C10**, end to end. -/
theorem C10_blocks {s : BSet} (p : Probe E chain thr img m) (hf : chain.hook.flavor ≠ .sockAddr) (hr : Runs E img w r w')
    (hs : RefersTo chain m s) (hn : ∀ t ∈ s.key, t ∉ netTypes) :
    Blocked chain r ↔ ¬ Unreadable E chain ∧
      ∃ b, HasKey (inputOf E chain.hook) s.key b ∧ (b ∈ s.elems ↔ m.negate = false) :=
  p.blocked_iff hr fun _ hc => C10_member hc hf p.loaded.sets hs hn

/-- **C10**, isolation: chains with the same set for the matcher and any other sets decide alike. -/
theorem C10_isolation {E' : Env} {chain' : Chain} {img' : List Insn} {u u' : World} {r' : BitVec 64} {s : BSet}
    (p : Probe E chain thr img m) (p' : Probe E' chain' thr img' m)
    (hf : chain.hook.flavor ≠ .sockAddr) (hk : chain'.hook = chain.hook) (hE : inputOf E' chain.hook = inputOf E chain.hook)
    (hnx : chain'.flagNexthdr = chain.flagNexthdr)
    (hr : Runs E img w r w') (hr' : Runs E' img' u r' u') (hs : RefersTo chain m s) (hs' : RefersTo chain' m s)
    (hn : ∀ t ∈ s.key, t ∉ netTypes) : Blocked chain r ↔ Blocked chain' r' := by
  rw [C10_blocks p hf hr hs hn, C10_blocks p' (by rw [hk]; exact hf) hr' hs' hn]
  unfold Unreadable
  rw [hk, hE, hnx]

/-- **C11.**  A matcher on a set of networks matches iff one of them contains the packet's address. -/
theorem C11_networks {s : BSet} {t : MType} {c : Sem} (hc : Sees E chain thr c) (hf : chain.hook.flavor ≠ .sockAddr)
    (hs : RefersTo chain m s) (hk : s.key = [t]) (hn : t ∈ netTypes) :
    Hits c m w ↔ ∃ b, HasField (inputOf E chain.hook) t b ∧
      ((∃ e ∈ s.elems, InNetwork b (e.drop 4) (host e 0 4)) ↔ m.negate = false) := by
  obtain ⟨ht, hs⟩ := hs
  obtain ⟨v, h1, h2, h3, h4, h5⟩ := hc.view hf
  have hfs : ∃ p o n, fieldSpec t = some (p, o, n) := by
    simp only [netTypes, List.mem_cons, List.not_mem_nil, or_false] at hn
    rcases hn with e | e | e | e <;> rw [e] <;> exact ⟨_, _, _, rfl⟩
  unfold Hits
  rw [h2, h3, h4, h5]
  unfold typesOf
  rw [if_pos ht, hs]
  simp only [hk, List.mem_singleton, forall_eq, hasField_iff h1 hfs]
  unfold holds core
  rw [ht]
  simp only [hs]
  have hnet : (s.key.any fun t => t == .ip4Snet || t == .ip4Dnet || t == .ip6Snet || t == .ip6Dnet) = true := by
    rw [hk]
    simp only [netTypes, List.mem_cons, List.not_mem_nil, or_false] at hn
    simpa [or_assoc] using hn
  have hin : inSet (fieldOf v) s = true ↔ ∃ e ∈ s.elems, InNetwork (fieldOf v t) (e.drop 4) (host e 0 4) := by
    unfold inSet
    rw [hnet, hk]
    simp only [if_true, List.any_eq_true, inNet, inNetwork_iff, keyOf, List.map_cons, List.map_nil,
      List.flatten_cons, List.flatten_nil, List.append_nil]
  rw [show (inSet (fieldOf v) s != m.negate) = true ↔ (inSet (fieldOf v) s = true ↔ m.negate = false) from by
    cases inSet (fieldOf v) s <;> cases m.negate <;> simp]
  rw [hin]
  constructor
  · rintro ⟨a, b⟩; exact ⟨_, ⟨a, rfl⟩, b⟩
  · rintro ⟨_, ⟨a, rfl⟩, b⟩; exact ⟨a, b⟩

/-- **C11**, end to end. -/
theorem C11_blocks {s : BSet} {t : MType} (p : Probe E chain thr img m) (hf : chain.hook.flavor ≠ .sockAddr)
    (hr : Runs E img w r w') (hs : RefersTo chain m s) (hk : s.key = [t]) (hn : t ∈ netTypes) :
    Blocked chain r ↔ ¬ Unreadable E chain ∧ ∃ b, HasField (inputOf E chain.hook) t b ∧
      ((∃ e ∈ s.elems, InNetwork b (e.drop 4) (host e 0 4)) ↔ m.negate = false) :=
  p.blocked_iff hr fun _ hc => C11_networks hc hf hs hk hn

/-- **C12.**  A rule about a protocol (through a matcher or a component of a set key, negated or not) only
fires on packets that have a complete header of that protocol. -/
theorem C12_guard {c : Sem} (hc : Sees E chain thr c) (hf : chain.hook.flavor ≠ .sockAddr) {rule : Rule}
    (hfire : Fires c rule w) {t : MType} (ha : About chain.sets rule t) :
    (∀ n, netOf t = some n → ∃ off, HasHdr (inputOf E chain.hook) (.net n) off) ∧
    (∀ n, transOf t = some n → ∃ off, HasHdr (inputOf E chain.hook) (.trans n) off) := by
  obtain ⟨v, h1, h2, h3, h4, h5⟩ := hc.view hf
  obtain ⟨q, hm, hq⟩ := about_iff.mp ha
  have hp := hfire.2.1 q hm t (by rw [h3]; exact hq)
  rw [h2] at hp
  have hxor : ∀ n k, netOf t = some n → transOf t = some k → False := by
    intro n k; cases t <;> simp [netOf, transOf]
  constructor
  · intro n hn
    exact (protoOk_iff h1 (by unfold protoOf; rw [hn])).mp hp
  · intro n hn
    have : netOf t = none := by
      cases h : netOf t with
      | none => rfl
      | some k => exact (hxor k n h hn).elim
    exact (protoOk_iff h1 (by unfold protoOf; rw [this, hn])).mp hp

/-- **C12**, for socket operations: the protocol is that of the socket. -/
theorem C12_guard_sock {c : Sem} (hc : Sees E chain thr c) (hf : chain.hook.flavor = .sockAddr) {rule : Rule}
    (hfire : Fires c rule w) {t : MType} (ha : About chain.sets rule t) :
    (∀ n, netOf t = some n → Net.ofFamily (host E.sock 28 4) = some n) ∧
    (∀ n, transOf t = some n → host E.sock 36 4 = n.num) := by
  obtain ⟨h2, h3, h4, h5⟩ := hc.sockView hf
  obtain ⟨q, hm, hq⟩ := about_iff.mp ha
  have hp := hfire.2.1 q hm t (by rw [h3]; exact hq)
  rw [h2] at hp
  have key : ∀ n : Net, (sockView E.sock).l3Num = n.etherType → Net.ofFamily (host E.sock 28 4) = some n := by
    intro n h
    have e : (sockView E.sock).net = Net.ofFamily (host E.sock 28 4) := rfl
    unfold SockView.l3Num at h
    rw [e] at h
    cases hh : Net.ofFamily (host E.sock 28 4) with
    | none => rw [hh] at h; cases n <;> simp [Net.etherType] at h
    | some k => rw [hh] at h; cases n <;> cases k <;> simp [Net.etherType] at h ⊢
  have e2 : (sockView E.sock).proto = host E.sock 36 4 := rfl
  constructor
  · intro n hn
    apply key
    cases t <;> simp only [netOf, Option.some.injEq, reduceCtorEq] at hn <;> subst hn <;>
      simpa [sockProtoOk, Net.etherType] using hp
  · intro n hn
    rw [← e2]
    cases t <;> simp only [transOf, Option.some.injEq, reduceCtorEq] at hn <;> subst hn <;>
      simpa [sockProtoOk, Trans.num] using hp

/-- **C12**, observed: if what decides is a rule about a protocol, the packet has it; otherwise no counter of
that rule changes. -/
theorem C12_counter (h : IsLoaded E chain thr img) (hf : chain.hook.flavor ≠ .sockAddr) (hr : Runs E img w r w')
    {k : Nat} {rule : Rule} (hk : chain.rules[k]? = some rule) {t : MType} {p : Proto} (ha : About chain.sets rule t)
    (hp : protoOf t = some p) (hno : ¬ ∃ off, HasHdr (inputOf E chain.hook) p off) : w'.counters k = w.counters k := by
  rw [C03_counters h hr k, if_neg]
  have hlt := (List.getElem?_eq_some_iff.mp hk).1
  rintro (⟨c, hc, q, wk, a, _, _, d⟩ | ⟨e, _⟩ | ⟨e, _⟩)
  · rw [hk] at a; cases a
    obtain ⟨h1, h2⟩ := C12_guard hc hf d ha
    apply hno
    unfold protoOf at hp
    cases hn : netOf t with
    | some n => rw [hn] at hp; cases hp; exact h1 n hn
    | none =>
      cases hn2 : transOf t with
      | some n => rw [hn, hn2] at hp; cases hp; exact h2 n hn2
      | none => rw [hn, hn2] at hp; cases hp
  · omega
  · omega

end Bf
