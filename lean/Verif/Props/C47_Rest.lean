import Verif.Props.C23_Ext
import Verif.Spec.TextPacket
/-!
# C47: the other matchers on packets

`ip4.dscp`, `ip6.dscp`, `meta.mark`, `meta.flow_hash`, `meta.l3_proto`, `meta.l4_proto`, `ip6.nexthdr`.  As in `C06_Fields.lean`, each is stated for any
rule of any chain (`Hits`) and end to end for a chain whose only rule drops what the matcher matches (`Blocked`).
-/
namespace Bf
open Spec

variable {E : Env} {chain : Chain} {thr : Nat → BitVec 32} {img : List Insn} {w w' : World} {r : BitVec 64}
  {m : Matcher}

/-- A matcher whose type has no protocol. -/
theorem hits_meta {c : Sem} (hc : Sees E chain thr c) (hf : chain.hook.flavor ≠ .sockAddr) (hs : m.type ≠ .set) (hp : protoOf m.type = none)
    {P : Prop} (hP : ∀ v, understand (inputOf E chain.hook) chain.flagNexthdr = some v →
      ∃ b, core (inputOf E chain.hook) v w.mark (E.rng w.rng) chain.sets thr m = some b ∧ (b = true ↔ P)) :
    Hits c m w ↔ (P ↔ m.negate = false) := by
  obtain ⟨v, h1, h2, h3, h4, h5⟩ := hc.view hf
  unfold Hits
  rw [h2, h3, h4, h5]
  unfold typesOf
  rw [if_neg hs]
  simp only [List.mem_singleton, forall_eq, protoOk_none hp, true_and]
  obtain ⟨b, hb, hbP⟩ := hP v h1
  unfold holds
  rw [show (kernelOf E).rng w.rng = E.rng w.rng from rfl, hb, ← hbP]
  cases b <;> cases m.negate <;> simp

/-- A matcher whose type has a protocol. -/
theorem hits_proto {c : Sem} (hc : Sees E chain thr c) (hf : chain.hook.flavor ≠ .sockAddr) (hs : m.type ≠ .set) {p : Proto} (hp : protoOf m.type = some p)
    {P : Nat → Prop} (hP : ∀ v off, understand (inputOf E chain.hook) chain.flagNexthdr = some v → HasHdr (inputOf E chain.hook) p off →
      ∃ b, core (inputOf E chain.hook) v w.mark (E.rng w.rng) chain.sets thr m = some b ∧ (b = true ↔ P off)) :
    Hits c m w ↔ ∃ off, HasHdr (inputOf E chain.hook) p off ∧ (P off ↔ m.negate = false) := by
  obtain ⟨v, h1, h2, h3, h4, h5⟩ := hc.view hf
  unfold Hits
  rw [h2, h3, h4, h5]
  unfold typesOf
  rw [if_neg hs]
  simp only [List.mem_singleton, forall_eq]
  rw [protoOk_iff h1 hp, show (kernelOf E).rng w.rng = E.rng w.rng from rfl]
  unfold holds
  constructor
  · rintro ⟨⟨off, ha⟩, hh⟩
    obtain ⟨b, hb, hbP⟩ := hP v off h1 ha
    refine ⟨off, ha, ?_⟩
    rw [hb] at hh
    rw [← hbP]
    revert hh
    cases b <;> cases m.negate <;> simp
  · rintro ⟨off, ha, hh⟩
    obtain ⟨b, hb, hbP⟩ := hP v off h1 ha
    refine ⟨⟨off, ha⟩, ?_⟩
    rw [hb]
    rw [← hbP] at hh
    revert hh
    cases b <;> cases m.negate <;> simp

theorem view_net {i : Input} {rec_ : Bool} {v : View} (h : understand i rec_ = some v) {n : Net} {off : Nat} (ha : HasHdr i (.net n) off) :
    v.net = slice i.bytes off n.hdrLen := by
  unfold View.net
  rw [(found_l3 h n _).mpr ⟨off, ha, rfl⟩]

/-! ### DSCP -/

/-- **C47.**  `ip4.dscp` compares the first 6 bits of the second byte of the IPv4 header (RFC 2474). -/
theorem C47_dscp4 {c : Sem} (hc : Sees E chain thr c) (hf : chain.hook.flavor ≠ .sockAddr) (ht : m.type = .ip4Dscp) :
    Hits c m w ↔ ∃ off, HasHdr (inputOf E chain.hook) (.net .ip4) off ∧
      ((byteAt (inputOf E chain.hook).bytes (off + 1)).toNat / 4 = host m.payload 0 1 ↔ m.negate = false) := by
  refine hits_proto hc hf (by rw [ht]; simp) (by rw [ht]; rfl) fun v off hv ha => ?_
  unfold core
  rw [ht]
  simp only [Option.some.injEq, exists_eq_left', decide_eq_true_eq]
  rw [view_net hv ha, byteAt_slice (by decide)]

/-- **C47.**  `ip6.dscp` compares the first 6 bits of the traffic class, the 8 bits after the version, in the IPv6 header (RFC 2474, RFC 8200). -/
theorem C47_dscp6 {c : Sem} (hc : Sees E chain thr c) (hf : chain.hook.flavor ≠ .sockAddr) (ht : m.type = .ip6Dscp) :
    Hits c m w ↔ ∃ off, HasHdr (inputOf E chain.hook) (.net .ip6) off ∧
      ((byteAt (inputOf E chain.hook).bytes off).toNat % 16 * 4 + (byteAt (inputOf E chain.hook).bytes (off + 1)).toNat / 64 = host m.payload 0 1 ↔
        m.negate = false) := by
  refine hits_proto hc hf (by rw [ht]; simp) (by rw [ht]; rfl) fun v off hv ha => ?_
  unfold core
  rw [ht]
  simp only [Option.some.injEq, exists_eq_left', decide_eq_true_eq]
  rw [view_net hv ha]
  have hle : off + 40 ≤ (inputOf E chain.hook).bytes.length := ha.2
  have e : (slice (inputOf E chain.hook).bytes off Net.ip6.hdrLen).take 2 = [byteAt (inputOf E chain.hook).bytes off, byteAt (inputOf E chain.hook).bytes (off + 1)] := by
    have h0 : off < (inputOf E chain.hook).bytes.length := by omega
    have h1 : off + 1 < (inputOf E chain.hook).bytes.length := by omega
    unfold slice byteAt
    rw [List.take_take, List.drop_eq_getElem_cons h0, List.drop_eq_getElem_cons h1, List.getElem?_eq_getElem h0, List.getElem?_eq_getElem h1]
    rfl
  rw [e, beNat_two]
  have h1 := (byteAt (inputOf E chain.hook).bytes off).isLt
  have h2 := (byteAt (inputOf E chain.hook).bytes (off + 1)).isLt
  have : (256 * (byteAt (inputOf E chain.hook).bytes off).toNat + (byteAt (inputOf E chain.hook).bytes (off + 1)).toNat) / 64 % 64 =
      (byteAt (inputOf E chain.hook).bytes off).toNat % 16 * 4 + (byteAt (inputOf E chain.hook).bytes (off + 1)).toNat / 64 := by omega
  rw [this]

/-- **C47**, end to end. -/
theorem C47_dscp4_blocks (p : Probe E chain thr img m) (hf : chain.hook.flavor ≠ .sockAddr) (hr : Runs E img w r w') (ht : m.type = .ip4Dscp) :
    Blocked chain r ↔ ¬ Unreadable E chain ∧ ∃ off, HasHdr (inputOf E chain.hook) (.net .ip4) off ∧
      ((byteAt (inputOf E chain.hook).bytes (off + 1)).toNat / 4 = host m.payload 0 1 ↔ m.negate = false) :=
  p.blocked_iff hr fun _ hc => C47_dscp4 hc hf ht

/-- **C47**, end to end. -/
theorem C47_dscp6_blocks (p : Probe E chain thr img m) (hf : chain.hook.flavor ≠ .sockAddr) (hr : Runs E img w r w') (ht : m.type = .ip6Dscp) :
    Blocked chain r ↔ ¬ Unreadable E chain ∧ ∃ off, HasHdr (inputOf E chain.hook) (.net .ip6) off ∧
      ((byteAt (inputOf E chain.hook).bytes off).toNat % 16 * 4 + (byteAt (inputOf E chain.hook).bytes (off + 1)).toNat / 64 = host m.payload 0 1 ↔
        m.negate = false) :=
  p.blocked_iff hr fun _ hc => C47_dscp6 hc hf ht

/-! ### The mark and the hash -/

/-- **C47.**  `meta.mark` compares the mark the packet has when the rule is reached. -/
theorem C47_mark {c : Sem} (hc : Sees E chain thr c) (hf : chain.hook.flavor ≠ .sockAddr) (ht : m.type = .metaMark) :
    Hits c m w ↔ (w.mark.toNat = host m.payload 0 4 ↔ m.negate = false) :=
  hits_meta hc hf (by rw [ht]; simp) (by rw [ht]; rfl) fun v _ => ⟨_, by unfold core; rw [ht], by simp⟩

/-- **C47.**  `meta.flow_hash eq` compares the kernel's hash of the packet. -/
theorem C47_flow_hash {c : Sem} (hc : Sees E chain thr c) (hf : chain.hook.flavor ≠ .sockAddr) (ht : m.type = .metaFlowHash) (hop : m.op ≠ .range) :
    Hits c m w ↔ ((inputOf E chain.hook).hash = host m.payload 0 4 ↔ m.negate = false) :=
  hits_meta hc hf (by rw [ht]; simp) (by rw [ht]; rfl) fun v _ => ⟨decide ((inputOf E chain.hook).hash = host m.payload 0 4), by unfold core; rw [ht]; simp only [hop, if_false], decide_eq_true_iff⟩

/-- **C47**, end to end. -/
theorem C47_mark_blocks (p : Probe E chain thr img m) (hf : chain.hook.flavor ≠ .sockAddr) (hr : Runs E img w r w') (ht : m.type = .metaMark) :
    Blocked chain r ↔ ¬ Unreadable E chain ∧ (w.mark.toNat = host m.payload 0 4 ↔ m.negate = false) :=
  p.blocked_iff hr fun _ hc => C47_mark hc hf ht

/-- **C47**, end to end. -/
theorem C47_flow_hash_blocks (p : Probe E chain thr img m) (hf : chain.hook.flavor ≠ .sockAddr) (hr : Runs E img w r w') (ht : m.type = .metaFlowHash)
    (hop : m.op ≠ .range) :
    Blocked chain r ↔ ¬ Unreadable E chain ∧ ((inputOf E chain.hook).hash = host m.payload 0 4 ↔ m.negate = false) :=
  p.blocked_iff hr fun _ hc => C47_flow_hash hc hf ht hop

/-! ### Protocols -/

theorem netNumber_iff {i : Input} {rec_ : Bool} {v : View} (h : understand i rec_ = some v) (k : Nat) : v.l3Num = k ↔ NetNumber i k := by
  have key : NetNumber i v.l3Num := by
    unfold View.l3Num
    cases hl : v.l3 with
    | none =>
      refine .unknown fun n off ha => ?_
      rw [(found_l3 h n _).mpr ⟨off, ha, rfl⟩] at hl
      cases hl
    | some x =>
      obtain ⟨off, ha, _⟩ := (found_l3 h x.1 x.2).mp hl
      exact .known ha
  constructor
  · rintro rfl; exact key
  · intro hk
    cases hk with
    | @known n off ha =>
      unfold View.l3Num
      rw [(found_l3 h n _).mpr ⟨off, ha, rfl⟩]
    | unknown hn =>
      generalize v.l3Num = x at key
      cases key with
      | known ha => exact absurd ha (hn _ _)
      | unknown _ => rfl

theorem transNumber_iff {i : Input} {rec_ : Bool} {v : View} (h : understand i rec_ = some v) (k : Nat) : v.l4Num = k ↔ TransNumber i k := by
  have key : TransNumber i v.l4Num := by
    unfold View.l4Num
    cases hl : v.l4 with
    | none =>
      refine .unknown fun n off ha => ?_
      rw [(found_l4 h n _).mpr ⟨off, ha, rfl⟩] at hl
      cases hl
    | some x =>
      obtain ⟨off, ha, _⟩ := (found_l4 h x.1 x.2).mp hl
      exact .known ha
  constructor
  · rintro rfl; exact key
  · intro hk
    cases hk with
    | @known n off ha =>
      unfold View.l4Num
      rw [(found_l4 h n _).mpr ⟨off, ha, rfl⟩]
    | unknown hn =>
      generalize v.l4Num = x at key
      cases key with
      | known ha => exact absurd ha (hn _ _)
      | unknown _ => rfl

/-- **C47**: `meta.l3_proto`, for all values. -/
theorem C47_l3_all {c : Sem} (hc : Sees E chain thr c) (hf : chain.hook.flavor ≠ .sockAddr) (ht : m.type = .metaL3Proto) :
    Hits c m w ↔ (NetNumber (inputOf E chain.hook) (host m.payload 0 2) ↔ m.negate = false) :=
  hits_meta hc hf (by rw [ht]; simp) (by rw [ht]; rfl) fun v hv => ⟨_, by unfold core; rw [ht], by simp [netNumber_iff hv]⟩

/-- **C47**: `meta.l4_proto`, for all values. -/
theorem C47_l4_all {c : Sem} (hc : Sees E chain thr c) (hf : chain.hook.flavor ≠ .sockAddr) (ht : m.type = .metaL4Proto) :
    Hits c m w ↔ (TransNumber (inputOf E chain.hook) (host m.payload 0 1) ↔ m.negate = false) :=
  hits_meta hc hf (by rw [ht]; simp) (by rw [ht]; rfl) fun v hv => ⟨_, by unfold core; rw [ht], by simp [transNumber_iff hv]⟩

theorem netNumber_net {i : Input} (n : Net) : NetNumber i n.etherType ↔ ∃ off, HasHdr i (.net n) off := by
  constructor
  · intro h
    generalize hk : n.etherType = k at h
    cases h with
    | @known n' off ha =>
      have : n = n' := by revert hk; cases n <;> cases n' <;> simp [Net.etherType]
      subst this
      exact ⟨off, ha⟩
    | unknown _ => cases n <;> cases hk
  · rintro ⟨off, ha⟩; exact .known ha

theorem transNumber_trans {i : Input} (t : Trans) : TransNumber i t.num ↔ ∃ off, HasHdr i (.trans t) off := by
  constructor
  · intro h
    generalize hk : t.num = k at h
    cases h with
    | @known n' off ha =>
      have : t = n' := by revert hk; cases t <;> cases n' <;> simp [Trans.num]
      subst this
      exact ⟨off, ha⟩
    | unknown _ => cases t <;> cases hk
  · rintro ⟨off, ha⟩; exact .known ha

/-- **C47 (partial)**, end to end: `meta.l3_proto` compares the EtherType of a frame, if the value is IPv4 or IPv6.  Missing: the other values, with
which it is not so (`C47_fails_arp`). -/
theorem C47_l3_partial (p : Probe E chain thr img m) (hf : chain.hook.flavor ≠ .sockAddr) (hr : Runs E img w r w') (ht : m.type = .metaL3Proto)
    (hl : (inputOf E chain.hook).link = .ethernet) (hv : host m.payload 0 2 = 0x0800 ∨ host m.payload 0 2 = 0x86DD) :
    Blocked chain r ↔ ¬ Unreadable E chain ∧ (Spec.beNat (slice (inputOf E chain.hook).bytes 12 2) = host m.payload 0 2 ↔ m.negate = false) := by
  rw [p.blocked_iff hr fun _ hc => C47_l3_all hc hf ht]
  refine and_congr_right fun hu => ?_
  obtain ⟨v, hv'⟩ : ∃ v, understand (inputOf E chain.hook) chain.flagNexthdr = some v := by
    obtain ⟨c, hc⟩ := (unreadable_or_sees E chain thr).resolve_left hu
    obtain ⟨v, h1, _⟩ := hc.view hf
    exact ⟨v, h1⟩
  have h14 : 14 ≤ (inputOf E chain.hook).bytes.length := by
    unfold understand at hv'
    split at hv'
    · unfold Spec.parse at hv'
      rw [hl] at hv'
      obtain ⟨e, h1, _⟩ := Option.bind_eq_some_iff.mp hv'
      obtain ⟨hle, _⟩ := bytesAt_some.mp h1
      omega
    · cases hv'
  have key : ∀ n : Net, host m.payload 0 2 = n.etherType →
      (NetNumber (inputOf E chain.hook) (host m.payload 0 2) ↔ Spec.beNat (slice (inputOf E chain.hook).bytes 12 2) = host m.payload 0 2) := by
    intro n hn
    rw [hn, netNumber_net]
    have hw := wire_iff (bs := slice (inputOf E chain.hook).bytes 12 2) (slice_length (by omega)) n
    have ho : Net.ofEtherType (Spec.beNat (slice (inputOf E chain.hook).bytes 12 2)) = some n ↔
        Spec.beNat (slice (inputOf E chain.hook).bytes 12 2) = n.etherType := by
      unfold Net.ofEtherType
      cases n <;> simp only [Net.etherType] <;> split <;> simp_all
    rw [← ho, hw]
    constructor
    · rintro ⟨off, h1, _⟩
      have : NetAt (inputOf E chain.hook) n off := h1
      unfold NetAt at this
      rw [hl] at this
      exact this.2
    · intro h
      have hn : NetAt (inputOf E chain.hook) n 14 := by
        unfold NetAt
        rw [hl]
        exact ⟨rfl, h⟩
      exact ⟨14, hn, ((view_l3 hv' n).2 14 hn).1⟩
  rcases hv with e | e
  · rw [key .ip4 e]
  · rw [key .ip6 e]

/-- **C47 (partial)**, end to end: with the number of TCP, UDP, ICMP or ICMPv6, `meta.l4_proto` matches the packets that have such a header.  Missing: the
other protocols (`C47_fails_gre`). -/
theorem C47_l4_partial (p : Probe E chain thr img m) (hf : chain.hook.flavor ≠ .sockAddr) (hr : Runs E img w r w') (ht : m.type = .metaL4Proto)
    {t : Trans} (hv : host m.payload 0 1 = t.num) :
    Blocked chain r ↔ ¬ Unreadable E chain ∧ ((∃ off, HasHdr (inputOf E chain.hook) (.trans t) off) ↔ m.negate = false) := by
  rw [p.blocked_iff hr fun _ hc => C47_l4_all hc hf ht, hv, transNumber_trans]

/-! ### `ip6.nexthdr` -/

theorem walk_exts {pkt : List Byte} {rec_ : Bool} {nh up : Byte} {off uoff : Nat} {hs : List (Byte × Nat)} (h : Exts pkt nh off hs up uoff)
    (hr : ∀ h ∈ hs, h.1.toNat = 44 → byteAt pkt (h.2 + 1) = 0) : ∀ k (seen : List Byte), hs.length ≤ k →
    (walk pkt rec_ k nh off seen).2.2 = (hs.map Prod.fst).reverse ++ seen := by
  induction h with
  | @done nh off hn =>
    intro k seen _
    cases k with
    | zero => rfl
    | succ k =>
      unfold walk
      split
      · rfl
      · next b _ =>
        rw [← ext6Len_eq, ext6_none hn]
        rfl
  | @ext nh off len hs up uoff h1 h2 h3 ih =>
    intro k seen hk
    cases k with
    | zero => simp at hk
    | succ k =>
      unfold walk
      have hb : bytesAt pkt off 2 = some (slice pkt off 2) := bytesAt_some.mpr ⟨h1, rfl⟩
      rw [hb]
      dsimp only
      rw [byteAt_slice (by omega), ← ext6Len_eq, ← rfcLen_ext6 (hr (nh, off) (by simp)), h2]
      dsimp only
      rw [byteAt_slice (by omega), Nat.add_zero, ih (fun x hx => hr x (List.mem_cons_of_mem _ hx)) k _ (by simpa using hk)]
      simp

theorem Exts.last {pkt : List Byte} {nh up : Byte} {off uoff : Nat} {hs : List (Byte × Nat)} (h : Exts pkt nh off hs up uoff) : rfcLen up 0 = none := by
  induction h with
  | done h => exact h
  | ext _ _ _ ih => exact ih

theorem Exts.mem {pkt : List Byte} {nh up : Byte} {off uoff : Nat} {hs : List (Byte × Nat)} (h : Exts pkt nh off hs up uoff) :
    ∀ x ∈ hs, rfcLen x.1 0 ≠ none := by
  induction h with
  | done h => simp
  | @ext nh off len hs up uoff h1 h2 h3 ih =>
    intro x hx
    rcases List.mem_cons.mp hx with rfl | hx
    · intro h
      rw [(rfcLen_none _ _ _).mp h] at h2
      cases h2
    · exact ih x hx

theorem isExt_rfc (b : Byte) : isExt b.toNat = true ↔ rfcLen b 0 ≠ none := by
  revert b; decide +kernel

/-- The extension headers found are those of RFC 8200. -/
theorem view_exts {i : Input} {rec_ : Bool} {v : View} (hv : understand i rec_ = some v) {o uoff : Nat} {hs : List (Byte × Nat)} {up : Byte}
    (h : NetAt i .ip6 o) (e : Exts i.bytes (byteAt i.bytes (o + 6)) (o + 40) hs up uoff) (hu : Usual i.bytes hs) :
    ∀ b, b ∈ v.exts ↔ ∃ h ∈ hs, h.1 = b := by
  unfold understand at hv
  split at hv
  · obtain ⟨net, off, h1, h2⟩ := parse_net hv
    obtain ⟨rfl, rfl⟩ := (h2 _ _).mp h
    unfold parseNet at h1
    obtain ⟨hdr, h3, h4⟩ := Option.bind_eq_some_iff.mp h1
    obtain ⟨hle, rfl⟩ := bytesAt_some.mp h3
    have hex : v.exts = (transportOf i.bytes rec_ .ip6 (slice i.bytes o Net.ip6.hdrLen) o).2.2 := by
      unfold parseTrans at h4
      split at h4
      · cases h4; rfl
      · obtain ⟨_, _, h5⟩ := Option.map_eq_some_iff.mp h4
        rw [← h5]
    rw [hex]
    unfold transportOf
    dsimp only
    rw [byteAt_slice (by decide)]
    obtain ⟨u1, u2, u3⟩ := hu
    split
    · rw [walk_exts e u3 6 [] u1]
      intro b
      simp
    · next hne =>
      cases e with
      | done _ => intro b; simp
      | ext g1 g2 g3 =>
        exact absurd ((startsExt_iff _).mpr (u2 _ rfl)) hne
  · cases hv

/-- **C47 (partial).**  `ip6.nexthdr`, for the usual chains of extension headers: with the number of an extension header it matches the packets that have
this header, with the number of TCP, UDP, ICMP or ICMPv6 those in which such a header ends the chain.  Missing: other chains and other values
(`C47_fails_route`, `C47_fails_none`). -/
theorem C47_nexthdr_partial {c : Sem} (hc : Sees E chain thr c) (hf : chain.hook.flavor ≠ .sockAddr) (ht : m.type = .ip6Nexthdr)
    {o uoff : Nat} {hs : List (Byte × Nat)} {up : Byte} (h : NetAt (inputOf E chain.hook) .ip6 o)
    (e : Exts (inputOf E chain.hook).bytes (byteAt (inputOf E chain.hook).bytes (o + 6)) (o + 40) hs up uoff)
    (hu : Usual (inputOf E chain.hook).bytes hs) (hv : host m.payload 0 1 ∈ [0, 43, 44, 51, 60, 135, 6, 17, 1, 58])
    (hnh : chain.flagNexthdr = true) :
    Hits c m w ↔ (((∃ h ∈ hs, h.1.toNat = host m.payload 0 1) ∨ up.toNat = host m.payload 0 1) ↔ m.negate = false) := by
  have hlen : (∃ v, understand (inputOf E chain.hook) chain.flagNexthdr = some v) := by
    obtain ⟨v, h1, _⟩ := hc.view hf
    exact ⟨v, h1⟩
  obtain ⟨v, hv1⟩ := hlen
  have hhdr : HasHdr (inputOf E chain.hook) (.net .ip6) o := ⟨h, ((view_l3 hv1 .ip6).2 o h).1⟩
  have key := hits_proto (w := w) hc hf (m := m) (p := .net .ip6) (by rw [ht]; simp) (by rw [ht]; rfl)
    (P := fun _ => (∃ h ∈ hs, h.1.toNat = host m.payload 0 1) ∨ up.toNat = host m.payload 0 1) (fun v off hv' ha => by
      unfold core
      rw [ht]
      dsimp only
      have hex := view_exts hv' h e hu
      by_cases hx : isExt (host m.payload 0 1) = true
      · rw [if_pos hx]
        refine ⟨_, rfl, ?_⟩
        have hup : up.toNat ≠ host m.payload 0 1 := by
          intro hup
          have hr : rfcLen up 0 = none := by
            exact Bf.Exts.last e
          have := (isExt_rfc up).mp
          rw [hup] at this
          exact this hx hr
        simp only [List.any_eq_true, decide_eq_true_eq]
        constructor
        · rintro ⟨b, h1, h2⟩
          obtain ⟨x, h3, rfl⟩ := (hex b).mp h1
          exact Or.inl ⟨x, h3, h2⟩
        · rintro (⟨x, h1, h2⟩ | hup')
          · exact ⟨x.1, (hex _).mpr ⟨x, h1, rfl⟩, h2⟩
          · exact absurd hup' hup
      · rw [if_neg hx]
        refine ⟨_, rfl, ?_⟩
        rw [decide_eq_true_eq]
        have htr : ∃ t : Trans, host m.payload 0 1 = t.num := by
          revert hv hx
          generalize host m.payload 0 1 = k
          simp only [List.mem_cons, List.not_mem_nil, or_false]
          rintro (rfl | rfl | rfl | rfl | rfl | rfl | rfl | rfl | rfl | rfl) <;> simp [isExt]
          · exact ⟨.tcp, rfl⟩
          · exact ⟨.udp, rfl⟩
          · exact ⟨.icmp, rfl⟩
          · exact ⟨.icmp6, rfl⟩
        obtain ⟨t, hk⟩ := htr
        have hno : ¬ ∃ x ∈ hs, x.1.toNat = host m.payload 0 1 := by
          rintro ⟨x, h1, h2⟩
          rw [← h2] at hx
          exact hx ((isExt_rfc x.1).mpr (Bf.Exts.mem e x h1))
        rw [hk] at hno ⊢
        rw [transNumber_iff hv', transNumber_trans]
        constructor
        · rintro ⟨off, h1, h2⟩
          exact Or.inr ((transAt_rfc h e hu).mp h1).1
        · rintro (hx | hup)
          · exact absurd hx hno
          · have hta := (transAt_rfc (t := t) h e hu).mpr ⟨hup, rfl⟩
            exact ⟨uoff, hta, ((view_l4 hv' t).2 uoff hta (Or.inr hnh)).1⟩)
  rw [key]
  constructor
  · rintro ⟨_, _, h⟩; exact h
  · intro h'; exact ⟨o, hhdr, h'⟩

/-- **C47 (partial)**, end to end. -/
theorem C47_nexthdr_blocks_partial (p : Probe E chain thr img m) (hf : chain.hook.flavor ≠ .sockAddr) (hr : Runs E img w r w') (ht : m.type = .ip6Nexthdr)
    {o uoff : Nat} {hs : List (Byte × Nat)} {up : Byte} (h : NetAt (inputOf E chain.hook) .ip6 o)
    (e : Exts (inputOf E chain.hook).bytes (byteAt (inputOf E chain.hook).bytes (o + 6)) (o + 40) hs up uoff)
    (hu : Usual (inputOf E chain.hook).bytes hs) (hv : host m.payload 0 1 ∈ [0, 43, 44, 51, 60, 135, 6, 17, 1, 58]) :
    Blocked chain r ↔ ¬ Unreadable E chain ∧
      (((∃ h ∈ hs, h.1.toNat = host m.payload 0 1) ∨ up.toNat = host m.payload 0 1) ↔ m.negate = false) :=
  p.blocked_iff hr fun _ hc => C47_nexthdr_partial hc hf ht h e hu hv (by
    obtain ⟨rule, h1, h2, h3, _⟩ := p.rule
    exact p.loaded.api.ok.rule rule (by rw [h1]; simp) |>.nexthdr h3 m (by rw [h2]; simp) ht)

/-! ### Concrete cases, and where the property fails -/

theorem Probe.not_blocked {rec_ : Bool} {v : View} (p : Probe E chain thr img m) (hf : chain.hook.flavor ≠ .sockAddr) (hs : m.type ≠ .set) (w : World)
    (hv : understand (inputOf E chain.hook) rec_ = some v) (hn : rec_ = chain.flagNexthdr)
    (h : ∀ k x, holds (inputOf E chain.hook) v k x chain.sets thr m = false) :
    ¬ Unreadable E chain ∧ ∃ r w', Runs E img w r w' ∧ ¬ Blocked chain r := by
  subst hn
  obtain ⟨r, w', hr⟩ := C01_returns p.loaded w
  refine ⟨fun hu => ?_, r, w', hr, ?_⟩
  · have := hu.2
    rw [hv] at this
    cases this
  · rw [p.blocked hr]
    rintro ⟨c, hc, _, hh⟩
    obtain ⟨v', e1, e2, e3, e4, e5⟩ := hc.view hf
    rw [hv] at e1
    cases e1
    rw [e5] at hh
    have := h w.mark (c.kernel.rng w.rng)
    exact Bool.noConfusion (this.symm.trans hh)

namespace Sample

/-- `meta.l3_proto eq 0x0806` -/
def mArp : Matcher := ⟨.metaL3Proto, .eq, [0x06, 0x08], false⟩
/-- `meta.l4_proto eq 47` -/
def mGre : Matcher := ⟨.metaL4Proto, .eq, [47, 0], false⟩
/-- `ip6.nexthdr eq route` -/
def mRoute : Matcher := ⟨.ip6Nexthdr, .eq, [43], false⟩
/-- `ip6.nexthdr eq 59` (no next header) -/
def mNone : Matcher := ⟨.ip6Nexthdr, .eq, [59], false⟩
/-- `ip4.dscp eq ef` -/
def mEf : Matcher := ⟨.ip4Dscp, .eq, [46], false⟩
/-- `ip6.dscp not eq ef` -/
def mEf6 : Matcher := ⟨.ip6Dscp, .eq, [46], true⟩
/-- `meta.mark eq 5` -/
def mMark : Matcher := ⟨.metaMark, .eq, [5, 0, 0, 0], false⟩
/-- `meta.flow_hash eq 5` -/
def mHash : Matcher := ⟨.metaFlowHash, .eq, [5, 0, 0, 0], false⟩
/-- `meta.l3_proto eq ipv4` -/
def mIp4 : Matcher := ⟨.metaL3Proto, .eq, [0x00, 0x08], false⟩
/-- `meta.l4_proto eq udp` -/
def mUdp : Matcher := ⟨.metaL4Proto, .eq, [17, 0], false⟩

/-- An ARP request. -/
def arp : Env := { base with pkt := List.replicate 12 0 ++ [0x08, 0x06] ++ List.replicate 28 0 }
/-- An IPv4 packet of protocol 47 (GRE). -/
def gre : Env := { base with pkt := List.replicate 12 0 ++ [8, 0] ++ [0x45, 0, 0, 40, 0, 0, 0, 0, 64, 47, 0, 0, 10, 0, 0, 1, 10, 0, 0, 2] ++ List.replicate 20 0 }
/-- An IPv6 packet with nothing after its header (RFC 8200 section 4.7). -/
def none6 : Env := pkt6 59 []

end Sample
open Sample

/-- The hypotheses are met: for each type, a chain that loads. -/
example (b : Env) : ∃ img, Probe (envOf b (one .xdp [] mEf)) (one .xdp [] mEf) Sample.thr img mEf :=
  one_probe b (by decide) (by decide) noSets (by decide) (by intro h; cases h) (by decide +kernel)
example (b : Env) : ∃ img, Probe (envOf b (one .nfForward [] mEf6)) (one .nfForward [] mEf6) Sample.thr img mEf6 :=
  one_probe b (by decide) (by decide) noSets (by decide) (by intro h; cases h) (by decide +kernel)
example (b : Env) : ∃ img, Probe (envOf b (one .tcIngress [] mMark)) (one .tcIngress [] mMark) Sample.thr img mMark :=
  one_probe b (by decide) (by decide) noSets (by decide) (by intro h; cases h) (by decide +kernel)
example (b : Env) : ∃ img, Probe (envOf b (one .tcEgress [] mHash)) (one .tcEgress [] mHash) Sample.thr img mHash :=
  one_probe b (by decide) (by decide) noSets (by decide) (by intro h; cases h) (by decide +kernel)
example (b : Env) : ∃ img, Probe (envOf b (one .xdp [] mIp4)) (one .xdp [] mIp4) Sample.thr img mIp4 :=
  one_probe b (by decide) (by decide) noSets (by decide) (by intro h; cases h) (by decide +kernel)
example (b : Env) : ∃ img, Probe (envOf b (one .cgroupSkbEgress [] mUdp)) (one .cgroupSkbEgress [] mUdp) Sample.thr img mUdp :=
  one_probe b (by decide) (by decide) noSets (by decide) (by intro h; cases h) (by decide +kernel)

/-- **C47 fails** for protocols bpfilter does not know: `meta.l3_proto eq 0x0806` does not match an ARP frame. -/
theorem C47_fails_arp : ∃ img, Probe (envOf arp (one .xdp [] mArp)) (one .xdp [] mArp) Sample.thr img mArp ∧
    Spec.beNat (slice (inputOf arp .xdp).bytes 12 2) = host mArp.payload 0 2 ∧
    ¬ Unreadable (envOf arp (one .xdp [] mArp)) (one .xdp [] mArp) ∧
    ∃ r w', Runs (envOf arp (one .xdp [] mArp)) img w0 r w' ∧ ¬ Blocked (one .xdp [] mArp) r := by
  obtain ⟨img, p⟩ := one_probe (hook := .xdp) (sets := []) (m := mArp) (nh := false) (thr := Sample.thr) arp (by decide) (by decide)
    noSets (by decide) (by intro h; cases h) (by decide +kernel)
  exact ⟨img, p, by decide, p.not_blocked (by decide) (by decide) w0 (v := ⟨none, none, []⟩) (rec_ := false) (by decide) rfl (fun k x => rfl)⟩

/-- **C47 fails** for protocols bpfilter does not know: `meta.l4_proto eq 47` does not match an IPv4 packet of protocol 47. -/
theorem C47_fails_gre : ∃ img, Probe (envOf gre (one .xdp [] mGre)) (one .xdp [] mGre) Sample.thr img mGre ∧
    (NetAt (inputOf gre .xdp) .ip4 14 ∧ (byteAt (inputOf gre .xdp).bytes (14 + 9)).toNat = host mGre.payload 0 1) ∧
    ¬ Unreadable (envOf gre (one .xdp [] mGre)) (one .xdp [] mGre) ∧
    ∃ r w', Runs (envOf gre (one .xdp [] mGre)) img w0 r w' ∧ ¬ Blocked (one .xdp [] mGre) r := by
  obtain ⟨img, p⟩ := one_probe (hook := .xdp) (sets := []) (m := mGre) (nh := false) (thr := Sample.thr) gre (by decide) (by decide)
    noSets (by decide) (by intro h; cases h) (by decide +kernel)
  exact ⟨img, p, ⟨⟨rfl, by decide⟩, by decide⟩,
    p.not_blocked (by decide) (by decide) w0 (v := ⟨some (.ip4, slice gre.pkt 14 20), none, []⟩) (rec_ := false) (by decide) rfl (fun k x => rfl)⟩

/-- **C47 fails** for a routing header in first position: `ip6.nexthdr eq route` does not match the packet. -/
theorem C47_fails_route : ∃ img, Probe (envOf routing6 (one .xdp [] mRoute true)) (one .xdp [] mRoute true) Sample.thr img mRoute ∧
    (NetAt (inputOf routing6 .xdp) .ip6 14 ∧ (byteAt (inputOf routing6 .xdp).bytes 20).toNat = host mRoute.payload 0 1) ∧
    ¬ Unreadable (envOf routing6 (one .xdp [] mRoute true)) (one .xdp [] mRoute true) ∧
    ∃ r w', Runs (envOf routing6 (one .xdp [] mRoute true)) img w0 r w' ∧ ¬ Blocked (one .xdp [] mRoute true) r := by
  obtain ⟨img, p⟩ := one_probe (hook := .xdp) (sets := []) (m := mRoute) (nh := true) (thr := Sample.thr) routing6 (by decide) (by decide)
    noSets (by decide) (by intro h; cases h) (by decide +kernel)
  exact ⟨img, p, ⟨⟨rfl, by decide⟩, by decide⟩,
    p.not_blocked (by decide) (by decide) w0 (v := ⟨some (.ip6, slice routing6.pkt 14 40), none, []⟩) (rec_ := true) (by decide) rfl (fun k x => rfl)⟩

/-- **C47 fails** for "no next header": `ip6.nexthdr eq 59` does not match a packet whose next header is 59. -/
theorem C47_fails_none : ∃ img, Probe (envOf none6 (one .xdp [] mNone true)) (one .xdp [] mNone true) Sample.thr img mNone ∧
    (NetAt (inputOf none6 .xdp) .ip6 14 ∧ (byteAt (inputOf none6 .xdp).bytes 20).toNat = host mNone.payload 0 1) ∧
    ¬ Unreadable (envOf none6 (one .xdp [] mNone true)) (one .xdp [] mNone true) ∧
    ∃ r w', Runs (envOf none6 (one .xdp [] mNone true)) img w0 r w' ∧ ¬ Blocked (one .xdp [] mNone true) r := by
  obtain ⟨img, p⟩ := one_probe (hook := .xdp) (sets := []) (m := mNone) (nh := true) (thr := Sample.thr) none6 (by decide) (by decide)
    noSets (by decide) (by intro h; cases h) (by decide +kernel)
  exact ⟨img, p, ⟨⟨rfl, by decide⟩, by decide⟩,
    p.not_blocked (by decide) (by decide) w0 (v := ⟨some (.ip6, slice none6.pkt 14 40), none, []⟩) (rec_ := true) (by decide) rfl (fun k x => rfl)⟩

end Bf
