import Verif.Spec.Raw
import Verif.Spec.Proto
/-!
# The understanding of a packet, in terms of its raw bytes
-/
namespace Bf.Spec

theorem bytesAt_some {bs h : List Byte} {o n : Nat} : bytesAt bs o n = some h ↔ o + n ≤ bs.length ∧ h = slice bs o n := by
  unfold bytesAt slice
  split
  · next hl => simp [hl, eq_comm]
  · next hl => simp [hl]

theorem ext6Len_eq (nh hl : Byte) : ext6Len nh hl = extLen nh hl := by
  have key : ∀ n : Nat, (hn : n < 256) → nh = BitVec.ofNat 8 n ↔ nh.toNat = n := by
    intro n hn
    rw [← BitVec.toNat_inj, BitVec.toNat_ofNat, Nat.mod_eq_of_lt (by omega)]
  unfold ext6Len extLen
  have h0 := key 0 (by omega)
  have h43 := key 43 (by omega)
  have h60 := key 60 (by omega)
  have h135 := key 135 (by omega)
  have h51 := key 51 (by omega)
  have h44 := key 44 (by omega)
  change (nh = 0 ↔ _) at h0
  change (nh = 43 ↔ _) at h43
  change (nh = 60 ↔ _) at h60
  change (nh = 135 ↔ _) at h135
  change (nh = 51 ↔ _) at h51
  change (nh = 44 ↔ _) at h44
  simp only [h0, h43, h60, h135, h51, h44]
  split
  · next h => rw [if_pos (by omega)]; congr 1; omega
  · next h => rw [if_pos (by omega)]; congr 1; omega
  · next h => rw [if_pos (by omega)]; congr 1; omega
  · next h => rw [if_pos (by omega)]; congr 1; omega
  · next h => rw [if_neg (by omega), if_pos (by omega)]; congr 1; omega
  · next h => rw [if_neg (by omega), if_neg (by omega), if_pos (by omega)]
  · next a b c d e f => rw [if_neg (by rintro (h | h | h | h) <;> first | exact a h | exact b h | exact c h | exact d h), if_neg e, if_neg f]

theorem extLen_trans {t : Trans} {nh hl : Byte} (h : nh.toNat = t.num) : extLen nh hl = none := by
  rw [← ext6Len_eq]
  unfold ext6Len
  rw [h]
  cases t <;> rfl

theorem ofNum_iff {b : Byte} {t : Trans} : Trans.ofNum b = some t ↔ b.toNat = t.num := by
  have key : ∀ n : Nat, (hn : n < 256) → b = BitVec.ofNat 8 n ↔ b.toNat = n := by
    intro n hn
    rw [← BitVec.toNat_inj, BitVec.toNat_ofNat, Nat.mod_eq_of_lt (by omega)]
  have h6 := key 6 (by omega)
  have h17 := key 17 (by omega)
  have h1 := key 1 (by omega)
  have h58 := key 58 (by omega)
  change (b = 6 ↔ _) at h6
  change (b = 17 ↔ _) at h17
  change (b = 1 ↔ _) at h1
  change (b = 58 ↔ _) at h58
  unfold Trans.ofNum
  simp only [h6, h17, h1, h58]
  cases t <;> simp only [Trans.num] <;> (repeat' split) <;> simp <;> omega

theorem num_byte {b : Byte} {t : Trans} : b.toNat = t.num ↔ b = BitVec.ofNat 8 t.num := by
  rw [← BitVec.toNat_inj, BitVec.toNat_ofNat]
  cases t <;> simp [Trans.num]

theorem byteAt_slice {bs : List Byte} {o n k : Nat} (h : k < n) : byteAt (slice bs o n) k = byteAt bs (o + k) := by
  unfold byteAt slice
  rw [List.getElem?_take_of_lt h, List.getElem?_drop]

/-- Where the walk through the extension headers ends, when it ends at a transport header. -/
theorem walk_leads {pkt : List Byte} {rec_ : Bool} {k : Nat} {nh : Byte} {off : Nat} {seen : List Byte} {t : Trans}
    {uoff : Nat} (hfit : (walk pkt rec_ k nh off seen).1.toNat = t.num →
      (walk pkt rec_ k nh off seen).2.1 + 2 ≤ pkt.length) :
    ((walk pkt rec_ k nh off seen).1.toNat = t.num ∧ (walk pkt rec_ k nh off seen).2.1 = uoff) →
      Leads pkt k nh off (BitVec.ofNat 8 t.num) uoff := by
  induction k generalizing nh off seen with
  | zero =>
    rintro ⟨h1, h2⟩
    simp only [walk] at h1 h2
    rw [← num_byte.mp h1, ← h2]
    exact .here
  | succ k ih =>
    unfold walk
    unfold walk at hfit
    cases hb : bytesAt pkt off 2 with
    | none =>
      rintro ⟨h1, h2⟩
      simp only [hb] at h1 h2 hfit
      have := hfit h1
      unfold bytesAt at hb
      rw [if_pos this] at hb
      cases hb
    | some b =>
      simp only [hb] at hfit ⊢
      obtain ⟨hl, rfl⟩ := bytesAt_some.mp hb
      rw [byteAt_slice (by omega), byteAt_slice (by omega)] at hfit ⊢
      cases he : extLen nh (byteAt pkt (off + 1)) with
      | some len =>
        simp only [he] at hfit ⊢
        intro h
        exact .ext hl (by rw [ext6Len_eq, he]) (ih hfit h)
      | none =>
        simp only
        rintro ⟨h1, h2⟩
        rw [← num_byte.mp h1, ← h2]
        exact .here

theorem leads_walk {pkt : List Byte} {rec_ : Bool} {k : Nat} {nh : Byte} {off : Nat} {seen : List Byte} {t : Trans}
    {uoff : Nat} (h : Leads pkt k nh off (BitVec.ofNat 8 t.num) uoff) (hfit : rec_ = true ∨ uoff + 2 ≤ pkt.length) :
    (walk pkt rec_ k nh off seen).1.toNat = t.num ∧ (walk pkt rec_ k nh off seen).2.1 = uoff := by
  have hn : (BitVec.ofNat 8 t.num : Byte).toNat = t.num := num_byte.mpr rfl
  generalize hu : (BitVec.ofNat 8 t.num : Byte) = up at h hn
  induction h generalizing seen with
  | @here k nh off =>
    unfold walk
    cases k with
    | zero => exact ⟨hn, rfl⟩
    | succ k =>
      simp only
      cases hb : bytesAt pkt off 2 with
      | none =>
        rcases hfit with rfl | hfit
        · exact ⟨hn, rfl⟩
        · unfold bytesAt at hb
          rw [if_pos hfit] at hb
          cases hb
      | some b => simp only [extLen_trans hn]; exact ⟨hn, trivial⟩
  | @ext k nh off len up uoff h1 h2 h3 ih =>
    unfold walk
    have hb : bytesAt pkt off 2 = some (slice pkt off 2) := bytesAt_some.mpr ⟨h1, rfl⟩
    simp only [hb]
    rw [byteAt_slice (by omega), byteAt_slice (by omega), ← ext6Len_eq, Nat.add_zero, h2]
    exact ih hfit hu hn

theorem startsExt_iff (b : Byte) : startsExt b = true ↔ b.toNat ∈ [0, 60, 135] := by
  unfold startsExt
  have key : ∀ n : Nat, (hn : n < 256) → b = BitVec.ofNat 8 n ↔ b.toNat = n := by
    intro n hn
    rw [← BitVec.toNat_inj, BitVec.toNat_ofNat, Nat.mod_eq_of_lt (by omega)]
  have h0 := key 0 (by omega)
  have h60 := key 60 (by omega)
  have h135 := key 135 (by omega)
  change (b = 0 ↔ _) at h0
  change (b = 60 ↔ _) at h60
  change (b = 135 ↔ _) at h135
  simp only [Bool.or_eq_true, beq_iff_eq, h0, h60, h135, List.mem_cons, List.not_mem_nil, or_false]
  omega

theorem Trans.hdrLen_ge (t : Trans) : 2 ≤ t.hdrLen := by cases t <;> decide

theorem Trans.num_notExt (t : Trans) : t.num ∉ [0, 60, 135] := by cases t <;> decide

/-- The network protocol of a frame. -/
def netOfInput (i : Input) : Option (Net × Nat) :=
  match i.link with
  | .ethernet => (Net.ofEtherType (beNat (slice i.bytes 12 2))).map (·, 14)
  | .network net => net.map (·, 0)

theorem beNat_two {a b : Byte} : beNat [a, b] = 256 * a.toNat + b.toNat := by simp [beNat]

theorem wire_iff {bs : List Byte} (h : bs.length = 2) (n : Net) :
    Net.ofEtherType (beNat bs) = some n ↔ bs = n.wire := by
  match bs, h with
  | [a, b], _ =>
    rw [beNat_two]
    have ha := a.isLt
    have hb := b.isLt
    cases n with
    | ip4 =>
      unfold Net.ofEtherType Net.wire
      constructor
      · intro h
        split at h
        · next e =>
          have e1 : a = 0x08 := by rw [← BitVec.toNat_inj]; simp; omega
          have e2 : b = 0x00 := by rw [← BitVec.toNat_inj]; simp; omega
          rw [e1, e2]
        · split at h <;> cases h
      · intro h; cases h; rfl
    | ip6 =>
      unfold Net.ofEtherType Net.wire
      constructor
      · intro h
        split at h
        · cases h
        · split at h
          · next e =>
            have e1 : a = 0x86 := by rw [← BitVec.toNat_inj]; simp; omega
            have e2 : b = 0xdd := by rw [← BitVec.toNat_inj]; simp; omega
            rw [e1, e2]
          · cases h
      · intro h; cases h; rfl

/-- How `NetAt` and `parse` agree. -/
theorem parse_net {i : Input} {rec_ : Bool} {v : View} (h : parse i.link rec_ i.bytes = some v) :
    ∃ net off, parseNet i.bytes rec_ net off = some v ∧ (∀ n o, NetAt i n o ↔ net = some n ∧ o = off) := by
  unfold parse at h
  cases hl : i.link with
  | ethernet =>
    rw [hl] at h
    obtain ⟨e, h1, h2⟩ := Option.bind_eq_some_iff.mp h
    obtain ⟨hle, rfl⟩ := bytesAt_some.mp h1
    have hs : (slice i.bytes 0 14).drop 12 = slice i.bytes 12 2 := by
      unfold slice; rw [List.drop_take]; simp
    rw [hs] at h2
    refine ⟨_, 14, h2, fun n o => ?_⟩
    unfold NetAt
    rw [hl]
    rw [wire_iff (by simp [slice]; omega)]
    exact and_comm
  | network net =>
    rw [hl] at h
    refine ⟨net, 0, h, fun n o => ?_⟩
    unfold NetAt
    rw [hl]
    exact and_comm

/-- The network header found is the packet's. -/
theorem view_l3 {i : Input} {rec_ : Bool} {v : View} (h : understand i rec_ = some v) (n : Net) :
    (∀ hdr, v.l3 = some (n, hdr) → ∃ off, NetAt i n off ∧ off + n.hdrLen ≤ i.bytes.length ∧ hdr = slice i.bytes off n.hdrLen) ∧
    (∀ off, NetAt i n off → off + n.hdrLen ≤ i.bytes.length ∧ v.l3 = some (n, slice i.bytes off n.hdrLen)) := by
  unfold understand at h
  split at h
  · obtain ⟨net, off, h1, h2⟩ := parse_net h
    unfold parseNet at h1
    cases net with
    | none =>
      cases h1
      refine ⟨fun _ h => by simp at h, fun off hn => ?_⟩
      have := (h2 n off).mp hn
      simp at this
    | some n' =>
      obtain ⟨hdr, h3, h4⟩ := Option.bind_eq_some_iff.mp h1
      obtain ⟨hle, rfl⟩ := bytesAt_some.mp h3
      have hl3 : v.l3 = some (n', slice i.bytes off n'.hdrLen) := by
        unfold parseTrans at h4
        split at h4
        · cases h4; rfl
        · obtain ⟨_, _, h5⟩ := Option.map_eq_some_iff.mp h4
          rw [← h5]
      constructor
      · intro hdr hv
        rw [hl3] at hv
        cases hv
        exact ⟨off, (h2 _ _).mpr ⟨rfl, rfl⟩, hle, rfl⟩
      · intro off' hn
        obtain ⟨e1, e2⟩ := (h2 _ _).mp hn
        cases e1
        subst e2
        exact ⟨hle, hl3⟩
  · cases h

theorem NetAt.unique {i : Input} {n n' : Net} {o o' : Nat} (h : NetAt i n o) (h' : NetAt i n' o') : n = n' ∧ o = o' := by
  unfold NetAt at h h'
  cases hl : i.link with
  | ethernet =>
    rw [hl] at h h'
    refine ⟨?_, h.1.trans h'.1.symm⟩
    have := h.2.symm.trans h'.2
    cases n <;> cases n' <;> simp [Net.wire] at this ⊢
  | network net =>
    rw [hl] at h h'
    refine ⟨?_, h.1.trans h'.1.symm⟩
    have := h.2.symm.trans h'.2
    simpa using this

/-- The transport header found is the packet's. -/
theorem view_l4 {i : Input} {rec_ : Bool} {v : View} (h : understand i rec_ = some v) (t : Trans) :
    (∀ hdr, v.l4 = some (t, hdr) → ∃ off, TransAt i t off ∧ off + t.hdrLen ≤ i.bytes.length ∧ hdr = slice i.bytes off t.hdrLen) ∧
    (∀ off, TransAt i t off → off + 2 ≤ i.bytes.length ∨ rec_ = true →
      off + t.hdrLen ≤ i.bytes.length ∧ v.l4 = some (t, slice i.bytes off t.hdrLen)) := by
  unfold understand at h
  rw [if_pos (by revert h; split <;> simp_all)] at h
  obtain ⟨net, off, h1, h2⟩ := parse_net h
  unfold parseNet at h1
  cases net with
  | none =>
    cases h1
    refine ⟨fun _ h => by simp at h, fun o hn => ?_⟩
    rcases hn with ⟨o, hn, _⟩ | ⟨o, hn, _⟩
    · have := (h2 _ _).mp hn; simp at this
    · have := (h2 _ _).mp hn; simp at this
  | some n =>
    obtain ⟨hdr, h3, h4⟩ := Option.bind_eq_some_iff.mp h1
    obtain ⟨hle, rfl⟩ := bytesAt_some.mp h3
    -- what the transport header's position is, according to the raw bytes
    have key : ∀ uoff, uoff + 2 ≤ i.bytes.length ∨ rec_ = true → (TransAt i t uoff ↔
        (transportOf i.bytes rec_ n (slice i.bytes off n.hdrLen) off).1.toNat = t.num ∧
        (transportOf i.bytes rec_ n (slice i.bytes off n.hdrLen) off).2.1 = uoff ∧
        ((transportOf i.bytes rec_ n (slice i.bytes off n.hdrLen) off).1.toNat = t.num ∧ uoff + 2 ≤ i.bytes.length ∨ TransAt i t uoff)) := by
      intro uoff hu
      cases n with
      | ip4 =>
        have hn4 := (h2 .ip4 off).mpr ⟨rfl, rfl⟩
        have e : TransAt i t uoff ↔ (byteAt i.bytes (off + 9)).toNat = t.num ∧ uoff = off + 4 * ((byteAt i.bytes off).toNat % 16) := by
          constructor
          · rintro (⟨o, ho, hh⟩ | ⟨o, ho, _⟩)
            · rw [← (ho.unique hn4).2]; exact hh
            · have := (ho.unique hn4).1; simp at this
          · intro hh; exact Or.inl ⟨off, hn4, hh⟩
        simp only [transportOf]
        rw [byteAt_slice (by simp [Net.hdrLen]), byteAt_slice (by simp [Net.hdrLen]), Nat.add_zero]
        constructor
        · intro hh; exact ⟨(e.mp hh).1, (e.mp hh).2.symm, Or.inr hh⟩
        · rintro ⟨a, b, _⟩; exact e.mpr ⟨a, b.symm⟩
      | ip6 =>
        have hn6 := (h2 .ip6 off).mpr ⟨rfl, rfl⟩
        have e : TransAt i t uoff ↔ (((byteAt i.bytes (off + 6)).toNat = t.num ∧ uoff = off + 40) ∨
            ((byteAt i.bytes (off + 6)).toNat ∈ [0, 60, 135] ∧
              Leads i.bytes 6 (byteAt i.bytes (off + 6)) (off + 40) (BitVec.ofNat 8 t.num) uoff)) := by
          constructor
          · rintro (⟨o, ho, hh⟩ | ⟨o, ho, hh⟩)
            · have := (ho.unique hn6).1; simp at this
            · rw [← (ho.unique hn6).2]; exact hh
          · intro hh; exact Or.inr ⟨off, hn6, hh⟩
        simp only [transportOf]
        rw [byteAt_slice (by simp [Net.hdrLen])]
        by_cases hs : startsExt (byteAt i.bytes (off + 6)) = true
        · rw [if_pos hs]
          rw [startsExt_iff] at hs
          have hne : (byteAt i.bytes (off + 6)).toNat ≠ t.num := fun he => t.num_notExt (he ▸ hs)
          have e' : TransAt i t uoff ↔ Leads i.bytes 6 (byteAt i.bytes (off + 6)) (off + 40) (BitVec.ofNat 8 t.num) uoff := by
            rw [e]
            constructor
            · rintro (⟨a, _⟩ | ⟨_, b⟩)
              · exact absurd a hne
              · exact b
            · intro b; exact Or.inr ⟨hs, b⟩
          constructor
          · intro hh
            obtain ⟨a, b⟩ := leads_walk (rec_ := rec_) (seen := []) (e'.mp hh) hu.symm
            exact ⟨a, b, Or.inr hh⟩
          · rintro ⟨a, b, hor⟩
            rcases hor with ⟨_, hor⟩ | hor
            · rw [e']
              exact walk_leads (fun _ => by rw [b]; exact hor) ⟨a, b⟩
            · exact hor
        · rw [if_neg hs]
          rw [startsExt_iff] at hs
          have e' : TransAt i t uoff ↔ (byteAt i.bytes (off + 6)).toNat = t.num ∧ uoff = off + 40 := by
            rw [e]
            constructor
            · rintro (a | ⟨b, _⟩)
              · exact a
              · exact absurd b hs
            · exact Or.inl
          constructor
          · intro hh; exact ⟨(e'.mp hh).1, (e'.mp hh).2.symm, Or.inr hh⟩
          · rintro ⟨a, b, _⟩; exact e'.mpr ⟨a, b.symm⟩
    unfold parseTrans at h4
    generalize hp : transportOf i.bytes rec_ n (slice i.bytes off n.hdrLen) off = p at h4 key
    cases ht : Trans.ofNum p.1 with
    | none =>
      rw [ht] at h4
      cases h4
      refine ⟨fun _ h => by simp at h, fun o hn hu => ?_⟩
      have := ((key o hu).mp hn).1
      rw [ofNum_iff.mpr this] at ht
      cases ht
    | some t' =>
      rw [ht] at h4
      obtain ⟨hb, h5, h6⟩ := Option.map_eq_some_iff.mp h4
      obtain ⟨hle', rfl⟩ := bytesAt_some.mp h5
      constructor
      · intro hdr hv
        rw [← h6] at hv
        simp only [Option.some.injEq, Prod.mk.injEq] at hv
        obtain ⟨rfl, rfl⟩ := hv
        have hge := t'.hdrLen_ge
        refine ⟨p.2.1, ?_, hle', rfl⟩
        rw [key _ (Or.inl (by omega))]
        exact ⟨ofNum_iff.mp ht, rfl, Or.inl ⟨ofNum_iff.mp ht, by omega⟩⟩
      · intro o hn hu
        obtain ⟨a, b, _⟩ := (key o hu).mp hn
        rw [ofNum_iff.mpr a] at ht
        cases ht
        rw [← h6, ← b]
        exact ⟨hle', rfl⟩


/-- The headers found are the packet's: network headers. -/
theorem found_l3 {i : Input} {rec_ : Bool} {v : View} (h : understand i rec_ = some v) (n : Net) (hdr : List Byte) :
    v.l3 = some (n, hdr) ↔ ∃ off, HasHdr i (.net n) off ∧ hdr = slice i.bytes off n.hdrLen := by
  obtain ⟨a, b⟩ := view_l3 h n
  constructor
  · intro hv
    obtain ⟨off, h1, h2, h3⟩ := a hdr hv
    exact ⟨off, ⟨h1, h2⟩, h3⟩
  · rintro ⟨off, ⟨h1, h2⟩, rfl⟩
    exact (b off h1).2

/-- The headers found are the packet's: transport headers. -/
theorem found_l4 {i : Input} {rec_ : Bool} {v : View} (h : understand i rec_ = some v) (t : Trans) (hdr : List Byte) :
    v.l4 = some (t, hdr) ↔ ∃ off, HasHdr i (.trans t) off ∧ hdr = slice i.bytes off t.hdrLen := by
  obtain ⟨a, b⟩ := view_l4 h t
  constructor
  · intro hv
    obtain ⟨off, h1, h2, h3⟩ := a hdr hv
    exact ⟨off, ⟨h1, h2⟩, h3⟩
  · rintro ⟨off, ⟨h1, h2⟩, rfl⟩
    have := t.hdrLen_ge
    have h2 : off + t.hdrLen ≤ i.bytes.length := h2
    exact (b off h1 (Or.inl (by omega))).2

/-- Where a transport header is, is determined. -/
theorem TransAt.unique {i : Input} {t t' : Trans} {o o' : Nat} (h : TransAt i t o) (h' : TransAt i t' o') :
    t = t' ∧ o = o' := by
  have inj : ∀ {a b : Trans}, a.num = b.num → a = b := by intro a b; cases a <;> cases b <;> simp [Trans.num]
  rcases h with ⟨a, h1, h2, h3⟩ | ⟨a, h1, h2⟩ <;> rcases h' with ⟨b, k1, k2, k3⟩ | ⟨b, k1, k2⟩
  · obtain ⟨_, rfl⟩ := h1.unique k1
    exact ⟨inj (h2.symm.trans k2), h3.trans k3.symm⟩
  · have := (h1.unique k1).1; cases this
  · have := (h1.unique k1).1; cases this
  · obtain ⟨_, rfl⟩ := h1.unique k1
    rcases h2 with ⟨h2, h3⟩ | ⟨h2, h3⟩ <;> rcases k2 with ⟨k2, k3⟩ | ⟨k2, k3⟩
    · exact ⟨inj (h2.symm.trans k2), h3.trans k3.symm⟩
    · exact absurd (h2 ▸ k2) t.num_notExt
    · exact absurd (k2 ▸ h2) t'.num_notExt
    · obtain ⟨e1, e2⟩ := leads_walk (rec_ := true) (seen := []) h3 (Or.inl rfl)
      obtain ⟨f1, f2⟩ := leads_walk (rec_ := true) (seen := []) k3 (Or.inl rfl)
      exact ⟨inj (e1.symm.trans f1), e2.symm.trans f2⟩

theorem HasHdr.unique {i : Input} {p : Proto} {o o' : Nat} (h : HasHdr i p o) (h' : HasHdr i p o') : o = o' := by
  cases p with
  | net n => exact (NetAt.unique h.1 h'.1).2
  | trans t => exact (TransAt.unique h.1 h'.1).2

/-- The protocol a header field belongs to. -/
def protoOf (t : MType) : Option Proto :=
  match netOf t, transOf t with
  | some n, _ => some (.net n)
  | none, some t => some (.trans t)
  | none, none => none

/-- The protocol guard of a matcher type, in terms of the packet. -/
theorem protoOk_iff {i : Input} {rec_ : Bool} {v : View} (h : understand i rec_ = some v) {t : MType} {p : Proto}
    (hp : protoOf t = some p) : protoOk v t = true ↔ ∃ off, HasHdr i p off := by
  have n3 : ∀ n : Net, v.l3Num = n.etherType ↔ ∃ off, HasHdr i (.net n) off := by
    intro n
    unfold View.l3Num
    constructor
    · intro he
      cases hl : v.l3 with
      | none => rw [hl] at he; cases n <;> simp [Net.etherType] at he
      | some x =>
        obtain ⟨n', hdr⟩ := x
        rw [hl] at he
        have : n' = n := by cases n <;> cases n' <;> simp [Net.etherType] at he ⊢
        subst this
        obtain ⟨off, h1, _⟩ := (found_l3 h _ _).mp hl
        exact ⟨off, h1⟩
    · rintro ⟨off, h1⟩
      rw [(found_l3 h _ _).mpr ⟨off, h1, rfl⟩]
  have n4 : ∀ n : Trans, v.l4Num = n.num ↔ ∃ off, HasHdr i (.trans n) off := by
    intro n
    unfold View.l4Num
    constructor
    · intro he
      cases hl : v.l4 with
      | none => rw [hl] at he; cases n <;> simp [Trans.num] at he
      | some x =>
        obtain ⟨n', hdr⟩ := x
        rw [hl] at he
        have : n' = n := by cases n <;> cases n' <;> simp [Trans.num] at he ⊢
        subst this
        obtain ⟨off, h1, _⟩ := (found_l4 h _ _).mp hl
        exact ⟨off, h1⟩
    · rintro ⟨off, h1⟩
      rw [(found_l4 h _ _).mpr ⟨off, h1, rfl⟩]
  cases t <;> simp only [protoOf, netOf, transOf, Option.some.injEq, reduceCtorEq] at hp <;> subst hp <;>
    simp only [protoOk, beq_iff_eq] <;> first | exact n3 .ip4 | exact n3 .ip6 | exact n4 .tcp | exact n4 .udp | exact n4 .icmp | exact n4 .icmp6

/-- A matcher type without a protocol has no guard. -/
theorem protoOk_none {v : View} {t : MType} (hp : protoOf t = none) : protoOk v t = true := by
  cases t <;> simp [protoOf, netOf, transOf] at hp <;> rfl

theorem fieldSpec_proto {t : MType} {p : Proto} {o n : Nat} (h : fieldSpec t = some (p, o, n)) :
    protoOf t = some p ∧ o + n ≤ p.hdrLen := by
  cases t <;> simp only [fieldSpec, Option.some.injEq, Prod.mk.injEq, reduceCtorEq] at h <;>
    (obtain ⟨rfl, rfl, rfl⟩ := h; exact ⟨rfl, by decide⟩)

theorem slice_slice {bs : List Byte} {a n o k : Nat} (h : o + k ≤ n) : ((slice bs a n).drop o).take k = slice bs (a + o) k := by
  unfold slice
  rw [List.drop_take, List.drop_drop, List.take_take, Nat.min_eq_left (by omega)]

theorem slice_length {bs : List Byte} {a n : Nat} (h : a + n ≤ bs.length) : (slice bs a n).length = n := by
  unfold slice; simp; omega

/-- The fields of the headers found are the packet's. -/
theorem fieldOf_eq {i : Input} {rec_ : Bool} {v : View} (h : understand i rec_ = some v) {t : MType} {p : Proto} {o n off : Nat}
    (hf : fieldSpec t = some (p, o, n)) (ha : HasHdr i p off) : fieldOf v t = slice i.bytes (off + o) n := by
  have n3 : ∀ (q : Net), p = .net q → v.net = slice i.bytes off q.hdrLen := by
    intro q hq
    subst hq
    unfold View.net
    rw [(found_l3 h _ _).mpr ⟨off, ha, rfl⟩]
  have n4 : ∀ (q : Trans), p = .trans q → v.trans = slice i.bytes off q.hdrLen := by
    intro q hq
    subst hq
    unfold View.trans
    rw [(found_l4 h _ _).mpr ⟨off, ha, rfl⟩]
  cases t <;> simp only [fieldSpec, Option.some.injEq, Prod.mk.injEq, reduceCtorEq] at hf <;>
    (obtain ⟨e, rfl, rfl⟩ := hf; simp only [fieldOf]) <;>
    first
      | (rw [n3 _ e.symm]; exact slice_slice (by decide))
      | (rw [n4 _ e.symm]; exact slice_slice (by decide))

end Bf.Spec
