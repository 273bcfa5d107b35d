import Verif.Spec.TextSocket
import Verif.Props.C40_Sock
import Verif.Props.C48_Text
/-!
# C48 for socket operations: from the text of a matcher to the operations it selects
-/
namespace Bf
open Spec

variable {E : Env} {chain : Chain} {thr : Nat → BitVec 32} {img : List Insn} {w w' : World} {r : BitVec 64}
  {m : Matcher}

theorem HasSockField.unique {bs : List Byte} {t : MType} {a b : List Byte} (h : HasSockField bs t a) (h' : HasSockField bs t b) : a = b := by
  obtain ⟨_, o, n, h1, rfl⟩ := h
  obtain ⟨_, o', n', h1', rfl⟩ := h'
  rw [h1] at h1'
  cases h1'
  rfl

theorem HasSockField.length {bs : List Byte} {t : MType} {b : List Byte} (hb : bs.length = 72) (h : HasSockField bs t b) {o n : Nat} (ht : sockFieldSpec t = some (o, n)) :
    b.length = n := by
  obtain ⟨_, o', n', h1, rfl⟩ := h
  rw [ht] at h1
  cases h1
  refine slice_length ?_
  rw [hb]
  cases t <;> simp only [sockFieldSpec, Option.some.injEq, Prod.mk.injEq, reduceCtorEq] at ht <;> (obtain ⟨rfl, rfl⟩ := ht) <;> decide

theorem sockNet_number {bs : List Byte} {n : Nat} : (sockView bs).l3Num = n ↔ SockNetNumber bs n := by
  have e : (sockView bs).net = Net.ofFamily (host bs 28 4) := rfl
  unfold SockView.l3Num
  rw [e]
  constructor
  · intro h
    cases hh : Net.ofFamily (host bs 28 4) with
    | none => rw [hh] at h; subst h; exact .unknown hh
    | some k => rw [hh] at h; subst h; exact .known hh
  · intro h
    cases h with
    | known h => rw [h]
    | unknown h => rw [h]

/-- A matcher on no field of the address. -/
theorem sock_hits_whole {c : Sem} (hc : Sees E chain thr c) (hf : chain.hook.flavor = .sockAddr) (hs : m.type ≠ .set) {P : Prop}
    (hP : ∃ b, sockCore (sockView E.sock) (E.rng w.rng) chain.sets thr m = some b ∧ (b = true ↔ P)) :
    Hits c m w ↔ SockIs E.sock m.type ∧ (P ↔ m.negate = false) := by
  obtain ⟨h2, h3, h4, h5⟩ := hc.sockView hf
  obtain ⟨x, hx, hp⟩ := hP
  have hk : (kernelOf E).rng w.rng = E.rng w.rng := rfl
  unfold Hits
  rw [h2, h3, h4, h5, hk]
  unfold typesOf
  rw [if_neg hs]
  simp only [List.mem_singleton, forall_eq, sockHolds, hx, sockIs_iff]
  refine and_congr_right fun _ => ?_
  rw [← hp]; cases x <;> cases m.negate <;> simp

/-- ... and a matcher that is not about sockets. -/
theorem sock_no_hit {c : Sem} (hc : Sees E chain thr c) (hf : chain.hook.flavor = .sockAddr) (hs : m.type ≠ .set)
    (hP : sockCore (sockView E.sock) (E.rng w.rng) chain.sets thr m = none) : ¬ Hits c m w := by
  obtain ⟨h2, h3, h4, h5⟩ := hc.sockView hf
  have hk : (kernelOf E).rng w.rng = E.rng w.rng := rfl
  unfold Hits
  rw [h2, h3, h4, h5, hk]
  dsimp only
  simp only [sockHolds, hP]
  simp

/-- **C48** for a matcher of a rule of a `connect` or `sendmsg` chain: it matches the operations its text describes. -/
theorem C48_sock_partial {env : TextEnv} {ty : MType} {op : MOp} {buf : List Byte} {s : List Char} {neg : Bool}
    (hm : matcherNewFromRaw env ty op buf s neg = .ok m) (hfit : Fits ty op s) (hl : IsLoaded E chain thr img)
    {c : Sem} (hc : Sees E chain thr c) (hw : MatcherWf m) (hf : chain.hook.flavor = .sockAddr) (hty : ty ≠ .metaProbability ∧ ty ≠ .set) :
    Hits c m w ↔ SockConcerns E.sock ty ∧ (SockDescribes E.sock ty op s ↔ neg = false) := by
  unfold matcherNewFromRaw at hm
  split at hm
  case h_2 => cases hm
  case h_3 => cases hm
  next q hp =>
  cases hm
  have hM := C46_says_partial hfit.ordinary hfit.room hfit.suffix hp
  have hwf := hw
  unfold MatcherWf at hwf
  rw [if_neg hty.2] at hwf
  obtain ⟨hin, hsz, hlen⟩ := hwf
  dsimp only at hin hsz hlen
  have hb := (hl.env.sock hf).size
  generalize hi : E.sock = i at hb ⊢
  have plain : ty ∈ [MType.ip4Saddr, .ip4Daddr, .ip6Saddr, .ip6Daddr, .tcpDport, .udpDport, .metaDport] → op = .eq → ∀ {D : List Byte → Prop},
      (∀ b, HasSockField i ty b → (b = q ↔ D b)) →
      (Hits c ⟨ty, op, q, neg⟩ w ↔ (∃ b, HasSockField i ty b) ∧ ((∃ b, HasSockField i ty b ∧ D b) ↔ neg = false)) := by
    intro h1 h2 D hD
    rw [C40_eq_partial hl hc hf hw (by revert h1; show ty ∈ _ → ty ∈ _; cases ty <;> decide) h2 (fun e => by
      dsimp only at e; rw [e] at h1; exact absurd h1 (by decide)), hi]
    exact exists_field HasSockField.unique hD
  have port : ty ∈ [MType.tcpDport, .udpDport, .metaDport] → op = .eq ∨ op = .range → Means env ty op s q → q.length = ty.refSize op →
      (Hits c ⟨ty, op, q, neg⟩ w ↔ (∃ b, HasSockField i ty b) ∧ ((∃ b, HasSockField i ty b ∧
        if op = .range then ∃ x y, RangeText (Numeral 10) 65535 s x y ∧ x ≤ Spec.beNat b ∧ Spec.beNat b ≤ y else Numeral 10 s (Spec.beNat b)) ↔ neg = false)) := by
    intro ht hop hs hq
    have h3 : ty = .tcpDport ∨ ty = .udpDport ∨ ty = .metaDport := by revert ht; cases ty <;> simp
    have hfs : sockFieldSpec ty = some (24, 2) := by rcases h3 with rfl | rfl | rfl <;> rfl
    rcases hop with rfl | rfl
    · refine plain (by revert ht; cases ty <;> decide) rfl fun b hb' => ?_
      have hs : Numeral 10 s (Spec.beNat (q.take 2)) := by rcases h3 with rfl | rfl | rfl <;> simpa [Means] using hs
      have hq : q.length = 2 := by rcases h3 with rfl | rfl | rfl <;> exact hq
      rw [List.take_of_length_le (by omega)] at hs
      simp only [reduceCtorEq, if_false]
      constructor
      · rintro rfl; exact hs
      · intro h; exact beNat_inj (by rw [hb'.length hb hfs]; omega) (numeral_unique (by omega) h hs)
    · have hs : RangeText (Numeral 10) 65535 s (host q 0 2) (host q 2 2) := by rcases h3 with rfl | rfl | rfl <;> simpa [Means] using hs
      rw [C40_ranges hl hc hf ht rfl, hi]
      refine exists_field HasSockField.unique fun b _ => ?_
      simp only [if_true]
      constructor
      · intro h; exact ⟨_, _, hs, h⟩
      · rintro ⟨x, y, h1, h2⟩
        obtain ⟨rfl, rfl⟩ := range10_unique hs h1
        exact h2
  have nets : ty ∈ netTypes → ∀ {D : List Byte → Prop}, (∀ b, HasSockField i ty b → (InNetwork b (q.drop 4) (host q 0 4) ↔ D b)) → ∀ {D' : Prop}, ((∃ b, HasSockField i ty b ∧ D b) ↔ D') →
      (Hits c ⟨ty, op, q, neg⟩ w ↔ (∃ b, HasSockField i ty b) ∧ (D' ↔ neg = false)) := by
    intro h1 D hD D' hD'
    rw [C40_networks hl hc hf h1, hi, ← hD']
    exact exists_field HasSockField.unique hD
  have net4 : ty ∈ netTypes → q.length = 8 → NetText Addr4 32 s (((q.drop 4).take 4).map BitVec.toNat) (host q 0 4) →
      (Hits c ⟨ty, op, q, neg⟩ w ↔ (∃ b, HasSockField i ty b) ∧
        ((∃ b net len, HasSockField i ty b ∧ NetText Addr4 32 s (net.map BitVec.toNat) len ∧ SameBits b net len) ↔ neg = false)) := by
    intro h1 h2 hM
    rw [List.take_of_length_le (by rw [List.length_drop, h2]; decide)] at hM
    refine nets h1 (D := fun b => ∃ net len, NetText Addr4 32 s (net.map BitVec.toNat) len ∧ SameBits b net len) (fun b hb => ⟨fun h => ⟨_, _, hM, h⟩, ?_⟩) (by simp only [exists_and_left])
    rintro ⟨net, len, h1, h2⟩
    obtain ⟨e1, rfl⟩ := net_unique (addr := Addr4) (fun h h' => addr4_unique h h') (fun h => (addr4_starts [] h).2.2) hM h1
    rw [map_toNat_inj e1]
    exact h2
  have net6 : ty ∈ netTypes → (∃ ws, NetText Addr6 128 s ws (host q 0 4) ∧ ((q.drop 4).take 16).map BitVec.toNat = bytesOf ws) →
      (Hits c ⟨ty, op, q, neg⟩ w ↔ (∃ b, HasSockField i ty b) ∧
        ((∃ b net ws len, HasSockField i ty b ∧ NetText Addr6 128 s ws len ∧ net.map BitVec.toNat = bytesOf ws ∧ SameBits b net len) ↔ neg = false)) := by
    rintro h1 ⟨ws, hM, hb⟩
    have h128 : host q 0 4 ≤ 128 := by obtain ⟨_, _, _, _, _, h⟩ := hM; exact h
    refine nets (D := fun b => ∃ net ws len, NetText Addr6 128 s ws len ∧ net.map BitVec.toNat = bytesOf ws ∧ SameBits b net len) h1
      (fun b _ => ⟨fun h => ⟨_, _, _, hM, hb, (sameBits_take h128).mpr h⟩, ?_⟩) (by simp only [exists_and_left])
    rintro ⟨net, ws', len, h1, h2, h3⟩
    obtain ⟨rfl, rfl⟩ := net_unique (addr := Addr6) (fun h h' => addr6_unique h h') (fun h => (addr6_starts [] h).2.2) hM h1
    have := map_toNat_inj (h2.trans hb.symm)
    exact (sameBits_take h128).mp (this ▸ h3)
  have addr4 : ty ∈ [MType.ip4Saddr, .ip4Daddr, .ip6Saddr, .ip6Daddr, .tcpDport, .udpDport, .metaDport] → op = .eq → q.length = 4 → Addr4 s ((q.take 4).map BitVec.toNat) →
      (Hits c ⟨ty, op, q, neg⟩ w ↔ (∃ b, HasSockField i ty b) ∧ ((∃ b, HasSockField i ty b ∧ Addr4 s (b.map BitVec.toNat)) ↔ neg = false)) := by
    intro h1 h2 h3 hM
    refine plain h1 h2 fun b hb => ?_
    rw [List.take_of_length_le (by omega)] at hM
    exact ⟨fun h => by rw [h]; exact hM, fun h => map_toNat_inj (addr4_unique h hM)⟩
  have addr6 : ty ∈ [MType.ip4Saddr, .ip4Daddr, .ip6Saddr, .ip6Daddr, .tcpDport, .udpDport, .metaDport] → op = .eq → q.length = 16 →
      (∃ ws, Addr6 s ws ∧ (q.take 16).map BitVec.toNat = bytesOf ws) →
      (Hits c ⟨ty, op, q, neg⟩ w ↔ (∃ b, HasSockField i ty b) ∧ ((∃ b ws, HasSockField i ty b ∧ Addr6 s ws ∧ b.map BitVec.toNat = bytesOf ws) ↔ neg = false)) := by
    intro h1 h2 h3 hM
    rw [plain h1 h2 (D := fun b => ∃ ws, Addr6 s ws ∧ b.map BitVec.toNat = bytesOf ws)]
    · simp only [exists_and_left]
    · intro b hb
      obtain ⟨ws, h1, h2⟩ := hM
      rw [List.take_of_length_le (by omega)] at h2
      constructor
      · rintro rfl; exact ⟨ws, h1, h2⟩
      · rintro ⟨ws', h1', h2'⟩
        cases addr6_unique h1 h1'
        exact map_toNat_inj (h2'.trans h2.symm)
  have eqOp : ∀ {k : Nat}, (∀ o, ty.refSize o ≠ 0 → o ≠ .in_ → o = .eq) → ty.refSize .eq = k → op = .eq ∧ q.length = k := by
    intro k h1 h2
    have e := h1 op hsz hin
    subst e
    exact ⟨rfl, hlen.trans h2⟩
  have twoOp : (∀ o, ty.refSize o ≠ 0 → o ≠ .in_ → o = .eq ∨ o = .range) → op = .eq ∨ op = .range := fun h => h op hsz hin
  cases ty
  case metaL3Proto =>
    have hM : NamedBy EtherName 65535 s (host q 0 2) := hM
    rw [sock_hits_whole hc hf (by simp) (P := (sockView i).l3Num = host q 0 2) ⟨_, by rw [hi]; rfl, by rw [decide_eq_true_iff]⟩, hi]
    refine and_congr ⟨fun _ => trivial, fun _ => sockIs_iff.mp rfl⟩ (iff_congr ?_ Iff.rfl)
    rw [sockNet_number]
    exact ⟨fun h => ⟨_, hM, h⟩, fun ⟨n, h1, h2⟩ => by rw [← named_unique ether_names (by decide) h1 hM]; exact h2⟩
  case metaL4Proto =>
    have hM : NamedBy (fun x n => Doc.ipproto n = some x) 255 s (host q 0 1) := hM
    rw [sock_hits_whole hc hf (by simp) (P := host i 36 4 = host q 0 1) ⟨_, by rw [hi]; rfl, by rw [decide_eq_true_iff]; exact Iff.rfl⟩, hi]
    refine and_congr ⟨fun _ => trivial, fun _ => sockIs_iff.mp rfl⟩ (iff_congr ?_ Iff.rfl)
    unfold SockDescribes; dsimp only
    exact ⟨fun h => by rw [h]; exact hM, fun h => named_unique C38_understood.2.2.2.2.2.2.2.1 (by decide) h hM⟩
  case ip4Proto =>
    have hM : NamedBy (fun x n => Doc.ipproto n = some x) 255 s (host q 0 1) := hM
    rw [sock_hits_whole hc hf (by simp) (P := host i 36 4 = host q 0 1) ⟨_, by rw [hi]; rfl, by rw [decide_eq_true_iff]; exact Iff.rfl⟩, hi]
    have e : SockIs i .ip4Proto ↔ ∃ b, HasSockField i .ip4Proto b := ⟨fun h => ⟨_, h, _, _, rfl, rfl⟩, fun ⟨_, h, _⟩ => h⟩
    show SockIs i .ip4Proto ∧ _ ↔ (∃ b, HasSockField i .ip4Proto b) ∧ _
    rw [← e]
    refine and_congr_right fun hsi => iff_congr ?_ Iff.rfl
    refine ⟨fun h => ⟨hsi, ?_⟩, fun h => named_unique C38_understood.2.2.2.2.2.2.2.1 (by decide) h.2 hM⟩
    rw [h]; exact hM
  case metaProbability => exact absurd rfl hty.1
  case set => exact absurd rfl hty.2
  case metaDport => exact port (by decide) (twoOp (by intro o; cases o <;> simp [MType.refSize])) hM hlen
  case tcpDport => exact port (by decide) (twoOp (by intro o; cases o <;> simp [MType.refSize])) hM hlen
  case udpDport => exact port (by decide) (twoOp (by intro o; cases o <;> simp [MType.refSize])) hM hlen
  case ip4Saddr => obtain ⟨h1, h2⟩ := eqOp (k := 4) (by intro o; cases o <;> simp [MType.refSize]) rfl; exact addr4 (by decide) h1 h2 hM
  case ip4Daddr => obtain ⟨h1, h2⟩ := eqOp (k := 4) (by intro o; cases o <;> simp [MType.refSize]) rfl; exact addr4 (by decide) h1 h2 hM
  case ip6Saddr => obtain ⟨h1, h2⟩ := eqOp (k := 16) (by intro o; cases o <;> simp [MType.refSize]) rfl; exact addr6 (by decide) h1 h2 hM
  case ip6Daddr => obtain ⟨h1, h2⟩ := eqOp (k := 16) (by intro o; cases o <;> simp [MType.refSize]) rfl; exact addr6 (by decide) h1 h2 hM
  case ip4Snet => exact net4 (by decide) (eqOp (k := 8) (by intro o; cases o <;> simp [MType.refSize]) rfl).2 hM
  case ip4Dnet => exact net4 (by decide) (eqOp (k := 8) (by intro o; cases o <;> simp [MType.refSize]) rfl).2 hM
  case ip6Snet => exact net6 (by decide) hM
  case ip6Dnet => exact net6 (by decide) hM
  all_goals
    refine ⟨fun h => absurd h (sock_no_hit hc hf (by simp) (by rfl)), fun h => ?_⟩
    obtain ⟨⟨_, _, _, _, h, _⟩, _⟩ := h
    cases h

end Bf
