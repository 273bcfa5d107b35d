import Verif.Exec.Facts
/-!
# Meaning of the packet matchers' code, except sets
-/
namespace Bf

variable {E : Env} {gs : Groups} {K : Frame} {C : Cfg} {i : Spec.Input} {v : Spec.View}
  {cap : Spec.Capture}

/-- The specification of a matcher, in the shape of `MatchT`. -/
def specM (E : Env) (C : Cfg) (i : Spec.Input) (v : Spec.View) (m : Matcher) (w : World) :
    Bool × World :=
  (Spec.holds i v w.mark (E.rng w.rng) C.chain.sets C.thr m,
    if m.type = .metaProbability then { w with rng := w.rng + 1 } else w)

/-- A matcher the API accepts: supported operator, payload of the right size. -/
def MatcherWf (m : Matcher) : Prop :=
  if m.type = .set then m.op = .in_ ∧ m.payload.length = 4
  else m.op ≠ .in_ ∧ m.type.refSize m.op ≠ 0 ∧ m.payload.length = m.type.refSize m.op

theorem PktFacts.net (hF : PktFacts E C K i v cap) {n : Spec.Net} (h : v.l3Num = n.etherType) :
    v.net.length = n.hdrLen ∧ HdrFld E K oL3Hdr v.net := by
  unfold Spec.View.l3Num at h
  cases hl : v.l3 with
  | none => rw [hl] at h; cases n <;> simp [Spec.Net.etherType] at h
  | some p =>
    obtain ⟨n', b⟩ := p
    rw [hl] at h
    have hn : n' = n := by cases n <;> cases n' <;> simp_all [Spec.Net.etherType]
    subst hn
    have := hF.l3 _ _ hl
    have hnet : v.net = b := by simp [Spec.View.net, hl]
    rw [hnet]; exact this

theorem PktFacts.trans (hF : PktFacts E C K i v cap) {t : Spec.Trans} (h : v.l4Num = t.num) :
    v.trans.length = t.hdrLen ∧ HdrFld E K oL4Hdr v.trans := by
  unfold Spec.View.l4Num at h
  cases hl : v.l4 with
  | none => rw [hl] at h; cases t <;> simp [Spec.Trans.num] at h
  | some p =>
    obtain ⟨n', b⟩ := p
    rw [hl] at h
    have hn : n' = t := by cases t <;> cases n' <;> simp_all [Spec.Trans.num]
    subst hn
    have := hF.l4 _ _ hl
    have hnet : v.trans = b := by simp [Spec.View.trans, hl]
    rw [hnet]; exact this

/-- The header a type's field is in. -/
def hdrFor (v : Spec.View) (t : MType) : List Byte :=
  match t.meta_.layer with
  | .l3 => v.net
  | _ => v.trans

theorem PktFacts.hdr (hF : PktFacts E C K i v cap) {t : MType} (hl : t.meta_.layer ≠ .noLayer)
    (hp : Spec.protoOk v t = true) :
    (t.meta_.layer = .l3 ∨ t.meta_.layer = .l4) ∧
    HdrFld E K t.meta_.layer.fld (hdrFor v t) ∧ t.meta_.off + t.meta_.size ≤ (hdrFor v t).length ∧
    (t.meta_.size = 1 ∨ t.meta_.size = 2 ∨ t.meta_.size = 4 ∨ t.meta_.size = 16) ∧
    ((t ≠ .ip4Dscp ∧ t ≠ .ip6Dscp) →
      Spec.fieldOf v t = ((hdrFor v t).drop t.meta_.off).take t.meta_.size) := by
  have n4 := fun h => hF.net (n := .ip4) h
  have n6 := fun h => hF.net (n := .ip6) h
  have tt := fun h => hF.trans (t := .tcp) h
  have tu := fun h => hF.trans (t := .udp) h
  have ti := fun h => hF.trans (t := .icmp) h
  have t6 := fun h => hF.trans (t := .icmp6) h
  simp only [Spec.Net.etherType, Spec.Net.hdrLen, Spec.Trans.num, Spec.Trans.hdrLen] at n4 n6 tt tu ti t6
  cases t <;> simp only [MType.meta_, ne_eq, not_true_eq_false] at hl <;>
    simp only [Spec.protoOk, beq_iff_eq] at hp <;>
    simp only [MType.meta_, hdrFor, Layer.fld, Spec.fieldOf] <;>
    (first
      | (have h := n4 hp; refine ⟨by simp, h.2, by omega, by simp, by simp⟩)
      | (have h := n6 hp; refine ⟨by simp, h.2, by omega, by simp, by simp⟩)
      | (have h := tt hp; refine ⟨by simp, h.2, by omega, by simp, by simp⟩)
      | (have h := tu hp; refine ⟨by simp, h.2, by omega, by simp, by simp⟩)
      | (have h := ti hp; refine ⟨by simp, h.2, by omega, by simp, by simp⟩)
      | (have h := t6 hp; refine ⟨by simp, h.2, by omega, by simp, by simp⟩))

theorem specM_of {m : Matcher} (hm : m.type ≠ .metaProbability) {b : World → Option Bool}
    (hc : ∀ w : World, Spec.core i v w.mark (E.rng w.rng) C.chain.sets C.thr m = b w) :
    specM E C i v m = fun w => ((match b w with | none => false | some x => x != m.negate), w) := by
  funext w
  simp only [specM, hm, if_false, Spec.holds, hc]
  cases b w <;> rfl

/-- packet.c:125-137: equality of a header field. -/
theorem pktLoadCmp_ok (hF : PktFacts E C K i v cap) (m : Matcher)
    (hl : m.type.meta_.layer ≠ .noLayer) (hp : Spec.protoOk v m.type = true)
    (hd : m.type ≠ .ip4Dscp ∧ m.type ≠ .ip6Dscp)
    (hc : ∀ mk rn, Spec.core i v mk rn C.chain.sets C.thr m =
      some (decide (Spec.fieldOf v m.type = m.payload.take m.type.meta_.size))) :
    GenT (pktLoadCmp m m.type.meta_) (fun _ x => MatchT E gs K (specM E C i v m) x) := by
  obtain ⟨h1, h2, h3, h4, h5⟩ := hF.hdr hl hp
  have hmp : m.type ≠ .metaProbability := by
    intro e; rw [e] at hl; simp [MType.meta_] at hl
  rw [specM_of hmp (fun w => hc _ _)]
  unfold pktLoadCmp
  refine (pktLoad_gen (E := E) (gs := gs) m.type.meta_ h1 hF.sa h4).then ?_
  intro _ x hx
  refine (cmpValue_field (E := E) (gs := gs) (K := K) m m.payload m.type.meta_.size h4).mono ?_
  rintro _ y ⟨_, _, hy⟩ s hs
  refine hx _ h2 h3 s hs y _ ?_
  rintro s' hs' ⟨hw, hld⟩
  have := hy s' _ hs' (by simp only [List.length_take, List.length_drop]; omega) hld
  rw [hw, ← h5 hd] at this
  exact this

/-- packet.c:139-154: network prefix. -/
theorem pktNet_ok (hF : PktFacts E C K i v cap) (m : Matcher)
    (ht : m.type = .ip4Snet ∨ m.type = .ip4Dnet ∨ m.type = .ip6Snet ∨ m.type = .ip6Dnet)
    (hp : Spec.protoOk v m.type = true) :
    GenT (pktNet m m.type.meta_) (fun _ x => MatchT E gs K (specM E C i v m) x) := by
  have hl : m.type.meta_.layer ≠ .noLayer := by rcases ht with h | h | h | h <;> rw [h] <;> decide
  have hd : m.type ≠ .ip4Dscp ∧ m.type ≠ .ip6Dscp := by
    rcases ht with h | h | h | h <;> rw [h] <;> decide
  have hsz : m.type.meta_.size = 4 ∨ m.type.meta_.size = 16 := by
    rcases ht with h | h | h | h <;> rw [h] <;> decide
  obtain ⟨h1, h2, h3, h4, h5⟩ := hF.hdr hl hp
  have hmp : m.type ≠ .metaProbability := by
    intro e; rw [e] at hl; simp [MType.meta_] at hl
  have hc : ∀ mk rn, Spec.core i v mk rn C.chain.sets C.thr m =
      some (Spec.inNet (Spec.fieldOf v m.type) m.payload) := by
    intro mk rn; rcases ht with h | h | h | h <;> simp only [Spec.core, h]
  rw [specM_of hmp (fun w => hc _ _)]
  unfold pktNet
  refine .thenLift fun plen hpl => ?_
  obtain ⟨hplen, rfl⟩ := rd_ok hpl
  refine (pktLoad_gen (E := E) (gs := gs) m.type.meta_ h1 hF.sa h4).then ?_
  intro _ x hx
  refine (cmpMasked_field (E := E) (gs := gs) (K := K) m (m.payload.drop 4) _ m.type.meta_.size hsz).mono ?_
  rintro _ y ⟨_, _, _, hy⟩ s hs
  refine hx _ h2 h3 s hs y _ ?_
  rintro s' hs' ⟨hw, hld⟩
  have := hy s' _ hs' (by simp only [List.length_take, List.length_drop]; omega) hld
  rw [hw, ← h5 hd] at this
  exact this

theorem swap16_be {bs : List Byte} (h : bs.length = 2) :
    swap16 (BitVec.ofNat 64 (leNat bs)) = BitVec.ofNat 64 (Spec.beNat bs) ∧ Spec.beNat bs < 65536 := by
  obtain ⟨a, b, rfl⟩ : ∃ a b, bs = [a, b] := by
    match bs, h with
    | [a, b], _ => exact ⟨a, b, rfl⟩
  have ha := a.isLt
  have hb := b.isLt
  have e1 : leNat [a, b] = a.toNat + 256 * b.toNat := by simp [leNat]
  have e2 : Spec.beNat [a, b] = 256 * a.toNat + b.toNat := by simp [Spec.beNat]
  rw [e1, e2]
  refine ⟨?_, by omega⟩
  unfold swap16
  rw [ofNat64_toNat (by omega)]
  congr 1
  omega

theorem leNat2_lt (p : List Byte) (o : Nat) : leNat ((p.drop o).take 2) < 65536 := leNat_take_lt p o 2
theorem leNat4_lt (p : List Byte) (o : Nat) : leNat ((p.drop o).take 4) < 4294967296 := leNat_take_lt p o 4

/-- Range or equality of a 2-byte field already in `R1`. -/
theorem portCmp_ok (m : Matcher) (hop : m.op = .eq ∨ m.op = .range) :
    GenT (if m.op = .range then do
        emit (.bswap16 .r1)
        let lo ← lift (rd m.payload 0 2)
        let hi ← lift (rd m.payload 2 2)
        cmpRange m lo hi .r1
      else cmpValue m m.payload 2 .r1) (fun _ x => ∀ s fb, Inv K s → fb.length = 2 → Loaded s fb →
        wp E gs x 0 (mpost K ((if m.op = .range then
            decide (Spec.host m.payload 0 2 ≤ Spec.beNat fb ∧ Spec.beNat fb ≤ Spec.host m.payload 2 2)
          else decide (fb = m.payload.take 2)) != m.negate) s.w) s) := by
  by_cases hr : m.op = .range
  · simp only [hr, if_true]
    refine .thenEmit (.thenLift fun lo hlo => .thenLift fun hi hhi => ?_)
    obtain ⟨_, rfl⟩ := rd_ok hlo
    obtain ⟨_, rfl⟩ := rd_ok hhi
    refine (cmpRange_gen (E := E) (gs := gs) (K := K) m _ _ .r1
      (Nat.lt_trans (leNat2_lt _ _) (by decide)) (Nat.lt_trans (leNat2_lt _ _) (by decide))).mono ?_
    intro _ x hx s fb hs hl hld
    have h1 := hld.1
    rw [List.take_of_length_le (by omega)] at h1
    obtain ⟨e, hlt⟩ := swap16_be hl
    refine wp_bswap h1 ?_
    rw [e]
    exact hx _ _ (hs.set (d := .r1) _ trivial) (by omega) (by simp)
  · have he : m.op = .eq := by rcases hop with h | h; exact h; exact absurd h hr
    simp only [hr, if_false]
    refine (cmpValue_field (E := E) (gs := gs) (K := K) m m.payload 2 (by simp)).mono ?_
    rintro _ x ⟨_, _, hx⟩ s fb hs hl hld
    exact hx s fb hs hl hld

/-- packet.c:156-178: ports. -/
theorem pktPort_ok (hF : PktFacts E C K i v cap) (m : Matcher) (hop : m.op = .eq ∨ m.op = .range)
    (ht : m.type = .tcpSport ∨ m.type = .tcpDport ∨ m.type = .udpSport ∨ m.type = .udpDport)
    (hp : Spec.protoOk v m.type = true) :
    GenT (pktPort m m.type.meta_) (fun _ x => MatchT E gs K (specM E C i v m) x) := by
  have hl : m.type.meta_.layer ≠ .noLayer := by rcases ht with h | h | h | h <;> rw [h] <;> decide
  have hd : m.type ≠ .ip4Dscp ∧ m.type ≠ .ip6Dscp := by
    rcases ht with h | h | h | h <;> rw [h] <;> decide
  have hsz : m.type.meta_.size = 2 := by
    rcases ht with h | h | h | h <;> rw [h] <;> decide
  obtain ⟨h1, h2, h3, h4, h5⟩ := hF.hdr hl hp
  have hmp : m.type ≠ .metaProbability := by
    intro e; rw [e] at hl; simp [MType.meta_] at hl
  have hc : ∀ mk rn, Spec.core i v mk rn C.chain.sets C.thr m =
      some (if m.op = .range then
        decide (Spec.host m.payload 0 2 ≤ Spec.beNat (Spec.fieldOf v m.type) ∧
          Spec.beNat (Spec.fieldOf v m.type) ≤ Spec.host m.payload 2 2)
      else decide (Spec.fieldOf v m.type = m.payload.take 2)) := by
    intro mk rn
    rcases ht with h | h | h | h <;> simp only [Spec.core, h] <;> split <;> rfl
  rw [specM_of hmp (fun w => hc _ _)]
  unfold pktPort
  refine (pktLoad_gen (E := E) (gs := gs) m.type.meta_ h1 hF.sa h4).then ?_
  intro _ x hx
  rw [hsz]
  refine (portCmp_ok (E := E) (gs := gs) (K := K) m hop).mono ?_
  intro _ y hy s hs
  refine hx _ h2 h3 s hs y _ ?_
  rintro s' hs' ⟨hw, hld⟩
  have := hy s' _ hs' (by simp only [List.length_take, List.length_drop]; omega) hld
  rw [hw, ← h5 hd] at this
  exact this

theorem take1_byteAt {bs : List Byte} {o : Nat} (h : o < bs.length) :
    (bs.drop o).take 1 = [Spec.byteAt bs o] := by
  rw [List.drop_eq_getElem_cons h, Spec.byteAt, List.getElem?_eq_getElem h]
  rfl

/-- packet.c:180-204: TCP flags. -/
theorem pktTcpFlags_ok (hF : PktFacts E C K i v cap) (m : Matcher) (ht : m.type = .tcpFlags)
    (hp : Spec.protoOk v m.type = true) :
    GenT (pktTcpFlags m m.type.meta_) (fun _ x => MatchT E gs K (specM E C i v m) x) := by
  have hl : m.type.meta_.layer ≠ .noLayer := by rw [ht]; decide
  obtain ⟨h1, h2, h3, h4, h5⟩ := hF.hdr hl hp
  have hmp : m.type ≠ .metaProbability := by rw [ht]; decide
  have hsz : m.type.meta_.size = 1 := by rw [ht]; rfl
  have hoff : m.type.meta_.off = 13 := by rw [ht]; rfl
  have hh : hdrFor v m.type = v.trans := by rw [ht]; rfl
  rw [hh, hoff, hsz] at h3
  unfold pktTcpFlags
  refine (pktLoad_gen (E := E) (gs := gs) m.type.meta_ h1 hF.sa h4).then ?_
  intro _ x hx
  rw [hh] at h2
  have hx' := hx v.trans h2 (by omega)
  rw [hoff, hsz, take1_byteAt (by omega)] at hx'
  have hld1 : ∀ s, Loaded s [Spec.byteAt v.trans 13] →
      s.r .r1 = .sc (BitVec.ofNat 64 (Spec.byteAt v.trans 13).toNat) := by
    intro s h
    have := h.1
    simpa [leNat] using this
  have bits : m.op = .any ∨ m.op = .all → GenT (do
      let v ← lift (rd m.payload 0 1)
      cmpBitfield m v .r1) (fun _ z => MatchT E gs K (specM E C i v m) (x ++ z)) := by
    intro hop
    refine .thenLift fun p hpv => ?_
    obtain ⟨hpl, hpe⟩ := rd_ok hpv
    have hpe' : p = (Spec.byteAt m.payload 0).toNat := by
      rw [take1_byteAt (by omega)] at hpe
      simpa [leNat] using hpe
    subst hpe'
    refine (cmpBitfield_gen (E := E) (gs := gs) (K := K) m (Spec.byteAt m.payload 0)).mono ?_
    rintro _ y ⟨_, hy⟩ s hs
    refine hx' s hs y _ ?_
    rintro s' hs' ⟨hw, hld⟩
    have := hy s' _ hs' (hld1 _ hld)
    rw [hw] at this
    have hc : ∀ mk rn, Spec.core i v mk rn C.chain.sets C.thr m =
        some (if m.op = .any then decide (Spec.byteAt v.trans 13 &&& Spec.byteAt m.payload 0 ≠ 0)
          else decide (Spec.byteAt v.trans 13 &&& Spec.byteAt m.payload 0 = Spec.byteAt m.payload 0)) := by
      intro mk rn
      rcases hop with h | h <;> simp [Spec.core, ht, h]
    rw [specM_of hmp (fun w => hc _ _)]
    exact this
  cases hop : m.op with
  | any => exact bits (Or.inl hop)
  | all => exact bits (Or.inr hop)
  | in_ => exact GenT.fail _ _
  | range => exact GenT.fail _ _
  | eq =>
    simp only []
    rw [hsz]
    refine (cmpValue_field (E := E) (gs := gs) (K := K) m m.payload 1 (by simp)).mono ?_
    rintro _ y ⟨_, hpl, hy⟩ s hs
    refine hx' s hs y _ ?_
    rintro s' hs' ⟨hw, hld⟩
    have := hy s' _ hs' (by simp) hld
    have hc : ∀ mk rn, Spec.core i v mk rn C.chain.sets C.thr m =
        some (decide (Spec.byteAt v.trans 13 = Spec.byteAt m.payload 0)) := by
      intro mk rn
      simp [Spec.core, ht, hop]
    rw [specM_of hmp (fun w => hc _ _)]
    have e : m.payload.take 1 = [Spec.byteAt m.payload 0] := by
      have := take1_byteAt (bs := m.payload) (o := 0) (by omega)
      simpa using this
    rw [hw, e] at this
    simpa using this

end Bf
