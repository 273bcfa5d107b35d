import Verif.Props.C55_Lines
import Verif.Props.C20_Log
/-!
# C55: what `bfcli chain logs` prints
-/
namespace Bf.Cli
open Spec

theorem verdict_word (v : Verdict) : verdictName (BitVec.ofNat 32 v.code) = (verdictWord v).toList ∧ '\x1b' ∉ (verdictWord v).toList := by
  cases v <;> exact ⟨by decide +kernel, by decide⟩

/-- The times that are printed are those of entries of the first 292 years. -/
theorem stamp {t : Term} {ts : BitVec 64} (hc : ∀ n, '\x1b' ∉ t.clock n) (hts : ts.toNat < 2 ^ 63) :
    ∃ a, StampText t.clock ts.toNat a ∧ '\x1b' ∉ a ∧
      '[' :: (t.clock (ts.toInt.tdiv 1000000000) ++ ('.' :: (padZero 6 ((ts.toInt.tmod 1000000000).tdiv 1000) ++ [']']))) = a := by
  have h1 : ts.toInt = (ts.toNat : Int) := BitVec.toInt_eq_toNat_of_lt (by omega)
  have h2 : ts.toInt.tdiv 1000000000 = ((ts.toNat / 1000000000 : Nat) : Int) := by rw [h1]; rfl
  have h3 : (ts.toInt.tmod 1000000000).tdiv 1000 = ((ts.toNat / 1000 % 1000000 : Nat) : Int) := by
    rw [h1]
    have : ((ts.toNat : Int).tmod 1000000000).tdiv 1000 = ((ts.toNat % 1000000000 / 1000 : Nat) : Int) := rfl
    rw [this]
    congr 1
    omega
  obtain ⟨h4, h5⟩ := padZero_six (n := ts.toNat / 1000 % 1000000) (Nat.mod_lt _ (by decide))
  rw [h2, h3]
  refine ⟨_, ⟨_, h4, h5, ?_⟩, ?_, rfl⟩
  · simp
  · have a := hc ((ts.toNat / 1000000000 : Nat) : Int)
    have b := numeral_not (x := '\x1b') (by decide) h4 (by decide)
    simp only [List.mem_cons, List.mem_append, not_or, List.not_mem_nil, not_false_eq_true, and_true]
    exact ⟨by decide, a, by decide, b, by decide⟩

theorem header_packet {t : Term} {s : LogSlot} {v : Verdict} (hc : ∀ n, '\x1b' ∉ t.clock n) (hts : s.ts.toNat < 2 ^ 63) (hk : s.logType = 0)
    (hv : s.verdict = BitVec.ofNat 32 v.code) : ∃ a, StampText t.clock s.ts.toNat a ∧
      Coloured (logHeader t s) ("\n".toList ++ (a ++ (" Rule #".toList ++ (printNat 10 s.ruleId.toNat ++ (" matched ".toList ++
        (printNat 10 s.pktSize.toNat ++ (" bytes with verdict ".toList ++ ((verdictWord v).toList ++ "\n".toList)))))))) := by
  obtain ⟨a, h1, h2, h3⟩ := stamp (t := t) hc hts
  refine ⟨a, h1, ?_⟩
  have key := coloured_append (coloured_str "\n") (coloured_append (coloured_colour (t := t) (code := "0;96") (by decide)) (coloured_append (coloured_same h2)
    (coloured_append (coloured_colour (t := t) (code := "0") (by decide)) (coloured_append (coloured_str " Rule #") (coloured_append (coloured_num s.ruleId.toNat)
    (coloured_append (coloured_str " matched ") (coloured_append (coloured_paint (t := t) (code := "1;39") (coloured_append (coloured_num s.pktSize.toNat)
      (coloured_str " bytes"))) (coloured_append (coloured_str " with") (coloured_append (coloured_str " verdict ")
      (coloured_append (coloured_same (verdict_word v).2) (coloured_str "\n")))))))))))
  unfold logHeader
  rw [if_pos hk, hv, (verdict_word v).1]
  rw [← h3] at key ⊢
  simpa [str] using key

theorem header_sock {t : Term} {s : LogSlot} {v : Verdict} (hc : ∀ n, '\x1b' ∉ t.clock n) (hts : s.ts.toNat < 2 ^ 63) (hk : s.logType ≠ 0)
    (hv : s.verdict = BitVec.ofNat 32 v.code) : ∃ a, StampText t.clock s.ts.toNat a ∧
      Coloured (logHeader t s) ("\n".toList ++ (a ++ (" Rule #".toList ++ (printNat 10 s.ruleId.toNat ++
        (" verdict ".toList ++ ((verdictWord v).toList ++ "\n".toList)))))) := by
  obtain ⟨a, h1, h2, h3⟩ := stamp (t := t) hc hts
  refine ⟨a, h1, ?_⟩
  have key := coloured_append (coloured_str "\n") (coloured_append (coloured_colour (t := t) (code := "0;96") (by decide)) (coloured_append (coloured_same h2)
    (coloured_append (coloured_colour (t := t) (code := "0") (by decide)) (coloured_append (coloured_str " Rule #") (coloured_append (coloured_num s.ruleId.toNat)
    (coloured_append (coloured_str " verdict ") (coloured_append (coloured_same (verdict_word v).2) (coloured_str "\n"))))))))
  unfold logHeader
  rw [if_neg hk, hv, (verdict_word v).1]
  rw [← h3] at key ⊢
  simpa [str] using key

theorem asked_layer {b : Bool} {x : List Char} {T : List Char → Prop} (h : b = true → Renders x T) : Renders (if b then x else []) (Asked b T) := by
  cases b with
  | false => exact ⟨[], .nil, rfl⟩
  | true => exact h rfl

theorem netNum_ne {v : View} (h : v.l3 = none) : BitVec.ofNat 16 v.l3Num = 0 := by unfold View.l3Num; rw [h]; rfl

/-- The lines of the layers of a packet. -/
theorem layers {E : Env} {chain : Chain} {j : Nat} {q : Rule} {e : LogRec} {t : Term} {s : LogSlot} (hd : Describes E chain j q e) (hs : s.Holds e)
    (hk : chain.hook.flavor ≠ .sockAddr) : ∃ v, understand (inputOf E chain.hook) chain.flagNexthdr = some v ∧
    Renders (if s.reqHeaders.getLsbD 0 then logL2 t s else []) (Asked (q.log.getLsbD 0) (LinkLine (linkHeader E chain.hook))) ∧
    Renders (if s.reqHeaders.getLsbD 1 then logL3 t s else []) (Asked (q.log.getLsbD 1) (OrUnknown "  Internet  : " InetText v.l3)) ∧
    Renders (if s.reqHeaders.getLsbD 2 then logL4 t s else []) (Asked (q.log.getLsbD 2) (OrUnknown "  Transport : " TransText v.l4)) := by
  obtain ⟨v, hv, p3, p4, psz, preq, g2, g3, g4⟩ := hd.packet hk
  obtain ⟨_, sreq, shd, s2, s3, s4⟩ := hs.pkt (hd.kind.mpr hk)
  have r : ∀ i < 4, s.reqHeaders.getLsbD i = q.log.getLsbD i := by
    intro i hi
    rw [sreq, preq, BitVec.getLsbD_setWidth, BitVec.getLsbD_and]
    have : ∀ i < 4, BitVec.getLsbD (15 : BitVec 8) i = true := by decide
    rw [this i hi]
    simp [hi]
  have hb : ∀ i < 4, s.headers.getLsbD i = e.headers.getLsbD i := by
    intro i hi
    rw [shd, BitVec.getLsbD_setWidth]
    simp [hi]
  refine ⟨v, hv, ?_, ?_, ?_⟩
  · rw [r 0 (by decide)]
    refine asked_layer fun ha => ?_
    cases hl : linkHeader E chain.hook with
    | none => exact link_any
    | some h =>
      obtain ⟨k1, k2⟩ := g2.2 ha h hl
      refine link_line (by rw [hb 0 (by decide)]; exact k1) (by rw [← k2]; exact s2) ?_
      unfold linkHeader at hl
      split at hl
      · next hc =>
        cases hl
        have hlk := inputOf_link (E := E) hc.1
        unfold understand at hv
        split at hv
        · unfold Spec.parse at hv
          rw [hlk] at hv
          simp only at hv
          cases hby : bytesAt (inputOf E chain.hook).bytes 0 14 with
          | none => rw [hby] at hv; cases hv
          | some b =>
            unfold bytesAt at hby
            split at hby
            · next hlen =>
              have : (inputOf E chain.hook).bytes = E.pkt := by
                unfold inputOf; rcases hc.1 with hf | hf <;> rw [hf]
              rw [this] at hlen
              simp only [List.length_take]
              omega
            · cases hby
        · cases hv
      · cases hl
  · rw [r 1 (by decide)]
    refine asked_layer fun ha => ?_
    cases hl : v.l3 with
    | none => exact net_absent (by rw [hs.l3Proto, p3, netNum_ne hl])
    | some p =>
      obtain ⟨n, h⟩ := p
      obtain ⟨k1, k2⟩ := g3.2 ha h (by rw [hl]; rfl)
      obtain ⟨off, h5, h6⟩ := (found_l3 hv n h).mp hl
      have hlen : h.length = n.hdrLen := by
        rw [h6]; unfold Spec.slice; have := h5.2; simp only [Spec.Proto.hdrLen] at this; simp; omega
      have hn : s.l3Proto = BitVec.ofNat 16 n.etherType := by rw [hs.l3Proto, p3]; unfold View.l3Num; rw [hl]
      have hbit : s.headers.getLsbD 1 = true := by rw [hb 1 (by decide)]; exact k1
      rw [k2] at s3
      cases n with
      | ip4 => exact net_line4 hbit hn s3 hlen
      | ip6 => exact net_line6 hbit hn s3 hlen
  · rw [r 2 (by decide)]
    refine asked_layer fun ha => ?_
    cases hl : v.l4 with
    | none => exact trans_absent (by rw [hs.l4Proto, p4]; unfold View.l4Num; rw [hl]; rfl)
    | some p =>
      obtain ⟨n, h⟩ := p
      obtain ⟨k1, k2⟩ := g4.2 ha h (by rw [hl]; rfl)
      obtain ⟨off, h5, h6⟩ := (found_l4 hv n h).mp hl
      have hlen : h.length = n.hdrLen := by
        rw [h6]; unfold Spec.slice; have := h5.2; simp only [Spec.Proto.hdrLen] at this; simp; omega
      have hn : s.l4Proto = BitVec.ofNat 8 n.num := by rw [hs.l4Proto, p4]; unfold View.l4Num; rw [hl]
      have hbit : s.headers.getLsbD 2 = true := by rw [hb 2 (by decide)]; exact k1
      rw [k2] at s4
      cases n with
      | tcp => exact trans_tcp hbit hn s4 hlen
      | udp => exact trans_udp hbit hn s4 hlen
      | icmp => exact trans_icmp hbit hn s4 hlen
      | icmp6 => exact trans_icmp6 hbit hn s4 hlen

/-- **C55**, packets.  What is printed of an entry that a chain published for a packet is, but for colours: when, the number and the verdict of the rule,
the size of the packet; then, for each layer the rule asks for, the addresses, ports and other fields of the header that the packet has, or that it is
unknown.  (For the link layer, only where the program reads the frame in place: see `C55_link`.) -/
theorem C55_packet_partial {E : Env} {chain : Chain} {j : Nat} {q : Rule} {e : LogRec} {t : Term} {s : LogSlot} (hd : Describes E chain j q e)
    (hs : s.Holds e) (hk : chain.hook.flavor ≠ .sockAddr) (hc : ∀ n, '\x1b' ∉ t.clock n) (hts : e.ts.toNat < 2 ^ 63) (hj : j < 2 ^ 32) :
    ∃ v u, understand (inputOf E chain.hook) chain.flagNexthdr = some v ∧ Coloured (printLog t s) u ∧
      PacketReport t.clock e.ts.toNat j q.verdict (inputOf E chain.hook).size.toNat
        (Asked (q.log.getLsbD 0) (LinkLine (linkHeader E chain.hook))) (Asked (q.log.getLsbD 1) (OrUnknown "  Internet  : " InetText v.l3))
        (Asked (q.log.getLsbD 2) (OrUnknown "  Transport : " TransText v.l4)) u := by
  obtain ⟨v, hv, ⟨l, l1, l2⟩, ⟨n, n1, n2⟩, ⟨r, r1, r2⟩⟩ := layers (t := t) hd hs hk
  have hkind : e.isPkt = true := hd.kind.mpr hk
  have hty : s.logType = 0 := by rw [hs.logType, hkind]; rfl
  obtain ⟨v', hv', _, _, psz, _⟩ := hd.packet hk
  have ssz := (hs.pkt hkind).1
  obtain ⟨a, a1, a2⟩ := header_packet (t := t) (s := s) (v := q.verdict) hc (by rw [hs.ts]; exact hts) hty (by rw [hs.verdict, hd.verdict])
  have hru : s.ruleId.toNat = j := by rw [hs.ruleId, hd.rule, BitVec.toNat_ofNat]; exact Nat.mod_eq_of_lt hj
  rw [hru, ssz, psz] at a2
  rw [hs.ts] at a1
  refine ⟨v, _, hv, ?_, a, printNat 10 j, printNat 10 (inputOf E chain.hook).size.toNat, l, n, r, a1, numeral_print _, numeral_print _, l2, n2, r2, rfl⟩
  unfold printLog
  rw [if_pos hty]
  have key := coloured_append a2 (coloured_append l1 (coloured_append n1 r1))
  simpa using key

end Bf.Cli
