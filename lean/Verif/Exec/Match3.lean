import Verif.Exec.Match2
/-!
# Meaning of the packet matchers' code: protocols, ports, flow hash, mark
-/
namespace Bf

variable {E : Env} {gs : Groups} {K : Frame} {C : Cfg} {i : Spec.Input} {v : Spec.View}
  {cap : Spec.Capture}

theorem htobe16_lt (n : Nat) : htobe16 n < 65536 := by unfold htobe16; omega

theorem htobe16_inj {a b : Nat} (ha : a < 65536) (hb : b < 65536) : htobe16 a = htobe16 b ↔ a = b := by
  unfold htobe16; omega

/-- meta.c:166-175: network protocol. -/
theorem metaL3Proto_ok (hF : PktFacts E C K i v cap) (m : Matcher) (ht : m.type = .metaL3Proto) :
    GenT (metaMatcher C m) (fun _ x => MatchT E gs K (specM E C i v m) x) := by
  have hmp : m.type ≠ .metaProbability := by rw [ht]; decide
  have hc : ∀ mk rn, Spec.core i v mk rn C.chain.sets C.thr m =
      some (decide (v.l3Num = Spec.host m.payload 0 2)) := by
    intro mk rn; simp only [Spec.core, ht]
  rw [specM_of hmp (fun w => hc _ _)]
  unfold metaMatcher
  rw [ht]
  refine .thenLift fun n hn => ?_
  obtain ⟨hpl, hne⟩ := rd_ok hn
  have hhost : Spec.host m.payload 0 2 = n := hne.symm
  have hn16 : n < 65536 := by rw [hne]; exact leNat2_lt _ _
  refine (cmpValue_small (E := E) (gs := gs) (K := K) m (leBytes 2 (htobe16 n)) 2 .r7 (by simp)).mono ?_
  rintro _ x ⟨_, _, hx⟩ s hs
  have := hx s _ hs hs.r7
  rw [List.take_of_length_le (by simp), leNat_leBytes, hF.r7,
    ofNat64_toNat (by have := htobe16_lt v.l3Num; omega)] at this
  have hi : (htobe16 v.l3Num = htobe16 n % 256 ^ 2) ↔ (v.l3Num = n) := by
    have h1 := htobe16_lt n
    rw [Nat.mod_eq_of_lt (by omega)]
    exact htobe16_inj (l3Num_lt v) hn16
  simp only [hi] at this
  rw [hhost]
  exact this

/-- meta.c:176-177: transport protocol. -/
theorem metaL4Proto_ok (hF : PktFacts E C K i v cap) (m : Matcher) (ht : m.type = .metaL4Proto) :
    GenT (metaMatcher C m) (fun _ x => MatchT E gs K (specM E C i v m) x) := by
  have hmp : m.type ≠ .metaProbability := by rw [ht]; decide
  have hc : ∀ mk rn, Spec.core i v mk rn C.chain.sets C.thr m =
      some (decide (v.l4Num = Spec.host m.payload 0 1)) := by
    intro mk rn; simp only [Spec.core, ht]
  rw [specM_of hmp (fun w => hc _ _)]
  unfold metaMatcher
  rw [ht]
  refine (cmpValue_small (E := E) (gs := gs) (K := K) m m.payload 1 .r8 (by simp)).mono ?_
  rintro _ x ⟨_, _, hx⟩ s hs
  have := hx s _ hs hs.r8
  rw [hF.r8, ofNat64_toNat (by have := l4Num_lt v; omega)] at this
  exact this

theorem beNat2_zero {bs : List Byte} (h : bs.length = 2) : leNat bs = 0 ↔ Spec.beNat bs = 0 := by
  match bs, h with
  | [a, b], _ =>
    simp only [leNat, Spec.beNat, List.foldl]
    omega

/-- meta.c:65-105: ports of any transport protocol. -/
theorem metaPort_ok (hF : PktFacts E C K i v cap) (m : Matcher)
    (ht : m.type = .metaSport ∨ m.type = .metaDport) (hop : m.op = .eq ∨ m.op = .range) :
    GenT (metaPort m) (fun _ x => MatchT E gs K (specM E C i v m) x) := by
  have hmp : m.type ≠ .metaProbability := by rcases ht with h | h <;> rw [h] <;> decide
  have hc : ∀ mk rn, Spec.core i v mk rn C.chain.sets C.thr m =
      if (v.l4Num = 6 ∨ v.l4Num = 17) ∧ Spec.beNat (Spec.fieldOf v m.type) ≠ 0 then
      some (if m.op = .range then
        decide (Spec.host m.payload 0 2 ≤ Spec.beNat (Spec.fieldOf v m.type) ∧
          Spec.beNat (Spec.fieldOf v m.type) ≤ Spec.host m.payload 2 2)
      else decide (Spec.fieldOf v m.type = m.payload.take 2)) else none := by
    intro mk rn
    rcases ht with h | h <;> simp only [Spec.core, h] <;> split <;> (try split) <;> rfl
  rw [specM_of hmp (fun w => hc _ _)]
  obtain ⟨o, ho, ho2, hfo⟩ : ∃ o : Nat, (if m.type = .metaSport then (0 : Int) else 2) = (o : Int) ∧
      o ≤ 2 ∧ Spec.fieldOf v m.type = (v.trans.drop o).take 2 := by
    rcases ht with h | h
    · exact ⟨0, by rw [h]; rfl, by omega, by rw [h]; rfl⟩
    · exact ⟨2, by rw [h]; rfl, by omega, by rw [h]; rfl⟩
  unfold metaPort
  simp only [ho]
  refine .thenEmit ?_
  refine (GenT.of_emits (emits_swich2 _ _ _ _ _ _)).then ?_
  intro _ x hx
  subst hx
  refine .thenNext ?_
  refine (portCmp_ok (E := E) (gs := gs) (K := K) m hop).mono ?_
  intro _ y hy s hs
  have hfree : Free K .r6 := hF.sa
  have h8 : K.r8.toNat = v.l4Num := by
    rw [hF.r8]; apply ofNat64_toNat
    have := l4Num_lt v; omega
  have h8eq : ∀ n : Nat, n < 256 → (K.r8 = (BitVec.ofNat 32 n).signExtend 64 ↔ v.l4Num = n) := by
    intro n hn
    rw [← BitVec.toNat_inj, sext_small (by omega), h8]
  obtain ⟨p0, hp0⟩ := hF.l4any
  -- the case of a protocol with ports
  have ported : ∀ t : Spec.Trans, (t = .tcp ∨ t = .udp) → v.l4Num = t.num →
      ∃ s', effect E (s.set .r6 p0) (.ldx .h .r1 .r6 (o : Int)) = .seq s' ∧
        wp E gs (itN (.jmp true .eq .r1 (.k 0) 0) :: y) 0
          (mpost K (match (if (v.l4Num = 6 ∨ v.l4Num = 17) ∧ Spec.beNat (Spec.fieldOf v m.type) ≠ 0 then
      some (if m.op = .range then
        decide (Spec.host m.payload 0 2 ≤ Spec.beNat (Spec.fieldOf v m.type) ∧
          Spec.beNat (Spec.fieldOf v m.type) ≤ Spec.host m.payload 2 2)
      else decide (Spec.fieldOf v m.type = m.payload.take 2)) else none : Option Bool) with
        | none => false
        | some x => x != m.negate) s.w) s' := by
    intro t htt hnum
    obtain ⟨hlen, p, hp1, hp2⟩ := hF.trans hnum
    have hp : p0 = p := by rw [hp0] at hp1; exact Option.some.inj hp1
    subst hp
    have hlen8 : 8 ≤ v.trans.length := by
      rcases htt with rfl | rfl <;> simp only [Spec.Trans.hdrLen] at hlen <;> omega
    have hl4 : v.l4Num = 6 ∨ v.l4Num = 17 := by
      rcases htt with rfl | rfl <;> simp only [Spec.Trans.num] at hnum <;> simp [hnum]
    have hs6 : Inv K (s.set .r6 p0) := hs.set _ hfree
    refine ⟨(s.set .r6 p0).set .r1 (.sc (BitVec.ofNat 64 (leNat ((v.trans.drop o).take 2)))), ?_, ?_⟩
    · have := hp2 (s.set .r6 p0) hs6 o 2 (by omega) (by omega)
      simp only [effect, St.set_same, Size.bytes, this]
    have hfl : (Spec.fieldOf v m.type).length = 2 := by
      rw [hfo]; simp only [List.length_take, List.length_drop]; omega
    rw [← hfo]
    have hlt : leNat (Spec.fieldOf v m.type) < 65536 := by rw [hfo]; exact leNat2_lt _ _
    have hs1 := hs6.set (d := .r1) (.sc (BitVec.ofNat 64 (leNat (Spec.fieldOf v m.type)))) trivial
    have hz := beNat2_zero hfl
    refine wp_jmpN (b := decide (leNat (Spec.fieldOf v m.type) = 0)) ?_ ?_ ?_
    · rw [St.set_same]
      simp only [srcVal, condVal, Cond.holds, ofNat64_toNat (Nat.lt_trans hlt (by decide))]
      rfl
    · intro h
      have h0 : Spec.beNat (Spec.fieldOf v m.type) = 0 := hz.mp (by simpa using h)
      refine ⟨hs1, rfl, ?_⟩
      rw [if_neg (by rintro ⟨_, hh⟩; exact hh h0)]
    · intro h
      have h0 : Spec.beNat (Spec.fieldOf v m.type) ≠ 0 := by
        intro e; have := hz.mpr e; simp [this] at h
      rw [if_pos ⟨hl4, h0⟩]
      refine hy _ _ hs1 hfl ⟨?_, by intro h; omega⟩
      rw [List.take_of_length_le (by omega)]; exact St.set_same _ _ _
  refine wp_ldCtx hs (by simp [oL4Hdr]) hp0 ?_
  have hr8 : (s.set .r6 p0).r .r8 = .sc K.r8 := by
    rw [St.set_other _ _ _ _ (by simp)]; exact hs.r8
  simp only [List.append_assoc, List.singleton_append]
  refine wp_swich2 hr8 ?_ ?_ ?_
  · intro h
    exact ported .tcp (Or.inl rfl) ((h8eq 6 (by omega)).mp h)
  · intro _ h
    exact ported .udp (Or.inr rfl) ((h8eq 17 (by omega)).mp h)
  · intro h1 h2
    refine ⟨(s.set .r6 p0).set .r1 (.sc 0), by simp [movi, effect, aluVal, srcVal], ?_⟩
    refine wp_jmpN (b := true) (by simp [srcVal, condVal, Cond.holds]) ?_ (by simp)
    intro _
    refine ⟨(hs.set _ hfree).set (d := .r1) _ trivial, rfl, ?_⟩
    rw [if_neg]
    rintro ⟨h | h, _⟩
    · exact h1 ((h8eq 6 (by omega)).mpr h)
    · exact h2 ((h8eq 17 (by omega)).mpr h)

theorem flowL3_congr {f g : Int → Option (BitVec 32)} {l3 : BitVec 16} {l4 : BitVec 8} {n : Nat}
    (h : ∀ o : Nat, o + 4 ≤ n → f o = g o) (h4 : l3 = 0x0008 → 20 ≤ n) (h6 : l3 = 0xDD86 → 40 ≤ n) :
    flowL3 f l3 l4 = flowL3 g l3 l4 := by
  unfold flowL3
  split
  · next e =>
    have := h4 e
    rw [show f 12 = g 12 from h 12 (by omega), show f 16 = g 16 from h 16 (by omega)]
  · split
    · next e =>
      have := h6 e
      rw [show f 8 = g 8 from h 8 (by omega), show f 12 = g 12 from h 12 (by omega),
        show f 16 = g 16 from h 16 (by omega), show f 20 = g 20 from h 20 (by omega),
        show f 24 = g 24 from h 24 (by omega), show f 28 = g 28 from h 28 (by omega),
        show f 32 = g 32 from h 32 (by omega), show f 36 = g 36 from h 36 (by omega),
        show f 0 = g 0 from h 0 (by omega)]
    · rfl

theorem sw16_64 {n : Nat} : (BitVec.ofNat 64 n).setWidth 16 = BitVec.ofNat 16 n := by
  apply BitVec.eq_of_toNat_eq
  simp only [BitVec.toNat_setWidth, BitVec.toNat_ofNat]
  omega

theorem sw8_64 {n : Nat} : (BitVec.ofNat 64 n).setWidth 8 = BitVec.ofNat 8 n := by
  apply BitVec.eq_of_toNat_eq
  simp only [BitVec.toNat_setWidth, BitVec.toNat_ofNat]
  omega

/-- Loads from the context through a stub's pointer. -/
theorem Inv.loadCtx {s : St} (h : Inv K s) {fld n : Nat} (hn : fld + n ≤ 184) :
    Bf.load E s (.ptr .stack ctxBase) fld n = valOf (K.base.get (ctx fld) n) := by
  have := h.load (E := E) (o := ctx fld) (n := n) (by simp only [ctx]; omega) (by simp only [ctx]; omega)
  rw [← this, h.r10]
  have e : ctxBase + (fld : Int) = 0 + ctx fld := by simp only [ctx, ctxBase]; omega
  unfold Bf.load
  simp only [e]

/-- bpf/flow_hash.bpf.c: the flow hash stub. -/
theorem stub_flowHash (hF : PktFacts E C K i v cap) {s : St} (hs : Inv K s)
    (h1 : s.r .r1 = .ptr .stack ctxBase) (h2 : s.r .r2 = .sc K.r7) (h3 : s.r .r3 = .sc K.r8)
    (hl3 : v.l3Num ≠ 0) (hl4 : v.l4Num = 6 ∨ v.l4Num = 17) :
    stubSem E s .flowHash = some (s.ret (.sc ((Spec.flowHash v).setWidth 64))) := by
  obtain ⟨n, hn⟩ : ∃ n : Spec.Net, v.l3Num = n.etherType := by
    unfold Spec.View.l3Num at hl3 ⊢
    split
    · next n _ h => exact ⟨n, rfl⟩
    · next h => rw [h] at hl3; exact absurd rfl hl3
  obtain ⟨t, ht, htn⟩ : ∃ t : Spec.Trans, v.l4Num = t.num ∧ 8 ≤ t.hdrLen := by
    rcases hl4 with h | h
    · exact ⟨.tcp, h, by decide⟩
    · exact ⟨.udp, h, by decide⟩
  obtain ⟨len3, p3, hp3, hd3⟩ := hF.net hn
  obtain ⟨len4, p4, hp4, hd4⟩ := hF.trans ht
  have ld3 : load E s (.ptr .stack ctxBase) 88 8 = some p3 := by
    have := hs.loadCtx (E := E) (fld := 88) (n := 8) (by omega)
    exact this.trans hp3
  have ld4 : load E s (.ptr .stack ctxBase) 96 8 = some p4 := by
    have := hs.loadCtx (E := E) (fld := 96) (n := 8) (by omega)
    exact this.trans hp4
  have e8 : K.r8.setWidth 8 = BitVec.ofNat 8 v.l4Num := by rw [hF.r8, sw8_64]
  have e7 : K.r7.setWidth 16 = BitVec.ofNat 16 (if v.l3Num = 0x0800 then 0x0008 else
      if v.l3Num = 0x86DD then 0xDD86 else 0) := by
    rw [hF.r7, sw16_64, hn]; cases n <;> rfl
  simp only [stubSem, h1, ne_eq, not_true_eq_false, if_false, regSc, h2, h3, ld3, ld4,
    Option.bind_some, e7, e8]
  have c3 : flowL3 (fun o => (loadSc E s p3 o 4).map (·.setWidth 32))
      (BitVec.ofNat 16 (if v.l3Num = 0x0800 then 0x0008 else if v.l3Num = 0x86DD then 0xDD86 else 0))
      (BitVec.ofNat 8 v.l4Num) =
      flowL3 (fun o => some (BitVec.ofNat 32 (leNat ((v.net.drop o.toNat).take 4))))
      (BitVec.ofNat 16 (if v.l3Num = 0x0800 then 0x0008 else if v.l3Num = 0x86DD then 0xDD86 else 0))
      (BitVec.ofNat 8 v.l4Num) := by
    refine flowL3_congr (n := v.net.length) ?_ ?_ ?_
    · intro o ho
      simp only [loadSc, hd3 s hs o 4 ho (by omega), Option.map_some, sw32_64, Int.toNat_natCast]
    · intro e; rw [len3]; cases n <;> simp [Spec.Net.hdrLen]
    · intro e; rw [len3]
      rw [hn] at e
      cases n
      · simp [Spec.Net.etherType] at e
      · simp [Spec.Net.hdrLen]
  rw [c3]
  have c4 : ∀ h, flowL4 (fun o => (loadSc E s p4 o 2).map (·.setWidth 16)) (BitVec.ofNat 8 v.l4Num) h =
      flowL4 (fun o => some (BitVec.ofNat 16 (leNat ((v.trans.drop o.toNat).take 2))))
        (BitVec.ofNat 8 v.l4Num) h := by
    intro h
    have a := hd4 s hs 0 2 (by omega) (by omega)
    have b := hd4 s hs 2 2 (by omega) (by omega)
    have a' : loadSc E s p4 0 2 = some (BitVec.ofNat 64 (leNat ((v.trans.drop 0).take 2))) := by
      unfold loadSc; erw [a]
    have b' : loadSc E s p4 2 2 = some (BitVec.ofNat 64 (leNat ((v.trans.drop 2).take 2))) := by
      unfold loadSc; erw [b]
    unfold flowL4
    split
    · simp only [a', b', Option.map_some, sw16_64]; rfl
    · rfl
  simp only [c4]
  unfold Spec.flowHash
  simp only []
  have hsome : ∀ l3 l4 (f : Int → BitVec 32) (g : Int → BitVec 16),
      ∃ x, (flowL3 (fun o => some (f o)) l3 l4).bind (flowL4 (fun o => some (g o)) l4) = some x := by
    intro l3 l4 f g
    simp only [flowL3, flowL4]
    have h4 : ∀ y, ∃ x, (if l4 = 6 ∨ l4 = 17 then
        (some (g 0)).bind fun sp => (some (g 2)).map fun dp =>
          y ^^^ ((sp.setWidth 32 <<< 16) ||| dp.setWidth 32)
        else some y) = some x := by
      intro y
      split
      · exact ⟨_, rfl⟩
      · exact ⟨_, rfl⟩
    by_cases ha : l3 = 0x0008
    · simp only [ha, if_true, Option.bind_some, Option.map_some]; exact h4 _
    · by_cases hb : l3 = 0xDD86
      · simp only [hb, if_true, Option.bind_some, Option.map_some]; exact h4 _
      · simp only [ha, hb, if_false, Option.bind_some]; exact h4 _
  obtain ⟨x, hx⟩ := hsome (BitVec.ofNat 16 (if v.l3Num = 0x0800 then 0x0008 else if v.l3Num = 0x86DD then 0xDD86 else 0))
    (BitVec.ofNat 8 v.l4Num) (fun o => BitVec.ofNat 32 (leNat ((v.net.drop o.toNat).take 4)))
    (fun o => BitVec.ofNat 16 (leNat ((v.trans.drop o.toNat).take 2)))
  rw [hx]
  cases h3 : flowL3 (fun o => some (BitVec.ofNat 32 (leNat ((v.net.drop o.toNat).take 4))))
    (BitVec.ofNat 16 (if v.l3Num = 0x0800 then 0x0008 else if v.l3Num = 0x86DD then 0xDD86 else 0))
    (BitVec.ofNat 8 v.l4Num) with
  | none => rw [h3] at hx; simp at hx
  | some y =>
    rw [h3, Option.bind_some] at hx
    rw [Option.bind_some, hx]
    rfl

end Bf
