import Verif.Exec.Match3
/-!
# Meaning of the packet matchers' code: flow probability, mark, flow hash; all together
-/
namespace Bf

variable {E : Env} {gs : Groups} {K : Frame} {C : Cfg} {i : Spec.Input} {v : Spec.View}
  {cap : Spec.Capture}

theorem l3Num_cases (v : Spec.View) : v.l3Num = 0 ∨ v.l3Num = 0x0800 ∨ v.l3Num = 0x86DD := by
  unfold Spec.View.l3Num
  split
  · next n _ _ => cases n <;> simp [Spec.Net.etherType]
  · simp

/-- Pointer to the context, as passed to stubs. -/
theorem wp_ctxPtr {d : Reg} {k : Nat} {x : List Item} {Q : Post} {s : St} (hs : Inv K s) (hd : Free K d)
    (hk : k < 1000)
    (hx : wp E gs x 0 Q ((s.set d (.ptr .stack 0)).set d (.ptr .stack ((k : Int) - 248)))) :
    wp E gs (it (mov d .r10) :: it (addi d ((k : Int) - 248)) :: x) 0 Q s := by
  have hd10 : d ≠ .r10 := by intro e; subst e; exact hd
  refine wp_mov hd10 hs.r10 (by simp) ?_
  refine wp_alu (v := .ptr .stack ((k : Int) - 248)) hd10 ?_ hx
  rw [St.set_same]
  simp only [srcVal, aluVal, Int.zero_add]
  congr 2
  rw [BitVec.toInt_signExtend_of_le (by omega), BitVec.toInt_ofInt]
  simp only [Int.bmod]
  omega

/-- meta.c:107-158: probability per flow. -/
theorem metaFlowProbability_ok (hF : PktFacts E C K i v cap) (m : Matcher)
    (ht : m.type = .metaFlowProbability) :
    GenT (metaFlowProbability C m) (fun _ x => MatchT E gs K (specM E C i v m) x) := by
  have hmp : m.type ≠ .metaProbability := by rw [ht]; decide
  have hc : ∀ mk rn, Spec.core i v mk rn C.chain.sets C.thr m =
      if v.l3Num ≠ 0 ∧ (v.l4Num = 6 ∨ v.l4Num = 17) then
      some (decide ((Spec.flowHash v).toNat ≤ (C.thr (Spec.host m.payload 0 4)).toNat))
    else none := by
    intro mk rn; simp only [Spec.core, ht]
  rw [specM_of hmp (fun w => hc _ _)]
  unfold metaFlowProbability
  refine .thenLift fun n hn => ?_
  obtain ⟨hpl, hne⟩ := rd_ok hn
  have hhost : Spec.host m.payload 0 4 = n := hne.symm
  rw [hhost]
  refine .thenEmit (.thenEmit (.thenNext (.thenEmit (.thenEmit (.thenNext (.thenEmits
    (.thenStub (.lastNext ?_))))))))
  intro s hs
  have h8 : K.r8.toNat = v.l4Num := by
    rw [hF.r8]; apply ofNat64_toNat
    have := l4Num_lt v; omega
  have h7 : K.r7.toNat = htobe16 v.l3Num := by
    rw [hF.r7]; apply ofNat64_toNat
    have := htobe16_lt v.l3Num; omega
  have c7 : ∀ k : Nat, k < 65536 → condVal true .eq (s.r .r7) (srcVal s (.k (BitVec.ofNat 32 k))) =
      some (decide (htobe16 v.l3Num = k)) := by
    intro k hk
    rw [hs.r7]; simp only [srcVal, condVal, Cond.holds, sext_small (show k < 2147483648 by omega), h7]
  have c8 : ∀ k : Nat, k < 65536 → condVal true .eq (s.r .r8) (srcVal s (.k (BitVec.ofNat 32 k))) =
      some (decide (v.l4Num = k)) := by
    intro k hk
    rw [hs.r8]; simp only [srcVal, condVal, Cond.holds, sext_small (show k < 2147483648 by omega), h8]
  have final : v.l3Num ≠ 0 → (v.l4Num = 6 ∨ v.l4Num = 17) →
      wp E gs ([mov .r1 .r10, addi .r1 (-248), mov .r2 .r7, mov .r3 .r8].map it ++
        (itF (.stub .flowHash) (.callRel 0) ::
        [itN (.jmp false (if m.negate then .le else .gt) .r0 (.k (C.thr n)) 0)])) 0
        (mpost K (decide ((Spec.flowHash v).toNat ≤ (C.thr n).toNat) != m.negate) s.w) s := by
    intro h3 h4
    simp only [List.map_cons, List.map_nil, List.cons_append, List.nil_append]
    refine wp_ctxPtr (k := 0) hs (d := .r1) trivial (by omega) ?_
    refine wp_mov (v := .sc K.r7) (by simp) (by simpa using hs.r7) (by simp) ?_
    refine wp_mov (v := .sc K.r8) (by simp) (by simpa using hs.r8) (by simp) ?_
    have hi := (((hs.set (d := .r1) (.ptr .stack 0) trivial).set (d := .r1)
      (.ptr .stack (((0 : Nat) : Int) - 248)) trivial).set (d := .r2) (.sc K.r7) trivial).set
      (d := .r3) (.sc K.r8) trivial
    refine wp_stub (stub_flowHash hF hi (by simp [ctxBase]) (by simp) (by simp) h3 h4) ?_
    refine wp_cmpN (hi.ret _) rfl (St.ret_r0 _ _) rfl ?_
    have e1 : (((Spec.flowHash v).setWidth 64).setWidth 32) = Spec.flowHash v := by
      apply BitVec.eq_of_toNat_eq
      have := (Spec.flowHash v).isLt
      simp only [BitVec.toNat_setWidth]; omega
    have e2 : ((C.thr n).signExtend 64).setWidth 32 = C.thr n := by
      apply BitVec.eq_of_getLsbD_eq
      intro j hj
      simp [BitVec.getLsbD_signExtend, hj]
      intro h; omega
    rw [if_neg (by simp), e1, e2]
    by_cases hb : (Spec.flowHash v).toNat ≤ (C.thr n).toNat
    · have hb' : ¬ (C.thr n).toNat < (Spec.flowHash v).toNat := by omega
      cases m.negate <;> simp [Cond.holds, hb, hb']
    · have hb' : (C.thr n).toNat < (Spec.flowHash v).toNat := by omega
      cases m.negate <;> simp [Cond.holds, hb, hb']
  -- transport part
  have mid : v.l3Num ≠ 0 →
      wp E gs (it (.jmp true .eq .r8 (.k 6) 2) :: it (.jmp true .eq .r8 (.k 17) 1) :: itN (.ja 0) ::
        ([mov .r1 .r10, addi .r1 (-248), mov .r2 .r7, mov .r3 .r8].map it ++
        (itF (.stub .flowHash) (.callRel 0) ::
        [itN (.jmp false (if m.negate then .le else .gt) .r0 (.k (C.thr n)) 0)]))) 0
        (mpost K (match (if v.l3Num ≠ 0 ∧ (v.l4Num = 6 ∨ v.l4Num = 17) then
      some (decide ((Spec.flowHash v).toNat ≤ (C.thr n).toNat)) else none : Option Bool) with
        | none => false
        | some x => x != m.negate) s.w) s := by
    intro h3
    refine wp_jmp (c8 6 (by omega)) (by decide) ?_ ?_
    · intro h
      have h : v.l4Num = 6 := by simpa using h
      rw [if_pos (show v.l3Num ≠ 0 ∧ (v.l4Num = 6 ∨ v.l4Num = 17) from ⟨h3, Or.inl h⟩)]
      exact final h3 (Or.inl h)
    · intro h
      have hn6 : v.l4Num ≠ 6 := by simpa using h
      refine wp_jmp (c8 17 (by omega)) (by decide) ?_ ?_
      · intro h
        have h : v.l4Num = 17 := by simpa using h
        rw [if_pos (show v.l3Num ≠ 0 ∧ (v.l4Num = 6 ∨ v.l4Num = 17) from ⟨h3, Or.inr h⟩)]
        exact final h3 (Or.inr h)
      · intro h
        have hn17 : v.l4Num ≠ 17 := by simpa using h
        refine wp_jaN ⟨hs, rfl, ?_⟩
        rw [if_neg (by rintro ⟨_, h | h⟩ <;> contradiction)]
  refine wp_jmp (c7 8 (by omega)) (by decide) ?_ ?_
  · intro h
    refine mid ?_
    intro e; rw [e] at h; simp [htobe16] at h
  · intro h
    refine wp_jmp (c7 0xDD86 (by omega)) (by decide) ?_ ?_
    · intro h
      refine mid ?_
      intro e; rw [e] at h; simp [htobe16] at h
    · intro h'
      refine wp_jaN ⟨hs, rfl, ?_⟩
      rw [if_neg]
      rintro ⟨h0, _⟩
      rcases l3Num_cases v with e | e | e
      · exact h0 e
      · rw [e] at h; simp [htobe16] at h
      · rw [e] at h'; simp [htobe16] at h'

/-- The flavor and the flow hash of the environment are those of the specification's input. -/
structure EnvFacts (E : Env) (C : Cfg) (i : Spec.Input) : Prop where
  flavor : E.flavor = C.chain.hook.flavor
  hash : i.hash = E.hash.toNat

/-- Comparison of the mark, once in `R1`. -/
theorem markCmp_ok (m : Matcher) (ht : m.type = .metaMark) :
    GenT (cmpValue m m.payload 4 .r1) (fun _ x => ∀ s, Inv K s →
      s.r .r1 = .sc (s.w.mark.setWidth 64) →
      wp E gs x 0 (mpost K (specM E C i v m s.w).1 (specM E C i v m s.w).2) s) := by
  have hmp : m.type ≠ .metaProbability := by rw [ht]; decide
  have hc : ∀ mk rn, Spec.core i v mk rn C.chain.sets C.thr m =
      some (decide (mk.toNat = Spec.host m.payload 0 4)) := by
    intro mk rn; simp only [Spec.core, ht]
  rw [specM_of hmp (fun w => hc _ _)]
  refine (cmpValue_small (E := E) (gs := gs) (K := K) m m.payload 4 .r1 (by simp)).mono ?_
  rintro _ x ⟨_, _, hx⟩ s hs hr
  have := hx s _ hs hr
  have e : (s.w.mark.setWidth 64).toNat = s.w.mark.toNat := by
    have := s.w.mark.isLt
    simp only [BitVec.toNat_setWidth]; omega
  rw [e] at this
  exact this

/-- tc.c:84-119, nf.c:132-154, cgroup_skb.c:101-121: mark. -/
theorem flavorMark_ok (hE : EnvFacts E C i) (hF : PktFacts E C K i v cap) (m : Matcher)
    (ht : m.type = .metaMark) :
    GenT (flavorMatcher C m) (fun _ x => MatchT E gs K (specM E C i v m) x) := by
  have skb : E.flavor = .tc ∨ E.flavor = .cgroupSkb → GenT (do
      emit (.ldx .dw .r1 .r10 (ctx oArg))
      emit (.ldxF .w .r1 .r1 .skbMark)
      cmpValue m m.payload 4 .r1) (fun _ x => MatchT E gs K (specM E C i v m) x) := by
    intro hfl
    refine .thenEmit (.thenEmit ?_)
    refine (markCmp_ok (E := E) (gs := gs) (K := K) (C := C) (i := i) (v := v) m ht).mono ?_
    intro _ x hx s hs
    refine wp_ldCtx hs (by simp [oArg]) hF.arg ?_
    refine wp_ldxF (v := .sc (s.w.mark.setWidth 64)) ?_ ?_
    · rw [St.set_same]; rcases hfl with h | h <;> simp [loadF, h]
    · exact hx _ ((hs.set (d := .r1) _ trivial).set (d := .r1) _ trivial) (by simp)
  have hfl := hE.flavor
  unfold flavorMatcher
  rw [ht]
  cases h : C.chain.hook.flavor
  · simp only [packetMatcher, ht]; exact GenT.fail _ _
  · exact skb (Or.inl (by rw [hfl, h]))
  · rw [h] at hfl
    refine .thenEmit (.thenEmit (.thenEmit ?_))
    refine (markCmp_ok (E := E) (gs := gs) (K := K) (C := C) (i := i) (v := v) m ht).mono ?_
    intro _ x hx s hs
    refine wp_ldCtx hs (by simp [oArg]) hF.arg ?_
    refine wp_ldxF (v := .ptr .skb 0) ?_ ?_
    · rw [St.set_same]; simp [loadF, hfl]
    refine wp_ldxF (v := .sc (s.w.mark.setWidth 64)) ?_ ?_
    · rw [St.set_same]; simp [loadF, hfl]
    · exact hx _ (((hs.set (d := .r1) _ trivial).set (d := .r2) _ trivial).set (d := .r1) _ trivial) (by simp)
  · exact skb (Or.inr (by rw [hfl, h]))
  · simp only [packetMatcher, ht]; exact GenT.fail _ _

/-- tc.c:100-116: flow hash. -/
theorem flavorHash_ok (hE : EnvFacts E C i) (hF : PktFacts E C K i v cap) (m : Matcher)
    (ht : m.type = .metaFlowHash) :
    GenT (flavorMatcher C m) (fun _ x => MatchT E gs K (specM E C i v m) x) := by
  have hmp : m.type ≠ .metaProbability := by rw [ht]; decide
  have hc : ∀ mk rn, Spec.core i v mk rn C.chain.sets C.thr m =
      some (if m.op = .range then
        decide (Spec.host m.payload 0 4 ≤ i.hash ∧ i.hash ≤ Spec.host m.payload 4 4)
      else decide (i.hash = Spec.host m.payload 0 4)) := by
    intro mk rn; simp only [Spec.core, ht]; split <;> rfl
  rw [specM_of hmp (fun w => hc _ _)]
  unfold flavorMatcher
  rw [ht]
  have nosup : GenT (packetMatcher C m) (fun _ x => MatchT E gs K (fun w =>
      ((match some (if m.op = .range then
        decide (Spec.host m.payload 0 4 ≤ i.hash ∧ i.hash ≤ Spec.host m.payload 4 4)
      else decide (i.hash = Spec.host m.payload 0 4)) with | none => false | some x => x != m.negate), w)) x) := by
    simp only [packetMatcher, ht]; exact GenT.fail _ _
  have hh := E.hash.isLt
  have e0 : E.hash.setWidth 64 = BitVec.ofNat 64 i.hash := by
    apply BitVec.eq_of_toNat_eq
    rw [hE.hash]
    simp only [BitVec.toNat_setWidth, BitVec.toNat_ofNat]
  cases h : C.chain.hook.flavor
  · exact nosup
  · have hfl := hE.flavor
    rw [h] at hfl
    refine .thenEmit (.thenEmit ?_)
    by_cases hr : m.op = .range
    · simp only [hr, if_true]
      refine .thenLift fun lo hlo => .thenLift fun hi hhi => ?_
      obtain ⟨_, rfl⟩ := rd_ok hlo
      obtain ⟨_, rfl⟩ := rd_ok hhi
      refine (cmpRange_gen (E := E) (gs := gs) (K := K) m _ _ .r0 (leNat4_lt _ _) (leNat4_lt _ _)).mono ?_
      intro _ x hx s hs
      refine wp_ldCtx hs (by simp [oArg]) hF.arg ?_
      refine wp_call (s' := (s.set .r1 (.ptr .ctx 0)).ret (.sc (E.hash.setWidth 64))) (by simp [helper]) ?_
      rw [e0]
      exact hx _ _ ((hs.set (d := .r1) _ trivial).ret _) (by rw [hE.hash]; exact hh) (St.ret_r0 _ _)
    · simp only [hr, if_false]
      refine (cmpValue_small (E := E) (gs := gs) (K := K) m m.payload 4 .r0 (by simp)).mono ?_
      rintro _ x ⟨_, _, hx⟩ s hs
      refine wp_ldCtx hs (by simp [oArg]) hF.arg ?_
      refine wp_call (s' := (s.set .r1 (.ptr .ctx 0)).ret (.sc (E.hash.setWidth 64))) (by simp [helper]) ?_
      have := hx _ _ ((hs.set (d := .r1) (.ptr .ctx 0) trivial).ret (.sc (E.hash.setWidth 64))) (St.ret_r0 _ _)
      rw [e0, ofNat64_toNat (by rw [hE.hash]; omega)] at this
      rw [e0]
      exact this
  · exact nosup
  · exact nosup
  · exact nosup

/-- All matchers but sets. -/
theorem flavorMatcher_ok (hE : EnvFacts E C i) (hF : PktFacts E C K i v cap) (m : Matcher)
    (hwf : MatcherWf m) (hns : m.type ≠ .set) (hp : Spec.protoOk v m.type = true)
    (hnh : m.type = .ip6Nexthdr → C.chain.flagNexthdr = true) :
    GenT (flavorMatcher C m) (fun _ x => MatchT E gs K (specM E C i v m) x) := by
  have hwf' := hwf
  unfold MatcherWf at hwf'
  rw [if_neg hns] at hwf'
  obtain ⟨hnin, hrs, hlen⟩ := hwf'
  by_cases hmk : m.type = .metaMark
  · exact flavorMark_ok hE hF m hmk
  by_cases hfh : m.type = .metaFlowHash
  · exact flavorHash_ok hE hF m hfh
  have e : flavorMatcher C m = packetMatcher C m := by
    unfold flavorMatcher
    split
    · next h => exact absurd h hmk
    · next h => exact absurd h hmk
    · next h => exact absurd h hfh
    · next h => exact absurd h hmk
    · rfl
  rw [e]
  cases ht : m.type <;> simp only [ht, ne_eq, not_true_eq_false] at hns hmk hfh <;>
    (try simp only [ht] at hrs) <;>
    (have hop : m.op = .eq ∨ m.op = .range ∨ m.op = .any ∨ m.op = .all := by
      cases h : m.op <;> simp_all) <;>
    simp only [packetMatcher, ht]
  case metaIface =>
    simp only [metaMatcher, ht]
    exact metaIface_ok hF m ht (by cases h : m.op <;> simp_all [MType.refSize])
  case metaL3Proto => exact metaL3Proto_ok hF m ht
  case metaL4Proto => exact metaL4Proto_ok hF m ht
  case metaProbability =>
    simp only [metaMatcher, ht]
    exact metaProbability_ok m ht
  case metaSport | metaDport =>
    simp only [metaMatcher, ht]
    exact metaPort_ok hF m (by simp [ht]) (by cases h : m.op <;> simp_all [MType.refSize])
  case metaFlowProbability =>
    simp only [metaMatcher, ht]
    exact metaFlowProbability_ok hF m ht
  case ip4Snet | ip4Dnet | ip6Snet | ip6Dnet =>
    have := pktNet_ok (gs := gs) hF m (by simp [ht]) hp
    rwa [ht] at this
  case tcpSport | tcpDport | udpSport | udpDport =>
    have := pktPort_ok (gs := gs) hF m (by cases h : m.op <;> simp_all [MType.refSize]) (by simp [ht]) hp
    rwa [ht] at this
  case tcpFlags =>
    have := pktTcpFlags_ok (gs := gs) hF m ht hp
    rwa [ht] at this
  case ip6Nexthdr =>
    exact pktNexthdr_ok hF m ht (by cases h : m.op <;> simp_all [MType.refSize]) (hnh ht)
  case ip4Dscp =>
    have := pktIp4Dscp_ok (gs := gs) hF m ht (by cases h : m.op <;> simp_all [MType.refSize]) hp
    rwa [ht] at this
  case ip6Dscp =>
    have := pktIp6Dscp_ok (gs := gs) hF m ht (by cases h : m.op <;> simp_all [MType.refSize]) hp
    rwa [ht] at this
  all_goals
    have := pktLoadCmp_ok (gs := gs) hF m (by rw [ht]; decide) hp (by rw [ht]; decide)
      (by intro mk rn; simp only [Spec.core, ht]; rfl)
    rwa [ht] at this

end Bf
