import Verif.Exec.SetMap
import Verif.Exec.Match4
/-!
# Meaning of the code of set matchers
-/
namespace Bf

variable {E : Env} {gs : Groups} {K : Frame} {C : Cfg} {i : Spec.Input} {v : Spec.View}
  {cap : Spec.Capture}

/-- Two consecutive writes. -/
theorem Stack.put_put (m : Stack) (o : Int) (a b : List Cell) :
    (m.put o a).put (o + a.length) b = m.put o (a ++ b) := by
  funext x
  by_cases h1 : x < o
  · rw [Stack.put_out _ _ _ _ (by omega), Stack.put_out _ _ _ _ (by omega), Stack.put_out _ _ _ _ (by omega)]
  by_cases h2 : x < o + a.length
  · rw [Stack.put_out _ _ _ _ (by omega)]
    obtain ⟨k, rfl⟩ : ∃ k : Nat, x = o + k := ⟨(x - o).toNat, by omega⟩
    rw [Stack.put_in _ _ _ k (by omega), Stack.put_in _ _ _ k (by simp; omega)]
    rw [List.getElem_append_left (by omega)]
  by_cases h3 : x < o + a.length + b.length
  · obtain ⟨k, rfl⟩ : ∃ k : Nat, x = o + a.length + k := ⟨(x - o - a.length).toNat, by omega⟩
    rw [Stack.put_in _ _ _ k (by omega)]
    have e : o + (a.length : Int) + (k : Int) = o + ((a.length + k : Nat) : Int) := by omega
    rw [e, Stack.put_in _ _ _ (a.length + k) (by simp; omega)]
    rw [List.getElem_append_right (by omega)]
    congr 1
    omega
  · rw [Stack.put_out _ _ _ _ (by omega), Stack.put_out _ _ _ _ (by omega),
      Stack.put_out _ _ _ _ (by simp; omega)]

theorem Stack.put_nil (m : Stack) (o : Int) : m.put o [] = m := by
  funext x; exact Stack.put_out _ _ _ _ (by simp; omega)

theorem copySize_le {src : Nat} {dst : Int} {rem : Nat} (h : rem ≠ 0) :
    1 ≤ (copySize src dst rem).bytes ∧ (copySize src dst rem).bytes ≤ rem := by
  unfold copySize
  split
  · simp only [Size.bytes]; omega
  · split
    · simp only [Size.bytes]; omega
    · split <;> simp only [Size.bytes] <;> omega

/-- stub.c:442-478: copy of `rem` bytes of a header into the scratch area. -/
theorem stubLoad_gen (fuel src rem : Nat) (dst : Int) (hf : rem ≤ fuel) (hlo : -64 ≤ dst)
    (hhi : dst + rem ≤ 0) :
    GenT (stubLoad fuel src rem dst) (fun _ x => ∀ p bs, HdrAt E K p bs → src + rem ≤ bs.length →
      ∀ s, Inv K s → s.r .r6 = p → ∀ z Q,
      (∀ s', Inv K s' → s'.r .r6 = p → s'.w = s.w →
        s'.stk = s.stk.put dst (((bs.drop src).take rem).map .byte) → wp E gs z 0 Q s') →
      wp E gs (x ++ z) 0 Q s) := by
  induction fuel generalizing src rem dst with
  | zero =>
    have : rem = 0 := by omega
    subst this
    refine .lastPure ?_
    intro p bs _ _ s hs h6 z Q hz
    exact hz s hs h6 rfl (by simp [Stack.put_nil])
  | succ fuel ih =>
    unfold stubLoad
    by_cases h0 : rem = 0
    · rw [if_pos h0]
      subst h0
      refine .lastPure ?_
      intro p bs _ _ s hs h6 z Q hz
      exact hz s hs h6 rfl (by simp [Stack.put_nil])
    · rw [if_neg h0]
      obtain ⟨h1, h2⟩ := copySize_le (src := src) (dst := dst) h0
      generalize copySize src dst rem = sz at h1 h2
      refine .thenEmit (.thenEmit ?_)
      refine (ih (src + sz.bytes) (rem - sz.bytes) (dst + sz.bytes) (by omega) (by omega) (by omega)).mono ?_
      intro _ x hx p bs hp hlen s hs h6 z Q hz
      simp only [List.cons_append]
      refine wp_ldHdr hs hp h6 (by omega) ?_
      have hs1 := hs.set (d := .r1) (.sc (BitVec.ofNat 64 (leNat ((bs.drop src).take sz.bytes)))) trivial
      have hst := hs1.storeScr (E := E) (o := dst) (n := sz.bytes)
        (BitVec.ofNat 64 (leNat ((bs.drop src).take sz.bytes))) hlo (by omega)
      refine wp_stx (by rw [St.set_same]; exact hst) ?_
      have hbl : ((bs.drop src).take sz.bytes).length = sz.bytes := by
        simp only [List.length_take, List.length_drop]; omega
      have hby : leBytes sz.bytes (BitVec.ofNat 64 (leNat ((bs.drop src).take sz.bytes))).toNat =
          (bs.drop src).take sz.bytes := by
        rw [ofNat64_toNat]
        · have := leBytes_leNat ((bs.drop src).take sz.bytes)
          rw [hbl] at this; exact this
        · refine Nat.lt_of_lt_of_le (leNat_lt _) ?_
          rw [hbl]
          have : sz.bytes ≤ 8 := by cases sz <;> decide
          calc 256 ^ sz.bytes ≤ 256 ^ 8 := Nat.pow_le_pow_right (by omega) this
            _ ≤ 2 ^ 64 := by decide
      rw [hby]
      refine hx p bs hp (by omega) _ (hs1.put _ hlo) (by simpa using h6) z Q ?_
      intro s' i1 i2 i3 i4
      refine hz s' i1 i2 i3 ?_
      rw [i4]
      simp only [St.set_stk]
      have e : dst + (sz.bytes : Int) = dst + ((((bs.drop src).take sz.bytes).map Cell.byte).length : Int) := by
        simp only [List.length_map, hbl]
      rw [e, Stack.put_put, ← List.map_append]
      congr 2
      rw [← List.drop_drop]
      have : rem = sz.bytes + (rem - sz.bytes) := by omega
      conv => rhs; rw [this]
      exact (List.take_add ..).symm

theorem scratchBytes {s : St} (hs : Inv K s) {o : Int} {n : Nat} (h1 : -64 ≤ o) (h2 : o + n ≤ 0) :
    ∃ bs, stackBytes s o n = some bs ∧ bs.length = n := by
  have key : ∀ (n : Nat) (o : Int), -64 ≤ o → o + n ≤ 0 →
      ∃ bs, cellBytes (s.stk.get o n) = some bs ∧ bs.length = n := by
    intro n
    induction n with
    | zero => intro o _ _; exact ⟨[], rfl, rfl⟩
    | succ n ih =>
      intro o h1 h2
      obtain ⟨b, hb⟩ := hs.scr o h1 (by omega)
      obtain ⟨bs, h3, h4⟩ := ih (o + 1) (by omega) (by omega)
      refine ⟨b :: bs, ?_, by simp [h4]⟩
      simp only [Stack.get, hb, cellBytes, h3, Option.map_some]
  obtain ⟨bs, h3, h4⟩ := key n o h1 h2
  refine ⟨bs, ?_, h4⟩
  unfold stackBytes
  rw [if_pos (by have : stackSize = 248 := rfl; omega), h3]

/-- Bytes just written at the start of a range that is read. -/
theorem stackBytes_put {s : St} (hs : Inv K s) {o : Int} {bs : List Byte} {n : Nat} (h1 : -64 ≤ o)
    (h2 : o + n ≤ 0) (hn : bs.length ≤ n) (st : Stack) (hst : s.stk = st.put o (bs.map .byte)) :
    ∃ g, stackBytes s o n = some (bs ++ g) ∧ (bs ++ g).length = n := by
  obtain ⟨b2, hb2, hl⟩ := scratchBytes hs h1 h2
  refine ⟨b2.drop bs.length, ?_⟩
  have : b2 = bs ++ b2.drop bs.length := by
    have hc : cellBytes (s.stk.get o n) = some b2 := by
      unfold stackBytes at hb2
      rw [if_pos (by have : stackSize = 248 := rfl; omega)] at hb2
      exact hb2
    have hsplit : s.stk.get o n = s.stk.get o bs.length ++ s.stk.get (o + bs.length) (n - bs.length) := by
      have gadd : ∀ (a b : Nat) (o : Int), s.stk.get o (a + b) = s.stk.get o a ++ s.stk.get (o + a) b := by
        intro a
        induction a with
        | zero => intro b o; simp [Stack.get]
        | succ a ih =>
          intro b o
          have e : a + 1 + b = (a + b) + 1 := by omega
          have e2 : o + ((a + 1 : Nat) : Int) = o + 1 + (a : Int) := by omega
          rw [e, e2]
          simp only [Stack.get, ih, List.cons_append]
      have e : n = bs.length + (n - bs.length) := by omega
      conv => lhs; rw [e]
      exact gadd _ _ _
    have hfirst : s.stk.get o bs.length = bs.map .byte := by
      rw [hst]; exact Stack.get_put_same _ _ _ _ (by simp)
    rw [hsplit, hfirst, cellBytes_append, cellBytes_map_byte] at hc
    simp only [Option.bind_some, Option.map_eq_some_iff] at hc
    obtain ⟨g, _, rfl⟩ := hc
    simp
  rw [← this]
  exact ⟨hb2, hl⟩

/-- Whether the set with chain index `ix` contains a key. -/
def memberOf (s : BSet) (k : List Byte) : Bool :=
  if s.useTrie then s.elems.any (lpmMatch k) else s.elems.contains k

theorem SetWf.same {a b : BSet} (ha : SetWf a) (hb : SetWf b) (h : a.key = b.key) :
    a.elemSize = b.elemSize ∧ a.useTrie = b.useTrie := by
  obtain ⟨a0, a1, a2, a3⟩ := ha.new
  obtain ⟨b0, b1, b2, b3⟩ := hb.new
  rw [h] at a1
  rw [a2, b2, a3, b3]
  unfold setNew at a1 b1
  split at a1 <;> simp_all
  split at a1 <;> simp_all
  split at a1 <;> simp_all
  split at a1 <;> simp_all
  cases a1; cases b1
  exact ⟨rfl, rfl⟩

/-- What the lookup in the map of a set gives, once the set is found in a group. -/
theorem setLookup_spec (hL : SetsLoaded E C) (hW : SetsWf C.chain.sets)
    (hG : C.groups = buildGroups C.chain.sets) {ix : Nat} {s : BSet} (hs : C.chain.sets[ix]? = some s)
    {b : Nat} (hb : bitIndex C.groups ix = .ok b) :
    ∃ n, findGroup C.groups ix = some n ∧ E.setKeySize n = s.elemSize ∧ b / 8 < 32768 ∧
      ∀ k, k.length = s.elemSize →
        (E.setLookup n k = none ∧ memberOf s k = false) ∨
        ∃ bs, E.setLookup n k = some bs ∧ b / 8 < bs.length ∧
          (Spec.byteAt bs (b / 8)).getLsbD (b % 8) = memberOf s k := by
  have hex : ∃ g ∈ C.groups, ix ∈ g := by
    unfold bitIndex at hb
    split at hb
    · next g hf =>
      exact ⟨g, List.mem_of_find?_eq_some hf, by simpa using List.find?_some hf⟩
    · cases hb
  obtain ⟨n, g, h1, h2, h3, h4, h5⟩ := findGroup_bit hex
  rw [hb] at h5
  cases h5
  have hok := buildGroups_ok C.chain.sets
  rw [← hG] at hok
  obtain ⟨hd, t, hs0, hg, hh, hlt, ht⟩ := hok.wf g h3
  have hlen := hok.len g h3
  have hidx : g.idxOf ix < g.length := List.idxOf_lt_length_of_mem h4
  have hhead : groupHead C.chain.sets g = some hs0 := by rw [hg]; simpa [groupHead] using hh
  obtain ⟨hks, hlk⟩ := hL n g hs0 h2 hhead
  have hws : SetWf s := hW.each s (List.mem_of_getElem? hs)
  have hw0 : SetWf hs0 := hW.each hs0 (List.mem_of_getElem? hh)
  have hkey : s.key = hs0.key := by
    rw [hg] at h4
    rcases List.mem_cons.mp h4 with rfl | h4
    · rw [hs] at hh; cases hh; rfl
    · obtain ⟨_, s', h6, h7, _⟩ := ht ix h4
      rw [hs] at h6; cases h6; exact h7
  obtain ⟨e1, e2⟩ := hws.same hw0 hkey
  have hgi : g[g.idxOf ix]? = some ix := by
    rw [List.getElem?_eq_getElem hidx]
    simp
  have hme : memberElems C.chain.sets ix = s.elems := by simp [memberElems, hs]
  have hfew := hW.few
  refine ⟨n, h1, by rw [hks, e1], by omega, ?_⟩
  intro k hk
  rw [hlk k (by rw [← e1]; exact hk), ← e2]
  unfold memberOf
  cases htr : s.useTrie with
  | false =>
    simp only [Bool.false_eq_true, if_false]
    rw [hashLookup_group]
    by_cases hin : ∃ j ∈ g, k ∈ memberElems C.chain.sets j
    · rw [if_pos hin]
      refine Or.inr ⟨_, rfl, by rw [elemValue_length]; omega, ?_⟩
      rw [elemValue_bit hgi, hme]
    · rw [if_neg hin]
      refine Or.inl ⟨rfl, ?_⟩
      cases hc : s.elems.contains k with
      | false => rfl
      | true =>
        exact absurd ⟨ix, h4, by rw [hme]; simpa using hc⟩ hin
  | true =>
    simp only [if_true]
    have hg1 : g = [ix] := by
      have htn : t = [] := by
        cases t with
        | nil => rfl
        | cons j t =>
          obtain ⟨_, s', h6, h7, h8⟩ := ht j (List.mem_cons_self ..)
          have := (hW.each s' (List.mem_of_getElem? h6)).same hw0 h7
          rw [h8, ← e2, htr] at this
          cases this.2
      rw [hg, htn] at h4 ⊢
      simp at h4
      rw [h4]
    subst hg1
    have hz : [ix].idxOf ix = 0 := by simp
    rw [hz]
    rcases lpmLookup_single C.chain.sets ix k with ⟨a, c⟩ | ⟨bs, a, c, d, e⟩
    · rw [hme] at c
      exact Or.inl ⟨a, c⟩
    · rw [hme] at c
      exact Or.inr ⟨bs, a, by omega, by simpa [c] using e⟩

theorem and_bit32 {n : Nat} (hn : n < 256) {b : Nat} (hb : b < 8) :
    (alu32 .and (BitVec.ofNat 64 n) ((BitVec.ofNat 32 (1 <<< b)).signExtend 64)).toNat = 0 ↔
      (BitVec.ofNat 8 n).getLsbD b = false := by
  have hlt : 1 <<< b < 256 := by
    rw [Nat.one_shiftLeft]
    calc 2 ^ b ≤ 2 ^ 7 := Nat.pow_le_pow_right (by omega) (by omega)
      _ < 256 := by decide
  have e1 : (BitVec.ofNat 32 (1 <<< b)).signExtend 64 = BitVec.ofNat 64 (1 <<< b) := by
    apply BitVec.eq_of_toNat_eq
    rw [sext_small (by omega), ofNat64_toNat (by omega)]
  rw [e1]
  simp only [alu32, sw32_64, BitVec.toNat_setWidth, BitVec.toNat_and, BitVec.toNat_ofNat]
  rw [Nat.mod_eq_of_lt (show n < 2 ^ 32 by omega), Nat.mod_eq_of_lt (show 1 <<< b < 2 ^ 32 by omega)]
  have hle : n &&& 1 <<< b < 2 ^ 64 := by
    have : n &&& 1 <<< b ≤ n := Nat.and_le_left
    omega
  rw [Nat.mod_eq_of_lt hle]
  simp only [BitVec.getLsbD_ofNat, hb, decide_true, Bool.true_and]
  rw [Nat.one_shiftLeft]
  constructor
  · intro h
    have := congrArg (fun x => x.testBit b) h
    simpa [Nat.testBit_and, Nat.testBit_two_pow] using this
  · intro h
    apply Nat.eq_of_testBit_eq
    intro j
    simp only [Nat.testBit_and, Nat.testBit_two_pow, Nat.zero_testBit]
    by_cases e : b = j
    · subst e; simp [h]
    · simp [e]

/-- set.c:19-59: the lookup of a key in a set. -/
theorem mapLookup_gen (hL : SetsLoaded E C) (hW : SetsWf C.chain.sets)
    (hG : C.groups = buildGroups C.chain.sets) (m : Matcher) (hop : m.op = .in_) (off : Nat)
    (hoff : off < 64) :
    GenT (mapLookup C m (scr off)) (fun _ x => ∀ ix s, C.chain.setFor m = .ok (some (ix, s)) →
      C.chain.sets[ix]? = some s →
      ∀ st key, Inv K st → stackBytes st (scr off) s.elemSize = some key → key.length = s.elemSize →
      wp E C.groups x 0 (mpost K (memberOf s key != m.negate) st.w) st) := by
  unfold mapLookup
  refine .thenLift fun r hr => ?_
  cases r with
  | none => exact GenT.fail _ _
  | some p =>
    obtain ⟨ix0, s0⟩ := p
    refine .thenLift fun b hb => ?_
    refine .thenMap (.thenEmits ?_)
    have hj : jmpIns m = pure (if m.negate then .ne else .eq) := by
      unfold jmpIns; rw [hop]
    rw [hj, pure_bind']
    refine .lastNext ?_
    intro ix s hsf hget st key hst hkey hkl
    rw [hr] at hsf
    simp only [Res.ok.injEq, Option.some.injEq, Prod.mk.injEq] at hsf
    obtain ⟨rfl, rfl⟩ := hsf
    obtain ⟨n, hn, hks, hb8, hlk⟩ := setLookup_spec hL hW hG hget hb
    refine wp_ldMap (m := .set n) (by simp [mapOf, hn]) ?_
    have hs1 := hst.set (d := .r1) (.map (.set n)) trivial
    simp only [List.map_cons, List.map_nil, List.cons_append, List.nil_append]
    refine wp_mov (v := .ptr .stack 0) (by simp) (by simpa using hst.r10) (by simp) ?_
    have hs2 := hs1.set (d := .r2) (.ptr .stack 0) trivial
    refine wp_alu (v := .ptr .stack (scr off)) (by simp) ?_ ?_
    · rw [St.set_same]
      simp only [srcVal, aluVal, Int.zero_add]
      congr 2
      rw [BitVec.toInt_signExtend_of_le (by omega), BitVec.toInt_ofInt]
      simp only [Int.bmod, scr]
      omega
    have hs3 := hs2.set (d := .r2) (.ptr .stack (scr off)) trivial
    generalize hX : (match E.setLookup n key with
      | some bs => Val.ptr (.blob bs) 0 | none => .sc 0) = X
    refine wp_call (s' := St.ret (((st.set .r1 (.map (.set n))).set .r2 (.ptr .stack 0)).set .r2
      (.ptr .stack (scr off))) X) ?_ ?_
    · simp only [helper, St.set_same]
      rw [St.set_other _ _ _ _ (by decide), St.set_other _ _ _ _ (by decide), St.set_same]
      simp only [hks]
      have : stackBytes (((st.set .r1 (.map (.set n))).set .r2 (.ptr .stack 0)).set .r2
        (.ptr .stack (scr off))) (scr off) s0.elemSize = some key := hkey
      rw [this]
      rw [← hX]; rfl
    have hs4 := hs3.ret X
    have last : ∀ (s5 : St) (c : BitVec 64), Inv K s5 → s5.w = st.w → s5.r .r0 = .sc c →
        (c.toNat = 0 ↔ memberOf s0 key = false) →
        wp E C.groups [itN (.jmp true (if m.negate then .ne else .eq) .r0 (.k 0) 0)] 0
          (mpost K (memberOf s0 key != m.negate) st.w) s5 := by
      intro s5 c h1 h2 h3 h4
      have hc : condVal true (if m.negate then Cond.ne else .eq) (s5.r .r0) (srcVal s5 (.k 0)) =
          some (memberOf s0 key == m.negate) := by
        rw [h3]
        simp only [srcVal, condVal]
        have hz : ((0 : BitVec 32).signExtend 64).toNat = 0 := rfl
        rw [hz]
        congr 1
        cases hm : memberOf s0 key with
        | false =>
          have := h4.mpr hm
          cases m.negate <;> simp [Cond.holds, this]
        | true =>
          have : ¬ c.toNat = 0 := fun e => by rw [h4.mp e] at hm; cases hm
          cases m.negate <;> simp [Cond.holds, this]
      refine wp_jmpN hc ?_ ?_
      · intro h
        refine ⟨h1, h2, ?_⟩
        rw [show m.negate = memberOf s0 key by rw [eq_comm]; simpa using h]; simp
      · intro h
        refine wp_nil.mpr ⟨h1, h2, ?_⟩
        have : ¬ memberOf s0 key = m.negate := by simpa using h
        simpa using this
    rcases hlk key hkl with ⟨hnone, hmem⟩ | ⟨bs, hsome, hlen, hbit⟩
    · rw [hnone] at hX
      simp only at hX
      subst hX
      refine wp_jmp (b := true) (by simp [srcVal, condVal, Cond.holds]) (by decide) ?_ (by simp)
      intro _
      exact last _ 0 hs4 rfl rfl (by simp [hmem])
    · rw [hsome] at hX
      simp only at hX
      subst hX
      refine wp_jmp (b := false) (by simp [srcVal, condVal]) (by decide) (by simp) ?_
      intro _
      have hoffI : (BitVec.ofNat 16 (b / 8)).toInt = ((b / 8 : Nat) : Int) := by
        rw [BitVec.toInt_eq_toNat_of_lt (by simp only [BitVec.toNat_ofNat]; omega)]
        simp only [BitVec.toNat_ofNat]; omega
      have hbyte : leNat ((bs.drop (b / 8)).take 1) = (Spec.byteAt bs (b / 8)).toNat := by
        have := take1_byteAt hlen
        rw [this]; simp [leNat]
      refine wp_ldx (v := .sc (BitVec.ofNat 64 (Spec.byteAt bs (b / 8)).toNat)) ?_ ?_
      · rw [St.ret_r0]
        simp only [load, hoffI, Int.zero_add, Size.bytes]
        rw [if_pos (by omega)]
        simp only [Int.toNat_natCast, hbyte]
      refine wp_alu (v := .sc (alu32 .and (BitVec.ofNat 64 (Spec.byteAt bs (b / 8)).toNat)
        ((BitVec.ofNat 32 (1 <<< (b % 8))).signExtend 64))) (by simp) ?_ ?_
      · rw [St.set_same]; rfl
      refine last _ _ ((hs4.set (d := .r0) _ trivial).set (d := .r0) _ trivial) rfl (St.set_same _ _ _) ?_
      have := and_bit32 (n := (Spec.byteAt bs (b / 8)).toNat) (Spec.byteAt bs (b / 8)).isLt
        (b := b % 8) (by omega)
      rw [this, BitVec.ofNat_toNat, BitVec.setWidth_eq, hbit]

end Bf
