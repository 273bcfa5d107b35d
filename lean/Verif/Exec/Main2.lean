import Verif.Exec.Main
/-!
# What rules can rely on after the prologue of a packet program

Nothing here models code of the repository.
-/
namespace Bf

variable {E : Env} {gs : Groups} {C : Cfg} {r7 r8 : BitVec 64} {s : St} {i : Spec.Input} {v : Spec.View} {m m' : Stack}

/-- Stacks that only differ by the state pointer and the scratch area. -/
def Same (m m' : Stack) : Prop := ∀ o, (o < ctx oStateMap ∨ ctx oPktSize ≤ o) → o < -64 → m' o = m o

theorem Same.get (h : Same m m') {k n : Nat} (hk : k + n ≤ 32 ∨ 40 ≤ k) (hn : k + n ≤ 184) :
    m'.get (ctx k) n = m.get (ctx k) n :=
  Stack.get_congr fun x h1 h2 => h x (by simp only [ctx, oStateMap, oPktSize] at *; omega)
    (by simp only [ctx] at *; omega)

theorem Same.hptr (h : Same m m') {p : Val} {b : List Byte} (hp : HPtr E m p b)
    (hq : ∀ q, p = .ptr .stack q → ctx oPktSize ≤ q) : HPtr E m' p b := by
  rcases hp with ⟨base, rfl, e⟩ | ⟨q, rfl, h1, h2, e⟩
  · exact Or.inl ⟨base, rfl, e⟩
  · refine Or.inr ⟨q, rfl, h1, h2, ?_⟩
    rw [← e]
    exact Stack.get_congr fun x hx1 hx2 => h x (Or.inr (by have := hq q rfl; omega)) (by omega)

/-- What the log captures of a packet: the network and transport headers when they are understood, the
link header when it is in the linear part of the packet.  A header that is absent, or a link header
that was copied, may be captured as anything. -/
structure CaptureOk (E : Env) (i : Spec.Input) (v : Spec.View) (cap : Spec.Capture) : Prop where
  l2 : i.link = .ethernet → E.copied 0 14 = false → cap.l2 = some ((E.pkt.take 14))
  l3 : ∀ n h, v.l3 = some (n, h) → cap.l3 = some h
  l4 : ∀ t h, v.l4 = some (t, h) → cap.l4 = some h

theorem captureHdr_congr {s t : St} {po so cap : Nat} (hpo : po + 8 ≤ 184) (hso : so + 1 ≤ 184)
    (h : ∀ o, o < -64 → s.stk o = t.stk o)
    (hp : HdrOk t.stk po cap) :
    captureHdr E s (.ptr .stack ctxBase) po so cap = captureHdr E t (.ptr .stack ctxBase) po so cap := by
  have e1 : load E s (.ptr .stack ctxBase) po 8 = load E t (.ptr .stack ctxBase) po 8 := by
    simp only [load]
    rw [Stack.get_congr (m := s.stk) (m' := t.stk) fun x h1 h2 => h x (by simp only [ctxBase] at *; omega)]
  have e2 : loadSc E s (.ptr .stack ctxBase) so 1 = loadSc E t (.ptr .stack ctxBase) so 1 := by
    simp only [loadSc, load]
    rw [Stack.get_congr (m := s.stk) (m' := t.stk) fun x h1 h2 => h x (by simp only [ctxBase] at *; omega)]
  unfold captureHdr
  rw [e1, e2]
  obtain ⟨p, hp1, hp2⟩ := hp
  have e3 : load E t (.ptr .stack ctxBase) po 8 = some p := by
    simp only [load]
    rw [if_pos (by simp only [ctxBase, stackSize]; omega)]
    have : ctxBase + (po : Int) = ctx po := by simp only [ctxBase, ctx]; omega
    rw [this]; exact hp1
  rw [e3]
  cases loadSc E t (.ptr .stack ctxBase) so 1 with
  | none => rfl
  | some n =>
    dsimp only
    by_cases hc : p ≠ .sc 0 ∧ n.toNat ≤ cap
    · rw [if_pos hc, if_pos hc]
      congr 1
      unfold probeRead
      split
      · rfl
      · next o =>
        rw [Stack.get_congr (m := s.stk) (m' := t.stk) fun x h1 h2 => h x (by have := hp2 o rfl; omega)]
      · rfl
      · rfl
    · rw [if_neg hc, if_neg hc]

theorem captureHdr_at {s : St} {po so cap : Nat} {p : Val} {h : List Byte} (hpo : po + 8 ≤ 184) (hso : so + 1 ≤ 184)
    (hp : valOf (s.stk.get (ctx po) 8) = some p) (hh : HPtr E s.stk p h)
    (hsz : s.stk (ctx so) = .byte (BitVec.ofNat 8 h.length)) (hl : h.length ≤ cap) (hc : cap < 256) :
    captureHdr E s (.ptr .stack ctxBase) po so cap = some h := by
  have e1 : load E s (.ptr .stack ctxBase) po 8 = some p := by
    simp only [load]
    rw [if_pos (by simp only [ctxBase, stackSize]; omega)]
    have : ctxBase + (po : Int) = ctx po := by simp only [ctxBase, ctx]; omega
    rw [this]; exact hp
  have e2 : loadSc E s (.ptr .stack ctxBase) so 1 = some (BitVec.ofNat 64 h.length) := by
    simp only [loadSc, load]
    rw [if_pos (by simp only [ctxBase, stackSize]; omega)]
    have : ctxBase + (so : Int) = ctx so := by simp only [ctxBase, ctx]; omega
    rw [this]
    simp only [Stack.get, hsz]
    rw [show [Cell.byte (BitVec.ofNat 8 h.length)] = [BitVec.ofNat 8 h.length].map .byte from rfl, valOf_bytes _ (by simp)]
    simp only [leNat, BitVec.toNat_ofNat]
    congr 2
    omega
  unfold captureHdr
  rw [e1, e2]
  have en : (BitVec.ofNat 64 h.length).toNat = h.length := by rw [BitVec.toNat_ofNat]; omega
  obtain ⟨r, o, rfl⟩ := hh.ne
  dsimp only
  rw [if_pos ⟨by simp, by omega⟩, en, hh.probe (fun _ _ => rfl)]

theorem ehMask_signExtend {n : Nat} {k : BitVec 32} (hk : ehMask n = some k) :
    k.signExtend 64 = (k.setWidth 8).setWidth 64 := by
  unfold ehMask at hk
  repeat' (split at hk; · cases hk; decide)
  cases hk

/-- After the prologue, rules can rely on `PktFacts`. -/
theorem Parsed.facts {s t : St} (hp : Parsed E C i v s.stk)
    (hl2 : i.link = .ethernet → E.copied 0 14 = false → L2Cap s.stk) (hbytes : i.link = .ethernet → 14 ≤ E.pkt.length)
    (hsame : Same s.stk t.stk) (ht : Pr (BitVec.ofNat 64 (htobe16 v.l3Num)) (BitVec.ofNat 64 v.l4Num) t)
    (hst : C.chain.flagRate = true → valOf (t.stk.get (ctx oStateMap) 8) = some (.ptr .state 0)) :
    ∃ cap, CaptureOk E i v cap ∧
      PktFacts E C ⟨t.stk, BitVec.ofNat 64 (htobe16 v.l3Num), BitVec.ofNat 64 v.l4Num, false⟩ i v cap := by
  obtain ⟨e, hm, he⟩ := hp.eh
  have g : ∀ {k n : Nat}, (k + n ≤ 32 ∨ 40 ≤ k) → k + n ≤ 184 → t.stk.get (ctx k) n = s.stk.get (ctx k) n :=
    fun h1 h2 => hsame.get h1 h2
  have hdr : ∀ {f cap : Nat}, HdrOk s.stk f cap → (f + 8 ≤ 32 ∨ 40 ≤ f) → f + 8 ≤ 184 → HdrOk t.stk f cap := by
    intro f cap h h1 h2
    obtain ⟨p, hp1, hp2⟩ := h
    exact ⟨p, by rw [g h1 h2]; exact hp1, hp2⟩
  have cell : ∀ {k : Nat}, 40 ≤ k → k < 184 → t.stk (ctx k) = s.stk (ctx k) := by
    intro k h1 h2
    exact hsame _ (Or.inr (by simp only [ctx, oPktSize]; omega)) (by simp only [ctx]; omega)
  have l3 : ∀ n h, v.l3 = some (n, h) → h.length = n.hdrLen ∧ ∃ p, valOf (t.stk.get (ctx oL3Hdr) 8) = some p ∧
      HPtr E t.stk p h ∧ t.stk (ctx oL3Size) = .byte (BitVec.ofNat 8 h.length) ∧ h.length ≤ 40 := by
    intro n h hv
    obtain ⟨h1, ⟨p, hp1, hp2, hp3⟩, h3, h4⟩ := hp.l3 n h hv
    refine ⟨h1, p, by rw [g (by simp [oL3Hdr]) (by simp [oL3Hdr])]; exact hp1, ?_, ?_, h4⟩
    · exact hsame.hptr hp2 fun q hq => by rw [hp3 q hq]; simp [ctx, oPktSize, oL2]
    · rw [cell (by simp [oL3Size]) (by simp [oL3Size])]; exact h3
  have l4 : ∀ n h, v.l4 = some (n, h) → h.length = n.hdrLen ∧ ∃ p, valOf (t.stk.get (ctx oL4Hdr) 8) = some p ∧
      HPtr E t.stk p h ∧ t.stk (ctx oL4Size) = .byte (BitVec.ofNat 8 h.length) ∧ h.length ≤ 24 := by
    intro n h hv
    obtain ⟨h1, ⟨p, hp1, hp2, hp3⟩, h3, h4⟩ := hp.l4 n h hv
    refine ⟨h1, p, by rw [g (by simp [oL4Hdr]) (by simp [oL4Hdr])]; exact hp1, ?_, ?_, h4⟩
    · exact hsame.hptr hp2 fun q hq => by rw [hp3 q hq]; simp [ctx, oPktSize, oL4]
    · rw [cell (by simp [oL4Size]) (by simp [oL4Size])]; exact h3
  have h2' := hdr hm.h2 (by simp [oL2Hdr]) (by simp [oL2Hdr])
  have h3' := hdr hm.h3 (by simp [oL3Hdr]) (by simp [oL3Hdr])
  have h4' := hdr hm.h4 (by simp [oL4Hdr]) (by simp [oL4Hdr])
  refine ⟨⟨captureHdr E t (.ptr .stack ctxBase) 80 49 16, captureHdr E t (.ptr .stack ctxBase) 88 50 40,
    captureHdr E t (.ptr .stack ctxBase) 96 51 24⟩, ⟨?_, ?_, ?_⟩, ?_⟩
  · intro hlk hcp
    obtain ⟨c1, c2⟩ := hl2 hlk hcp
    have hlen : (E.pkt.take 14).length = 14 := by
      have := hbytes hlk
      simp only [List.length_take]; omega
    refine captureHdr_at (po := 80) (so := 49) (p := .ptr (.pkt 0 14) 0) (by omega) (by omega) ?_ ?_ ?_ (by omega) (by omega)
    · show valOf (t.stk.get (ctx oL2Hdr) 8) = _
      rw [g (by simp [oL2Hdr]) (by simp [oL2Hdr])]; exact c1
    · refine Or.inl ⟨0, by rw [hlen], ?_⟩
      rw [hlen, List.drop_zero]
    · show t.stk (ctx oL2Size) = _
      rw [cell (by simp [oL2Size]) (by simp [oL2Size]), c2, hlen]
      rfl
  · intro n h hv
    obtain ⟨h1, p, q1, q2, q3, q4⟩ := l3 n h hv
    exact captureHdr_at (po := 88) (so := 50) (by omega) (by omega) q1 q2 q3 q4 (by omega)
  · intro n h hv
    obtain ⟨h1, p, q1, q2, q3, q4⟩ := l4 n h hv
    exact captureHdr_at (po := 96) (so := 51) (by omega) (by omega) q1 q2 q3 q4 (by omega)
  refine ⟨rfl, rfl, rfl, ?_, ?_, ?_, ?_, ?_, ?_, ?_, ?_, hst, ?_, ?_, ?_⟩
  · show valOf (t.stk.get (ctx oArg) 8) = _
    rw [g (by simp [oArg]) (by simp [oArg])]; exact hm.arg
  · show valOf (t.stk.get (ctx oPktSize) 8) = _
    rw [g (by simp [oPktSize]) (by simp [oPktSize])]; exact hm.size
  · show valOf (t.stk.get (ctx oIfindex) 2) = _
    rw [g (by simp [oIfindex]) (by simp [oIfindex])]; exact hm.ifindex
  · intro n h hv
    obtain ⟨h1, p, q1, q2, _, _⟩ := l3 n h hv
    exact ⟨h1, p, q1, q2.hdrAt⟩
  · intro n h hv
    obtain ⟨h1, p, q1, q2, _, _⟩ := l4 n h hv
    exact ⟨h1, p, q1, q2.hdrAt⟩
  · obtain ⟨p, hp1, _⟩ := h4'
    exact ⟨p, hp1⟩
  · intro hf
    have hb : ∀ x, ctx oEh ≤ x → x < ctx oEh + (8 : Nat) → ∃ b, t.stk x = .byte b := by
      intro x h1 h2
      rw [hsame x (Or.inr (by simp only [ctx, oPktSize, oEh] at *; omega)) (by simp only [ctx, oEh] at *; omega)]
      exact hm.ehB x h1 (by simp only [ctx, oEh, oL3Off] at *; omega)
    obtain ⟨bs, hlen, hbs⟩ := get_bytes 8 hb
    refine ⟨BitVec.ofNat 64 (leNat bs), ?_, ?_⟩
    · show valOf (t.stk.get (ctx oEh) 8) = _
      rw [hbs, valOf_bytes]
      rintro rfl
      simp at hlen
    · intro n k hk
      obtain ⟨b, bs', rfl⟩ : ∃ b bs', bs = b :: bs' := by
        cases bs with
        | nil => simp at hlen
        | cons b bs' => exact ⟨b, bs', rfl⟩
      have hb0 : b = maskOf v.exts := by
        have e1 : t.stk (ctx oEh) = .byte e := by
          rw [cell (by simp [oEh]) (by simp [oEh])]; exact hm.eh hf
        simp only [Stack.get, List.map_cons, List.cons.injEq] at hbs
        rw [e1] at hbs
        have := hbs.1
        cases this
        exact he hf
      rw [← maskOf_any _ n k hk, ehMask_signExtend hk, ← hb0]
      constructor
      · intro h
        apply BitVec.eq_of_toNat_eq
        have := congrArg (fun x : BitVec 64 => (x.setWidth 8).toNat) h
        rw [show ((BitVec.ofNat 64 (leNat (b :: bs')) &&& (k.setWidth 8).setWidth 64).setWidth 8) = b &&& k.setWidth 8 from ?_] at this
        · simpa using this
        · rw [BitVec.setWidth_and]
          congr 1
          · apply BitVec.eq_of_toNat_eq
            have := b.isLt
            simp only [leNat, BitVec.toNat_setWidth, BitVec.toNat_ofNat]
            omega
          · apply BitVec.eq_of_toNat_eq
            have := (k.setWidth 8).isLt
            simp only [BitVec.toNat_setWidth] at *
            omega
      · intro h
        apply BitVec.eq_of_getLsbD_eq
        intro j hj
        rw [BitVec.getLsbD_and, BitVec.getLsbD_setWidth]
        by_cases hj8 : j < 8
        · have := congrArg (fun x : BitVec 8 => x.getLsbD j) h
          simp only [BitVec.getLsbD_and] at this
          have e1 : (BitVec.ofNat 64 (leNat (b :: bs'))).getLsbD j = b.getLsbD j := by
            have e2 : (BitVec.ofNat 64 (leNat (b :: bs'))).setWidth 8 = b := by
              apply BitVec.eq_of_toNat_eq
              have := b.isLt
              simp only [leNat, BitVec.toNat_setWidth, BitVec.toNat_ofNat]
              omega
            conv => rhs; rw [← e2]
            rw [BitVec.getLsbD_setWidth]
            simp [hj8]
          rw [e1]
          simp only [hj, decide_true, Bool.true_and, this]
          simp
        · rw [BitVec.getLsbD_of_ge (k.setWidth 8) j (by omega)]
          simp
  · intro hf
    show valOf (t.stk.get (ctx oLogMap) 8) = _
    rw [g (by simp [oLogMap]) (by simp [oLogMap])]; exact hm.logMap hf
  · intro u hu
    exact captureHdr_congr (po := 80) (so := 49) (by omega) (by omega) hu.stk h2'
  · intro u hu
    exact captureHdr_congr (po := 88) (so := 50) (by omega) (by omega) hu.stk h3'
  · intro u hu
    exact captureHdr_congr (po := 96) (so := 51) (by omega) (by omega) hu.stk h4'

end Bf
