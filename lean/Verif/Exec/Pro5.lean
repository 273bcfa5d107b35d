import Verif.Exec.Pro4
/-!
# Prologue: IPv6 header

Nothing here models code of the repository.
-/
namespace Bf

variable {E : Env} {gs : Groups} {C : Cfg} {r7 r8 : BitVec 64} {s : St} {i : Spec.Input} {eh : Byte} {m : Stack}

/-- Only the mask of extension headers and the offset of the transport header changed. -/
def Keep (m m' : Stack) : Prop :=
  ∀ x, (x < ctx 48 ∨ (ctx 49 ≤ x ∧ x < ctx 64) ∨ ctx 68 ≤ x) → m' x = m x

theorem Keep.put64 (m : Stack) (cs : List Cell) (hl : cs.length = 4) : Keep m (m.put (ctx 64) cs) := by
  intro x hx
  apply Stack.put_out
  simp only [ctx] at hx ⊢
  omega

theorem Keep.put48 {m m' : Stack} (h : Keep m m') (c : Cell) : Keep m (m'.put (ctx 48) [c]) := by
  intro x hx
  rw [Stack.put_out]
  · exact h x hx
  · simp only [ctx, List.length_cons, List.length_nil] at hx ⊢
    omega

theorem Keep.get {m m' : Stack} (h : Keep m m') {k n : Nat}
    (hk : k + n ≤ 48 ∨ (49 ≤ k ∧ k + n ≤ 64) ∨ 68 ≤ k) : m'.get (ctx k) n = m.get (ctx k) n := by
  apply Stack.get_congr
  intro x h1 h2
  apply h
  simp only [ctx] at *
  omega

theorem Keep.dyn {m m' : Stack} (h : Keep m m') {off : Nat} (hd : Dyn m off) : Dyn m' off :=
  ⟨by rw [h.get (by simp [oDynptr])]; exact hd.dyn, by rw [h.get (by simp [oL3Off])]; exact hd.l3off⟩

theorem Keep.l2 {m m' : Stack} (h : Keep m m') (hd : L2Cap m) : L2Cap m' :=
  ⟨by rw [h.get (by simp [oL2Hdr])]; exact hd.hdr, by rw [h _ (by simp [ctx, oL2Size])]; exact hd.size⟩

theorem Keep.l3 {m m' : Stack} (h : Keep m m') {hd : List Byte} (h3 : L3At E m hd) : L3At E m' hd := by
  obtain ⟨p, h1, h2, hq⟩ := h3.ptr
  have hl := h3.len
  refine ⟨⟨p, by rw [h.get (by simp [oL3Hdr])]; exact h1, ?_, hq⟩, by rw [h _ (by simp [ctx, oL3Size])]; exact h3.size, hl⟩
  rcases h2 with ⟨b, e1, e2⟩ | ⟨o, e1, e2, e3, e4⟩
  · exact Or.inl ⟨b, e1, e2⟩
  · refine Or.inr ⟨o, e1, e2, e3, ?_⟩
    have ho := hq o e1
    subst ho
    rw [h.get (by simp [oL2])]
    exact e4

/-- Next-header values for which the stub is called (stub.c:262-290). -/
def callsStub (nh : Byte) : Bool :=
  (decide (nh.toNat < 64) && decide ((1 : BitVec 64) <<< nh.toNat &&& lowEhBitmask ≠ 0)) ||
  decide (nh = 135) || decide (nh = 139) || decide (nh = 140)

set_option maxRecDepth 4000 in
theorem callsStub_true (nh : Byte) (h : callsStub nh = true) : Spec.startsExt nh = true ∨
    ((∀ hl, Spec.extLen nh hl = none) ∧ Spec.Trans.ofNum nh = none) := by
  have key : ∀ nh : Byte, callsStub nh = true → Spec.startsExt nh = true ∨
      (¬(nh = 0 ∨ nh = 43 ∨ nh = 60 ∨ nh = 135) ∧ nh ≠ 51 ∧ nh ≠ 44 ∧ Spec.Trans.ofNum nh = none) := by decide
  rcases key nh h with h | ⟨h1, h2, h3, h4⟩
  · exact Or.inl h
  · exact Or.inr ⟨fun hl => extLen_none h1 h2 h3, h4⟩

set_option maxRecDepth 4000 in
theorem callsStub_false (nh : Byte) (h : callsStub nh = false) : Spec.startsExt nh = false := by
  revert nh; decide

theorem tcp_udp_startsExt (nh : Byte) (h : nh = 6 ∨ nh = 17) : Spec.startsExt nh = false := by
  rcases h with rfl | rfl <;> rfl

/-- What `transportOf` finds, for the header types the stub is called with. -/
theorem stub_eh {nh : Byte} {off : Nat} (h : callsStub nh = true) (hoff : off < 1000) {hd : List Byte}
    (hnh : Spec.byteAt hd 6 = nh) :
    Spec.Trans.ofNum (parseEh E 6 nh (BitVec.ofNat 32 off + 40)).1 =
      Spec.Trans.ofNum (Spec.transportOf E.pkt false .ip6 hd off).1 ∧
    (Spec.Trans.ofNum (Spec.transportOf E.pkt false .ip6 hd off).1 ≠ none →
      (parseEh E 6 nh (BitVec.ofNat 32 off + 40)).2.toNat = (Spec.transportOf E.pkt false .ip6 hd off).2.1) := by
  have ho : (BitVec.ofNat 32 off + 40).toNat = off + 40 := by
    rw [BitVec.toNat_add, BitVec.toNat_ofNat]
    rw [show (40 : BitVec 32).toNat = 40 from rfl]
    omega
  have hw := parseEh_walk (E := E) 6 nh (BitVec.ofNat 32 off + 40) [] (by omega)
  rw [ho] at hw
  simp only [Spec.transportOf, hnh]
  rcases callsStub_true nh h with h | ⟨h1, h2⟩
  · rw [if_pos h, hw.1, hw.2]
    exact ⟨rfl, fun _ => rfl⟩
  · by_cases hse : Spec.startsExt nh = true
    · rw [if_pos hse, hw.1, hw.2]
      exact ⟨rfl, fun _ => rfl⟩
    · rw [if_neg hse]
      have e : Spec.Trans.ofNum (parseEh E 6 nh (BitVec.ofNat 32 off + 40)).1 = none := by
        rw [hw.1]
        simp only [Spec.walk]
        split
        · rfl
        · simp only [h1]; exact h2
      exact ⟨by rw [e, h2], fun h => absurd h2 h⟩

theorem stub_nh {nh : Byte} {off : Nat} (h : callsStub nh = true) (hoff : off < 1000) {hd : List Byte}
    (hnh : Spec.byteAt hd 6 = nh) :
    Spec.Trans.ofNum (parseNh E 6 nh (BitVec.ofNat 32 off + 40) 0).1 =
      Spec.Trans.ofNum (Spec.transportOf E.pkt true .ip6 hd off).1 ∧
    (Spec.Trans.ofNum (Spec.transportOf E.pkt true .ip6 hd off).1 ≠ none →
      (parseNh E 6 nh (BitVec.ofNat 32 off + 40) 0).2.1.toNat = (Spec.transportOf E.pkt true .ip6 hd off).2.1) ∧
    (parseNh E 6 nh (BitVec.ofNat 32 off + 40) 0).2.2 = maskOf (Spec.transportOf E.pkt true .ip6 hd off).2.2 := by
  have ho : (BitVec.ofNat 32 off + 40).toNat = off + 40 := by
    rw [BitVec.toNat_add, BitVec.toNat_ofNat]
    rw [show (40 : BitVec 32).toNat = 40 from rfl]
    omega
  have hw := parseNh_walk (E := E) 6 nh (BitVec.ofNat 32 off + 40) [] (by omega)
  rw [ho, show maskOf [] = 0 from rfl] at hw
  simp only [Spec.transportOf, hnh]
  rcases callsStub_true nh h with h | ⟨h1, h2⟩
  · rw [if_pos h, hw.1, hw.2.1, hw.2.2]
    exact ⟨rfl, fun _ => rfl, rfl⟩
  · by_cases hse : Spec.startsExt nh = true
    · rw [if_pos hse, hw.1, hw.2.1, hw.2.2]
      exact ⟨rfl, fun _ => rfl, rfl⟩
    · rw [if_neg hse]
      have e : (Spec.walk E.pkt true 6 nh (off + 40) []) = (nh, off + 40, []) := by
        simp only [Spec.walk]
        split
        · rfl
        · simp only [h1]
      rw [e] at hw
      refine ⟨by rw [hw.1], fun h => absurd h2 h, hw.2.2⟩

theorem transportOf_lt (rec_ : Bool) (n : Spec.Net) (hd : List Byte) {off : Nat} (hoff : off < 1000) :
    (Spec.transportOf E.pkt rec_ n hd off).2.1 < 4294967296 := by
  unfold Spec.transportOf
  cases n with
  | ip4 =>
    have : (Spec.byteAt hd 0).toNat < 256 := (Spec.byteAt hd 0).isLt
    show _ + _ < _
    omega
  | ip6 =>
    simp only
    split
    · have := walk_off E.pkt rec_ 6 (Spec.byteAt hd 6) (off + 40) []
      omega
    · show _ + _ < _
      omega

theorem load_ctx {t : St} {k n : Nat} (hk : k + n ≤ 184) :
    load E t (.ptr .stack ctxBase) k n = valOf (t.stk.get (ctx k) n) := by
  simp only [Bf.load]
  have e : ctxBase + (k : Int) = ctx k := by simp only [ctxBase, ctx]; omega
  rw [e, if_pos (by simp only [stackSize, ctx]; omega)]

theorem store_ctx {t : St} {k n : Nat} (v : BitVec 64) (hk : k + n ≤ 184) :
    store E t (.ptr .stack ctxBase) k n (.sc v) =
      some { t with stk := t.stk.put (ctx k) ((leBytes n v.toNat).map .byte) } := by
  simp only [Bf.store]
  have e : ctxBase + (k : Int) = ctx k := by simp only [ctxBase, ctx]; omega
  rw [e, if_pos (by simp only [stackSize, ctx]; omega)]
  rfl

/-- Effect of the stub. -/
theorem ehStub_ok {t : St} {h : List Byte} {off : Nat} (hm : Mem E C i 0 t.stk) (hd : Dyn t.stk off)
    (hoff : off < 1000) (h3 : L3At E t.stk h) (hl : h.length = 40) (h1 : t.r .r1 = .ptr .stack (ctx 0))
    (hc : callsStub (Spec.byteAt h 6) = true) :
    ∃ (m' : Stack) (b : Byte) (eh' : Byte), stubSem E t (ehStub C) = some (St.ret { t with stk := m' } (.sc (b.setWidth 64))) ∧
      Keep t.stk m' ∧ Mem E C i eh' m' ∧
      Found (b.setWidth 64) m' (Spec.transportOf E.pkt C.chain.flagNexthdr .ip6 h off) ∧
      (C.chain.flagNexthdr = true →
        eh' = maskOf (Spec.transportOf E.pkt C.chain.flagNexthdr .ip6 h off).2.2) := by
  obtain ⟨p, hp1, hp2, hq⟩ := h3.ptr
  have l1 : load E t (.ptr .stack ctxBase) 88 8 = some p := by
    rw [show (88 : Int) = ((88 : Nat) : Int) from rfl, load_ctx (by omega)]; exact hp1
  have l2 : loadSc E t (.ptr .stack ctxBase) 56 4 = some (BitVec.ofNat 64 off) := by
    unfold loadSc
    rw [show (56 : Int) = ((56 : Nat) : Int) from rfl, load_ctx (by omega)]
    have := hd.l3off
    rw [show oL3Off = 56 from rfl] at this
    rw [this]
  have l3 : loadSc E t p 6 1 = some ((Spec.byteAt h 6).setWidth 64) := by
    unfold loadSc
    have := hp2.load (s := t) (o := 6) (n := 1) (fun _ _ => rfl) (by omega) (by omega)
    rw [show (6 : Int) = ((6 : Nat) : Int) from rfl, this, leNat_take1 (by omega)]
  have l4 : t.stk.get (ctxBase + 8) 16 = dynCells := hd.dyn
  have e8 : ((Spec.byteAt h 6).setWidth 64).setWidth 8 = Spec.byteAt h 6 := by
    apply BitVec.eq_of_toNat_eq
    simp only [BitVec.toNat_setWidth]
    have : (Spec.byteAt h 6).toNat < 256 := (Spec.byteAt h 6).isLt
    omega
  have e32 : (BitVec.ofNat 64 off).setWidth 32 = BitVec.ofNat 32 off := by
    apply BitVec.eq_of_toNat_eq
    simp only [BitVec.toNat_setWidth, BitVec.toNat_ofNat]
    omega
  have hlt := transportOf_lt (E := E) C.chain.flagNexthdr .ip6 h hoff
  unfold ehStub
  cases hfl : C.chain.flagNexthdr with
  | false =>
    rw [hfl] at hlt
    simp only [Bool.false_eq_true, if_false, stubSem, h1]
    rw [if_neg (by simp [ctx, ctxBase])]
    simp only [l1, l2, l3, e8, e32]
    rw [if_pos l4, show (64 : Int) = ((64 : Nat) : Int) from rfl, store_ctx _ (by omega)]
    generalize hpe : parseEh E ehMaxChain (Spec.byteAt h 6) (BitVec.ofNat 32 off + 40) = q
    have hs := stub_eh (E := E) hc hoff (hd := h) rfl
    rw [show ehMaxChain = 6 from rfl] at hpe
    rw [hpe] at hs
    refine ⟨_, q.1, 0, rfl, Keep.put64 _ _ (by simp), hm.put (k := 64) (by simp), ⟨⟨q.1, rfl, hs.1⟩, ?_, hlt⟩,
      by simp⟩
    intro hne
    have := hs.2 hne
    exact off4_store _ _ _ (by rw [← this, BitVec.toNat_setWidth]; have := q.2.isLt; omega) hlt
  | true =>
    rw [hfl] at hlt
    simp only [if_true, stubSem, h1]
    rw [if_neg (by simp [ctx, ctxBase])]
    simp only [l1, l2, l3, e8, e32]
    rw [if_pos l4, show (64 : Int) = ((64 : Nat) : Int) from rfl, store_ctx _ (by omega)]
    simp only [Option.bind_some]
    rw [show (48 : Int) = ((48 : Nat) : Int) from rfl, store_ctx _ (by omega)]
    generalize hpe : parseNh E ehMaxChain (Spec.byteAt h 6) (BitVec.ofNat 32 off + 40) 0 = q
    have hs := stub_nh (E := E) hc hoff (hd := h) rfl
    rw [show ehMaxChain = 6 from rfl] at hpe
    rw [hpe] at hs
    have e1 : (leBytes 1 (q.2.2.setWidth 64).toNat).map Cell.byte = [.byte q.2.2] := by
      rw [leBytes1, List.map_cons, List.map_nil]
      congr 2
      apply BitVec.eq_of_toNat_eq
      have := q.2.2.isLt
      simp only [BitVec.toNat_setWidth, BitVec.toNat_ofNat]
      omega
    rw [e1]
    refine ⟨_, q.1, q.2.2, rfl, (Keep.put64 _ _ (by simp)).put48 _, (hm.put (k := 64) (by simp)).putEh _,
      ⟨⟨q.1, rfl, hs.1⟩, ?_, hlt⟩, fun _ => hs.2.2⟩
    intro hne
    have := hs.2.1 hne
    rw [Stack.get_put_other _ _ _ _ _ (by simp [ctx, oL4Off])]
    exact off4_store _ _ _ (by rw [← this, BitVec.toNat_setWidth]; have := q.2.1.isLt; omega) hlt

end Bf
