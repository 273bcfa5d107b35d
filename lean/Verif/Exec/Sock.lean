import Verif.Exec.Tail
/-!
# Matchers of `sock_addr` programs

Nothing here models code of the repository.
-/
namespace Bf

variable {E : Env} {gs : Groups} {K : Frame} {C : Cfg} {v : Spec.SockView}

/-- What the prologue establishes about a socket program. -/
structure SockFacts (E : Env) (C : Cfg) (K : Frame) (v : Spec.SockView) : Prop where
  sa : K.sa = true
  view : v = Spec.sockView E.sock
  abi : Spec.SockAbi E.sock
  r7 : K.r7 = BitVec.ofNat 64 (htobe16 v.l3Num)
  r8 : K.r8 = BitVec.ofNat 64 v.proto
  flavor : E.flavor = .sockAddr
  hook : C.chain.hook.flavor = .sockAddr
  arg : valOf (K.base.get (ctx oArg) 8) = some (.ptr .ctx 0)
  size : valOf (K.base.get (ctx oPktSize) 8) = some (.sc 0)
  logMap : C.chain.flagLog = true → valOf (K.base.get (ctx oLogMap) 8) = some (.map .log)
  stateMap : C.chain.flagRate = true → valOf (K.base.get (ctx oStateMap) 8) = some (.ptr .state 0)

/-- The specification's context for a socket program. -/
def sockCtx (E : Env) (C : Cfg) (v : Spec.SockView) : Spec.Sem :=
  Spec.sockSem C.chain.hook v (kernelOf E) C.chain.sets C.thr

theorem SockFacts.hdr (hF : SockFacts E C K v) : HdrAt E K (.ptr .ctx 0) E.sock := by
  intro s _ o n h _
  rw [hF.abi.size] at h
  simp only [load]
  rw [if_pos ⟨hF.flavor, by omega, by simp only [sockSize]; omega⟩]
  simp

theorem sockM_of {m : Matcher} (hm : m.type ≠ .metaProbability) {b : Option Bool}
    (hc : ∀ rn, Spec.sockCore v rn C.chain.sets C.thr m = b) :
    semM (sockCtx E C v) m = fun w => ((b.map fun x => x != m.negate).getD false, w) := by
  funext w
  simp only [semM, hm, if_false, sockCtx, Spec.sockSem, Spec.sockHolds, hc]
  cases b <;> rfl

theorem sock_l3Num_lt (v : Spec.SockView) : v.l3Num < 65536 := by
  unfold Spec.SockView.l3Num
  split
  · next t _ => cases t <;> decide
  · decide

theorem SockFacts.proto_lt (hF : SockFacts E C K v) : v.proto < 65536 := by
  rw [hF.view]; exact hF.abi.proto

/-- For a socket program the registers hold the socket's protocols. -/
theorem SockFacts.regOk (hF : SockFacts E C K v) (t : MType) : Bf.regOk K t = Spec.sockProtoOk v t := by
  have h7 : K.r7.toNat = htobe16 v.l3Num := by
    rw [hF.r7]; have := htobe16_lt v.l3Num; exact ofNat64_toNat (by omega)
  have h8 : K.r8.toNat = v.proto := by
    rw [hF.r8]; have := hF.proto_lt; exact ofNat64_toNat (by omega)
  have l3 : ∀ n, n < 65536 → decide (htobe16 v.l3Num = htobe16 n) = (v.l3Num == n) := by
    intro n hn
    have := htobe16_inj (sock_l3Num_lt v) hn
    simp only [this]
    rfl
  unfold Bf.regOk Spec.sockProtoOk
  rw [h7, h8]
  cases t <;> simp only [MType.meta_] <;> first | exact l3 _ (by omega) | rfl

theorem leNat_append (a b : List Byte) : leNat (a ++ b) = leNat a + 256 ^ a.length * leNat b := by
  induction a with
  | nil => simp [leNat]
  | cons x xs ih =>
    simp only [List.cons_append, leNat, ih, List.length_cons, Nat.pow_succ]
    rw [Nat.mul_add, ← Nat.mul_assoc, Nat.mul_comm (256 ^ xs.length) 256]
    omega

/-- Two 4-byte halves packed into a register. -/
theorem pack8 {lo hi : List Byte} (h1 : lo.length = 4) (h2 : hi.length = 4) :
    alu64 .or (BitVec.ofNat 64 (leNat lo)) (alu64 .lsh (BitVec.ofNat 64 (leNat hi)) ((32 : BitVec 32).signExtend 64)) =
      BitVec.ofNat 64 (leNat (lo ++ hi)) := by
  have l1 := leNat_lt4 h1
  have l2 := leNat_lt4 h2
  have e32 : (((32 : BitVec 32).signExtend 64).toNat) % 64 = 32 := by decide
  rw [leNat_append, h1]
  apply BitVec.eq_of_toNat_eq
  simp only [alu64, e32, BitVec.toNat_or, BitVec.toNat_shiftLeft, BitVec.toNat_ofNat]
  rw [Nat.mod_eq_of_lt (show leNat lo < 2 ^ 64 by omega), Nat.mod_eq_of_lt (show leNat hi < 2 ^ 64 by omega),
    Nat.shiftLeft_eq, Nat.mod_eq_of_lt (show leNat hi * 2 ^ 32 < 2 ^ 64 by omega),
    Nat.mod_eq_of_lt (show leNat lo + 256 ^ 4 * leNat hi < 2 ^ 64 by omega)]
  have := Nat.shiftLeft_add_eq_or_of_lt (show leNat lo < 2 ^ 32 by omega) (leNat hi)
  rw [Nat.shiftLeft_eq] at this
  rw [Nat.or_comm]
  omega

theorem take_split (bs : List Byte) (o a b : Nat) :
    (bs.drop o).take (a + b) = (bs.drop o).take a ++ (bs.drop (o + a)).take b := by
  rw [List.take_add, List.drop_drop]

/-- cgroup_sock_addr.c:102-149: load of an address or of the port. -/
theorem saLoadField_gen (hF : SockFacts E C K v) (off size : Nat) (hsz : size = 4 ∨ size = 16)
    (ho : off + size ≤ 72) :
    GenT (saLoadField off size) (fun _ x =>
      Does E gs K x fun s s' => s'.w = s.w ∧ s'.stk = s.stk ∧ Loaded s' ((E.sock.drop off).take size)) := by
  have hp := hF.hdr
  have hl := hF.abi.size
  rcases hsz with rfl | rfl
  · refine .lastEmit ?_
    intro s hs z Q hz
    refine wp_ldHdr hs hp (hs.r6 hF.sa) (by simp only [Size.bytes]; omega) ?_
    refine hz _ (hs.set (d := .r1) _ trivial) ⟨rfl, rfl, ?_, ?_⟩
    · rw [St.set_same, List.take_of_length_le (l := (E.sock.drop off).take 4) (by simp; omega)]; rfl
    · intro h; simp at h; omega
  · unfold saLoadField
    simp only
    by_cases h8 : off % 8 = 0
    · rw [if_pos h8]
      refine .lastEmits ?_
      intro s hs z Q hz
      refine wp_ldHdr hs hp (hs.r6 hF.sa) (by simp only [Size.bytes]; omega) ?_
      have h1 := hs.set (d := .r1) (.sc (BitVec.ofNat 64 (leNat ((E.sock.drop off).take Size.dw.bytes)))) trivial
      refine wp_ldHdr h1 hp (h1.r6 hF.sa) (by simp only [Size.bytes]; omega) ?_
      refine hz _ (h1.set (d := .r2) _ trivial) ⟨rfl, rfl, ?_, ?_⟩
      · simp [Size.bytes, List.take_take]
      · intro _
        simp only [Size.bytes, St.set_same]
        congr 3
        rw [List.drop_take, List.drop_drop]
    · rw [if_neg h8]
      refine .lastEmits ?_
      intro s hs z Q hz
      have len4 : ∀ o, o + 4 ≤ 72 → ((E.sock.drop o).take 4).length = 4 := by
        intro o h; simp only [List.length_take, List.length_drop]; omega
      simp only [List.map_cons, List.map_nil, List.cons_append, List.nil_append]
      refine wp_ldHdr hs hp (hs.r6 hF.sa) (by simp only [Size.bytes]; omega) ?_
      have h1 := hs.set (d := .r1) (.sc (BitVec.ofNat 64 (leNat ((E.sock.drop off).take Size.w.bytes)))) trivial
      refine wp_ldHdr h1 hp (h1.r6 hF.sa) (by simp only [Size.bytes]; omega) ?_
      have h2 := h1.set (d := .r3) (.sc (BitVec.ofNat 64 (leNat ((E.sock.drop (off + 4)).take Size.w.bytes)))) trivial
      refine wp_alu (v := .sc (alu64 .lsh (BitVec.ofNat 64 (leNat ((E.sock.drop (off + 4)).take 4)))
        ((32 : BitVec 32).signExtend 64))) (by simp) (by simp [aluVal, srcVal, Size.bytes]) ?_
      have h3 := h2.set (d := .r3) (.sc (alu64 .lsh (BitVec.ofNat 64 (leNat ((E.sock.drop (off + 4)).take 4)))
        ((32 : BitVec 32).signExtend 64))) trivial
      refine wp_alu (v := .sc (BitVec.ofNat 64 (leNat ((E.sock.drop off).take 8)))) (by simp) ?_ ?_
      · rw [show (8 : Nat) = 4 + 4 from rfl, take_split, ← pack8 (len4 _ (by omega)) (len4 _ (by omega))]
        simp [aluVal, srcVal, Size.bytes]
      have h4 := h3.set (d := .r1) (.sc (BitVec.ofNat 64 (leNat ((E.sock.drop off).take 8)))) trivial
      refine wp_ldHdr h4 hp (h4.r6 hF.sa) (by simp only [Size.bytes]; omega) ?_
      have h5 := h4.set (d := .r2) (.sc (BitVec.ofNat 64 (leNat ((E.sock.drop (off + 8)).take Size.w.bytes)))) trivial
      refine wp_ldHdr h5 hp (h5.r6 hF.sa) (by simp only [Size.bytes]; omega) ?_
      have h6 := h5.set (d := .r3) (.sc (BitVec.ofNat 64 (leNat ((E.sock.drop (off + 12)).take Size.w.bytes)))) trivial
      refine wp_alu (v := .sc (alu64 .lsh (BitVec.ofNat 64 (leNat ((E.sock.drop (off + 12)).take 4)))
        ((32 : BitVec 32).signExtend 64))) (by simp) (by simp [aluVal, srcVal, Size.bytes]) ?_
      have h7 := h6.set (d := .r3) (.sc (alu64 .lsh (BitVec.ofNat 64 (leNat ((E.sock.drop (off + 12)).take 4)))
        ((32 : BitVec 32).signExtend 64))) trivial
      refine wp_alu (v := .sc (BitVec.ofNat 64 (leNat ((E.sock.drop (off + 8)).take 8)))) (by simp) ?_ ?_
      · rw [show (8 : Nat) = 4 + 4 from rfl, take_split (o := off + (4 + 4)),
          ← pack8 (len4 _ (by omega)) (len4 _ (by omega))]
        simp [aluVal, srcVal, Size.bytes]
      refine hz _ (h7.set (d := .r2) _ trivial) ⟨rfl, rfl, ?_, ?_⟩
      · simp [List.take_take]
      · intro _
        simp only [St.set_same]
        congr 3
        rw [List.drop_take, List.drop_drop]

/-- Equality of an address. -/
theorem saLoadCmp_ok (hF : SockFacts E C K v) (m : Matcher) (off size : Nat) (hsz : size = 4 ∨ size = 16)
    (ho : off + size ≤ 72) (hmp : m.type ≠ .metaProbability)
    (hc : ∀ rn, Spec.sockCore v rn C.chain.sets C.thr m =
      some (decide ((E.sock.drop off).take size = m.payload.take size))) :
    GenT (saLoadCmp m off size) (fun _ x => MatchT E gs K (semM (sockCtx E C v) m) x) := by
  rw [sockM_of hmp hc]
  unfold saLoadCmp
  refine (saLoadField_gen (gs := gs) hF off size hsz ho).then fun _ x hx => ?_
  refine (cmpValue_field (E := E) (gs := gs) (K := K) m m.payload size (by omega)).mono ?_
  rintro _ y ⟨_, _, hy⟩ s hs
  refine hx s hs y _ ?_
  rintro s' hs' ⟨hw, _, hld⟩
  have hl := hF.abi.size
  have := hy s' _ hs' (by simp only [List.length_take, List.length_drop]; omega) hld
  rw [hw] at this
  exact this

/-- Network of an address. -/
theorem saNet_ok (hF : SockFacts E C K v) (m : Matcher) (off size : Nat) (hsz : size = 4 ∨ size = 16)
    (ho : off + size ≤ 72) (hmp : m.type ≠ .metaProbability)
    (hc : ∀ rn, Spec.sockCore v rn C.chain.sets C.thr m = some (Spec.inNet ((E.sock.drop off).take size) m.payload)) :
    GenT (saNet m off size) (fun _ x => MatchT E gs K (semM (sockCtx E C v) m) x) := by
  rw [sockM_of hmp hc]
  unfold saNet
  refine .thenLift fun plen hpl => ?_
  obtain ⟨hplen, rfl⟩ := rd_ok hpl
  refine (saLoadField_gen (gs := gs) hF off size hsz ho).then fun _ x hx => ?_
  refine (cmpMasked_field (E := E) (gs := gs) (K := K) m (m.payload.drop 4) _ size hsz).mono ?_
  rintro _ y ⟨_, _, _, hy⟩ s hs
  refine hx s hs y _ ?_
  rintro s' hs' ⟨hw, _, hld⟩
  have hl := hF.abi.size
  have := hy s' _ hs' (by simp only [List.length_take, List.length_drop]; omega) hld
  rw [hw] at this
  exact this

/-- The 4-byte port field holds the 2-byte port. -/
theorem SockFacts.port (hF : SockFacts E C K v) {s : St} (h : Loaded s ((E.sock.drop 24).take 4)) : Loaded s v.dport := by
  have hl := hF.abi.size
  have e : (E.sock.drop 24).take 4 = v.dport ++ [0, 0] := by
    rw [show (4 : Nat) = 2 + 2 from rfl, take_split, hF.abi.port, hF.view]; rfl
  have hlen : v.dport.length = 2 := by
    rw [hF.view]; simp only [Spec.sockView, List.length_take, List.length_drop]; omega
  refine ⟨?_, fun h => by omega⟩
  have := h.1
  rw [e, List.take_of_length_le (by simp; omega), leNat_append] at this
  rw [this, List.take_of_length_le (by omega)]
  simp [leNat]

/-- Destination port. -/
theorem saPort_ok (hF : SockFacts E C K v) (m : Matcher) (hop : m.op = .eq ∨ m.op = .range)
    (ht : m.type = .metaDport ∨ m.type = .tcpDport ∨ m.type = .udpDport) :
    GenT (saPort m) (fun _ x => MatchT E gs K (semM (sockCtx E C v) m) x) := by
  have hmp : m.type ≠ .metaProbability := by rcases ht with h | h | h <;> rw [h] <;> decide
  have hc : ∀ rn, Spec.sockCore v rn C.chain.sets C.thr m = some (if m.op = .range then
        decide (Spec.host m.payload 0 2 ≤ Spec.beNat v.dport ∧ Spec.beNat v.dport ≤ Spec.host m.payload 2 2)
      else decide (v.dport = m.payload.take 2)) := by
    intro rn
    rcases ht with h | h | h <;> simp only [Spec.sockCore, h] <;> split <;> rfl
  rw [sockM_of hmp hc]
  unfold saPort
  refine (saLoadField_gen (gs := gs) hF saUserPort 4 (by simp) (by simp [saUserPort])).then fun _ x hx => ?_
  refine (portCmp_ok (E := E) (gs := gs) (K := K) m hop).mono ?_
  intro _ y hy s hs
  refine hx s hs y _ ?_
  rintro s' hs' ⟨hw, _, hld⟩
  have hl := hF.abi.size
  have hlen : v.dport.length = 2 := by
    rw [hF.view]; simp only [Spec.sockView, List.length_take, List.length_drop]; omega
  have := hy s' _ hs' hlen (hF.port hld)
  rw [hw] at this
  exact this

theorem saL3Proto_ok (hF : SockFacts E C K v) (m : Matcher) (ht : m.type = .metaL3Proto) :
    GenT (metaMatcher C m) (fun _ x => MatchT E gs K (semM (sockCtx E C v) m) x) := by
  have hmp : m.type ≠ .metaProbability := by rw [ht]; decide
  have hc : ∀ rn, Spec.sockCore v rn C.chain.sets C.thr m = some (decide (v.l3Num = Spec.host m.payload 0 2)) := by
    intro rn; simp only [Spec.sockCore, ht]
  rw [sockM_of hmp hc]
  unfold metaMatcher
  rw [ht]
  refine .thenLift fun n hn => ?_
  obtain ⟨hpl, hne⟩ := rd_ok hn
  have hhost : Spec.host m.payload 0 2 = n := hne.symm
  have hn16 : n < 65536 := by rw [hne]; exact leNat2_lt _ _
  refine (cmpValue_small (E := E) (gs := gs) (K := K) m (leBytes 2 (htobe16 n)) 2 .r7 (by simp)).mono ?_
  rintro _ x ⟨_, _, hx⟩ s hs
  have := hx s _ hs hs.r7
  rw [List.take_of_length_le (by simp), leNat_leBytes, hF.r7,
    ofNat64_toNat (by have := htobe16_lt v.l3Num; omega)] at this
  have hi : (htobe16 v.l3Num = htobe16 n % 256 ^ 2) ↔ (v.l3Num = n) := by
    have h1 := htobe16_lt n
    rw [Nat.mod_eq_of_lt (by omega)]
    exact htobe16_inj (sock_l3Num_lt v) hn16
  simp only [hi] at this
  rw [hhost]
  exact this

theorem saL4Proto_ok (hF : SockFacts E C K v) (m : Matcher) (ht : m.type = .metaL4Proto) :
    GenT (metaMatcher C m) (fun _ x => MatchT E gs K (semM (sockCtx E C v) m) x) := by
  have hmp : m.type ≠ .metaProbability := by rw [ht]; decide
  have hc : ∀ rn, Spec.sockCore v rn C.chain.sets C.thr m = some (decide (v.proto = Spec.host m.payload 0 1)) := by
    intro rn; simp only [Spec.sockCore, ht]
  rw [sockM_of hmp hc]
  unfold metaMatcher
  rw [ht]
  refine (cmpValue_small (E := E) (gs := gs) (K := K) m m.payload 1 .r8 (by simp)).mono ?_
  rintro _ x ⟨_, _, hx⟩ s hs
  have := hx s _ hs hs.r8
  rw [hF.r8, ofNat64_toNat (by have := hF.proto_lt; omega)] at this
  exact this

theorem saIp4Proto_ok (hF : SockFacts E C K v) (m : Matcher) (ht : m.type = .ip4Proto) :
    GenT (do emit (mov .r1 .r8); cmpValue m m.payload 1 .r1)
      (fun _ x => MatchT E gs K (semM (sockCtx E C v) m) x) := by
  have hmp : m.type ≠ .metaProbability := by rw [ht]; decide
  have hc : ∀ rn, Spec.sockCore v rn C.chain.sets C.thr m = some (decide (v.proto = Spec.host m.payload 0 1)) := by
    intro rn; simp only [Spec.sockCore, ht]
  rw [sockM_of hmp hc]
  refine .thenEmit ?_
  refine (cmpValue_small (E := E) (gs := gs) (K := K) m m.payload 1 .r1 (by simp)).mono ?_
  rintro _ x ⟨_, _, hx⟩ s hs
  refine wp_mov (v := .sc K.r8) (by simp) hs.r8 (by simp) ?_
  have := hx _ K.r8 (hs.set (d := .r1) (.sc K.r8) trivial) (St.set_same _ _ _)
  rw [hF.r8, ofNat64_toNat (by have := hF.proto_lt; omega)] at this
  rw [hF.r8]
  exact this

theorem saProbability_ok (m : Matcher) (ht : m.type = .metaProbability) :
    GenT (metaMatcher C m) (fun _ x => MatchT E gs K (semM (sockCtx E C v) m) x) := by
  have e : metaMatcher C m = metaProbability C m := by unfold metaMatcher; rw [ht]
  rw [e]
  refine (metaProbability_ok (E := E) (gs := gs) (K := K) (C := C)
    (i := ⟨.ethernet, [], false, 0, 0, 0⟩) (v := ⟨none, none, []⟩) m ht).mono fun _ x hx => ?_
  have e2 : semM (sockCtx E C v) m = specM E C ⟨.ethernet, [], false, 0, 0, 0⟩ ⟨none, none, []⟩ m := by
    funext w
    simp only [semM, specM, sockCtx, Spec.sockSem, Spec.sockHolds, Spec.sockCore, Spec.holds, Spec.core, ht, kernelOf]
  rw [e2]
  exact hx

/-- Offsets and sizes of the fields usable in sets. -/
theorem saCtxOff_spec (hF : SockFacts E C K v) {t : MType} {co : Nat} (h : saCtxOff t = some co)
    (hp : t ≠ .ip4Proto) : (E.sock.drop co).take t.meta_.size = Spec.sockField v t ∧ co + t.meta_.size ≤ 72 := by
  rw [hF.view]
  cases t <;> simp [saCtxOff] at h <;> subst h <;> first
    | exact absurd rfl hp
    | exact ⟨rfl, by decide⟩

/-- cgroup_sock_addr.c:325-363: the key in the scratch area is the concatenation of the fields. -/
theorem saSetKey_gen (hF : SockFacts E C K v) (ts : List MType) (off : Nat)
    (hfit : off + (ts.map fun t => t.meta_.size).sum ≤ 64) :
    GenT (saSetKey ts off) (fun _ x => (Spec.keyOf (Spec.sockField v) ts).length = (ts.map fun t => t.meta_.size).sum ∧
      ∀ s, Inv K s → ∀ z Q, (∀ s', Inv K s' → s'.w = s.w →
        s'.stk = s.stk.put (scr off) ((Spec.keyOf (Spec.sockField v) ts).map .byte) → wp E gs z 0 Q s') →
      wp E gs (x ++ z) 0 Q s) := by
  induction ts generalizing off with
  | nil =>
    refine .lastPure ⟨rfl, ?_⟩
    intro s hs z Q hz
    exact hz s hs rfl (by simp [Spec.keyOf, Stack.put_nil])
  | cons t ts ih =>
    simp only [List.map_cons, List.sum_cons] at hfit
    unfold saSetKey
    cases hco : saCtxOff t with
    | none => exact (GenT.fail (α := Unit) _ (fun _ _ => False)).then fun _ _ h => h.elim
    | some co =>
      have done : ∀ (fb : List Byte), Spec.sockField v t = fb → fb.length = t.meta_.size → ∀ (y : List Item),
          (∀ s, Inv K s → ∀ z Q, (∀ s', Inv K s' → s'.w = s.w →
            s'.stk = s.stk.put (scr off) (fb.map .byte) → wp E gs z 0 Q s') → wp E gs (y ++ z) 0 Q s) →
          GenT (saSetKey ts (off + t.meta_.size)) (fun _ x =>
            (Spec.keyOf (Spec.sockField v) (t :: ts)).length = t.meta_.size + (ts.map fun t => t.meta_.size).sum ∧
            ∀ s, Inv K s → ∀ z Q, (∀ s', Inv K s' → s'.w = s.w →
              s'.stk = s.stk.put (scr off) ((Spec.keyOf (Spec.sockField v) (t :: ts)).map .byte) → wp E gs z 0 Q s') →
            wp E gs ((y ++ x) ++ z) 0 Q s) := by
        intro fb hfb hlen y hy
        refine (ih (off + t.meta_.size) (by omega)).mono ?_
        rintro _ x ⟨hkl, hx⟩
        refine ⟨?_, ?_⟩
        · have : Spec.keyOf (Spec.sockField v) (t :: ts) = fb ++ Spec.keyOf (Spec.sockField v) ts := by
            simp [Spec.keyOf, hfb]
          rw [this, List.length_append, hkl, hlen]
        · intro s hs z Q hz
          rw [List.append_assoc]
          refine hy s hs _ Q fun s1 i1 w1 e1 => ?_
          refine hx s1 i1 z Q fun s2 i2 w2 e2 => ?_
          refine hz s2 i2 (by rw [w2, w1]) ?_
          rw [e2, e1]
          have : scr (off + t.meta_.size) = scr off + (fb.map Cell.byte).length := by
            simp only [scr, List.length_map, hlen]; omega
          rw [this, Stack.put_put]
          simp [Spec.keyOf, hfb]
      by_cases hp : t = .ip4Proto
      · subst hp
        simp only [if_true]
        refine .thenEmit ?_
        refine (done [BitVec.ofNat 8 v.proto] rfl rfl [it (.stx .b .r10 (scr off) .r8)] ?_).mono fun _ x h => h
        intro s hs z Q hz
        have hsz : MType.ip4Proto.meta_.size = 1 := rfl
        have := hs.storeScr (E := E) (o := scr off) (n := 1) K.r8 (by simp only [scr]; omega) (by simp only [scr]; omega)
        refine wp_stx (s' := { s with stk := s.stk.put (scr off) ((leBytes 1 K.r8.toNat).map .byte) }) ?_ ?_
        · rw [hs.r8]
          exact this
        refine hz _ (hs.put (o := scr off) _ (by simp only [scr]; omega)) rfl ?_
        show s.stk.put _ _ = _
        congr 2
        rw [hF.r8, ofNat64_toNat (by have := hF.proto_lt; omega)]
        rfl
      · simp only [hp, if_false]
        obtain ⟨h1, h2⟩ := saCtxOff_spec hF hco hp
        refine (stubLoad_gen (E := E) (gs := gs) (K := K) t.meta_.size co t.meta_.size (scr off)
          (Nat.le_refl _) (by simp only [scr]; omega) (by simp only [scr]; omega)).then fun _ y hy => ?_
        have hl := hF.abi.size
        refine (done _ rfl (by rw [← h1]; simp only [List.length_take, List.length_drop]; omega) y ?_).mono fun _ x h => h
        intro s hs z Q hz
        refine hy _ _ hF.hdr (by omega) s hs (hs.r6 hF.sa) z Q fun s' i' _ w' e' => ?_
        exact hz s' i' w' (by rw [e', h1])

/-- Membership in a set. -/
theorem saSet_ok (hF : SockFacts E C K v) (hL : SetsLoaded E C) (hW : SetsWf C.chain.sets)
    (hG : C.groups = buildGroups C.chain.sets) (m : Matcher) (ht : m.type = .set) (hop : m.op = .in_) :
    GenT (saSet C m) (fun _ x => MatchT E C.groups K (semM (sockCtx E C v) m) x) := by
  unfold saSet
  refine .thenLift fun r hr => ?_
  cases r with
  | none => exact GenT.fail _ _
  | some pr =>
    obtain ⟨ix, s⟩ := pr
    have hsf := hr
    unfold Chain.setFor at hr
    rw [if_neg (by simp [ht])] at hr
    obtain ⟨n, hn, hr⟩ := Res.bind_eq_ok hr
    obtain ⟨hpl, hne⟩ := rd_ok hn
    have hhost : Spec.host m.payload 0 4 = n := hne.symm
    simp only [Res.ok.injEq, Option.map_eq_some_iff, Prod.mk.injEq] at hr
    obtain ⟨s', hget, rfl, rfl⟩ := hr
    have hws := hW.each s' (List.mem_of_getElem? hget)
    obtain ⟨k1, k2, k3⟩ := hws.keyOk
    have hc : ∀ rn, Spec.sockCore v rn C.chain.sets C.thr m = some (Spec.inSet (Spec.sockField v) s') := by
      intro rn; simp only [Spec.sockCore, ht, hhost, hget]
    rw [sockM_of (by rw [ht]; decide) hc]
    have hnets := isNet_any s'.key
    cases htr : s'.useTrie with
    | true =>
      dsimp only
      rw [if_pos htr]
      obtain ⟨t, hk, hnt⟩ := k3 htr
      simp only [hk]
      have hr' := k1 t (by rw [hk]; simp)
      obtain ⟨a1, a2, a3, _, _, a4⟩ := keyType hr'
      cases hco : saCtxOff t with
      | none => exact GenT.fail _ _
      | some co =>
        have hne : t ≠ .ip4Proto := by intro e; subst e; cases hnt
        obtain ⟨h1, h2⟩ := saCtxOff_spec hF hco hne
        refine (trieLookup_gen (E := E) (K := K) hL hW hG m hop co t.meta_.size (a4 hnt).2.2).mono ?_
        intro _ x hx st hst
        have hl := hF.abi.size
        have := hx n s' t hsf hget htr hk rfl _ _ hF.hdr (by omega) st hst (hst.r6 hF.sa)
        rw [h1] at this
        have hin : Spec.inSet (Spec.sockField v) s' = s'.elems.any (Spec.inNet (Spec.sockField v t)) := by
          unfold Spec.inSet
          rw [hnets, hk]
          simp [hnt, Spec.keyOf]
        simp only [hin]
        exact this
    | false =>
      dsimp only
      rw [if_neg (by rw [htr]; decide)]
      obtain ⟨hnn, hes⟩ := k2 htr
      have hfits := hws.fits
      refine (saSetKey_gen (gs := C.groups) hF s'.key 0 (by omega)).then ?_
      rintro _ y ⟨hkl, hy⟩
      refine (mapLookup_gen (E := E) (K := K) hL hW hG m hop 0 (by omega)).mono ?_
      intro _ x hx st hst
      refine hy st hst x _ ?_
      intro s2 i2 w2 e2
      obtain ⟨g, hg1, hg2⟩ := stackBytes_put i2 (o := scr 0) (bs := Spec.keyOf (Spec.sockField v) s'.key)
        (n := s'.elemSize) (by simp [scr]) (by simp only [scr]; omega) (by omega) _ e2
      have hg0 : g = [] := by
        rw [List.length_append, hkl] at hg2
        exact List.eq_nil_of_length_eq_zero (by omega)
      subst hg0
      rw [List.append_nil] at hg1 hg2
      have := hx n s' hsf hget s2 _ i2 hg1 hg2
      have hin : Spec.inSet (Spec.sockField v) s' = memberOf s' (Spec.keyOf (Spec.sockField v) s'.key) := by
        unfold Spec.inSet memberOf
        rw [hnets, htr]
        have : s'.key.any MType.isNet = false := by simpa using hnn
        simp [this]
      simp only [hin]
      rw [← w2]
      exact this

/-- Every matcher of a socket program. -/
theorem saMatcher_ok (hF : SockFacts E C K v) (hL : SetsLoaded E C) (hW : SetsWf C.chain.sets)
    (hG : C.groups = buildGroups C.chain.sets) (m : Matcher) (hwf : MatcherWf m) :
    GenT (inlineMatcher C m) (fun _ x => MatchT E C.groups K (semM (sockCtx E C v) m) x) := by
  have e : inlineMatcher C m = saMatcher C m := by
    unfold inlineMatcher
    rw [hF.hook]
  rw [e]
  unfold MatcherWf at hwf
  have hv := hF.view
  have port : (m.type = .metaDport ∨ m.type = .tcpDport ∨ m.type = .udpDport) → m.op = .eq ∨ m.op = .range := by
    intro ht
    rcases ht with h | h | h <;> rw [h] at hwf <;> revert hwf <;> cases m.op <;> simp [MType.refSize]
  unfold saMatcher
  cases ht : m.type <;> simp only <;> first
    | exact GenT.fail _ _
    | exact saL3Proto_ok hF m ht
    | exact saL4Proto_ok hF m ht
    | exact saProbability_ok m ht
    | exact saIp4Proto_ok hF m ht
    | exact saPort_ok hF m (port (by simp [ht])) (by simp [ht])
    | exact saLoadCmp_ok hF m _ _ (by simp) (by decide) (by rw [ht]; decide)
        (by intro rn; simp only [Spec.sockCore, ht, Spec.sockField, hv]; rfl)
    | exact saNet_ok hF m _ _ (by simp) (by decide) (by rw [ht]; decide)
        (by intro rn; simp only [Spec.sockCore, ht, Spec.sockField, hv]; rfl)
    | (refine saSet_ok hF hL hW hG m ht ?_; rw [if_pos ht] at hwf; exact hwf.1)

end Bf
