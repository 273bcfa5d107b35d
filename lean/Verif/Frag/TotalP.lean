import Verif.Frag.TotalM
/-!
# The code of any matcher accepted on a hook can be generated
-/
namespace Bf

variable {gs : Groups} {C : Cfg} {m : Matcher}

/-- The network prefix of a matcher is not longer than the address. -/
def NetWf (m : Matcher) : Prop := m.type.isNet = true → Spec.host m.payload 0 4 ≤ 8 * m.type.meta_.size

/-- What is needed of a set matcher. -/
structure SetMatch (C : Cfg) (m : Matcher) : Prop where
  use : ∃ i s, SetUse C m i s ∧ SetWf s ∧ ∀ t ∈ s.key, t.unsupported C.chain.hook = false

theorem in_hdr {t : MType} (h : t.refSize .in_ ≠ 0) : t.hdr ∧ t.meta_.size ≤ t.refSize .in_ := by
  cases t <;> simp [MType.refSize, MType.hdr, MType.meta_] at h ⊢

theorem setNew_facts {name : Option String} {key : List MType} {s : BSet} (h : setNew name key = .ok s) :
    key ≠ [] ∧ key.length ≤ 8 ∧ (∀ t ∈ key, t.refSize .in_ ≠ 0) ∧ s.elemSize = (key.map (·.refSize .in_)).sum ∧
    s.useTrie = key.any MType.isNet := by
  unfold setNew at h
  split at h
  · cases h
  split at h
  · cases h
  split at h
  · cases h
  split at h
  · cases h
  rename_i h1 h2 h3 h4
  cases h
  refine ⟨by intro e; simp [e] at h1, by omega, ?_, rfl, rfl⟩
  intro t ht h0
  exact h3 (List.any_eq_true.mpr ⟨t, ht, by simpa using h0⟩)

theorem sum_le {l : List MType} (h : ∀ t ∈ l, t.meta_.size ≤ t.refSize .in_) :
    (l.map (·.meta_.size)).sum ≤ (l.map (·.refSize .in_)).sum := by
  induction l with
  | nil => simp
  | cons a l ih =>
    simp only [List.map_cons, List.sum_cons]
    have := h a (List.mem_cons_self ..)
    have := ih fun t ht => h t (List.mem_cons_of_mem _ ht)
    omega

theorem SetWf.key {s : BSet} (h : SetWf s) : s.key ≠ [] ∧ s.key.length ≤ 8 ∧ (∀ t ∈ s.key, t.refSize .in_ ≠ 0) ∧
    (s.key.map (·.meta_.size)).sum ≤ 64 := by
  obtain ⟨s0, h1, h2, h3⟩ := h.new
  obtain ⟨k1, k2, k3, k4, k5⟩ := setNew_facts h1
  refine ⟨k1, k2, k3, ?_⟩
  have := sum_le fun t ht => (in_hdr (k3 t ht)).2
  have := h.fits
  omega

theorem hdr_size_le {t : MType} (h : t.hdr) : t.meta_.size ≤ 16 := by
  rcases hdr_size h with h | h | h | h <;> omega

theorem Tot.pktSet (ho : m.op = .in_) (hs : SetMatch C m) : Tot C.groups 150 (pktSet C m) := by
  obtain ⟨i, s, hu, hw, _⟩ := hs.use
  obtain ⟨k1, k2, k3, k4⟩ := hw.key
  unfold Bf.pktSet
  refine .lift hu.idx ?_
  simp only
  refine .ite (fun _ => ?_) fun _ => ?_
  · cases hk : s.key with
    | nil => exact absurd hk k1
    | cons t ts =>
      have hh := (in_hdr (k3 t (by rw [hk]; exact List.mem_cons_self ..))).1
      exact .mono (.bind (n := 1) (m := 43) (.loadHeader _ hh) fun _ =>
        .trieLookup hu (by simp [ho]) _ _ (hdr_size_le hh)) (by omega)
  · exact .mono (.bind (m := 9) (.setKey s.key 0 fun t ht => (in_hdr (k3 t ht)).1) fun _ =>
      .mapLookup hu (by simp [ho]) _) (by omega)

/-- The operator and payload of a well-formed matcher that is not a set. -/
theorem MatcherWf.field (h : MatcherWf m) (hs : m.type ≠ .set) :
    m.op ≠ .in_ ∧ m.type.refSize m.op ≠ 0 ∧ m.payload.length = m.type.refSize m.op := by
  unfold MatcherWf at h
  rwa [if_neg hs] at h

theorem Tot.pktLoadCmp (hh : m.type.hdr) (ho : m.op = .eq) (hl : m.type.meta_.size ≤ m.payload.length) :
    Tot gs 14 (pktLoadCmp m m.type.meta_) := by
  refine .bind (n := 3) (m := 11) (.pktLoad _ hh) fun _ => .cmpValue _ ho ?_ hl
  rcases hdr_size hh with h | h | h | h <;> simp [h]

theorem Tot.pktNet (hh : m.type.hdr) (ho : m.op = .eq) (hsz : m.type.meta_.size = 4 ∨ m.type.meta_.size = 16)
    (hl : 4 + m.type.meta_.size ≤ m.payload.length) (hp : Spec.host m.payload 0 4 ≤ 8 * m.type.meta_.size) :
    Tot gs 24 (pktNet m m.type.meta_) := by
  unfold Bf.pktNet
  refine .lift (rd_get (by omega)) ?_
  exact .bind (n := 3) (m := 21) (.pktLoad _ hh) fun _ => .cmpMasked _ ho hsz (by simp only [List.length_drop]; omega) hp

theorem Tot.pktPort (hh : m.type.hdr) (hz : m.type.meta_.size = 2)
    (h : (m.op = .eq ∧ m.payload.length = 2) ∨ (m.op = .range ∧ m.payload.length = 4)) :
    Tot gs 14 (pktPort m m.type.meta_) := by
  unfold Bf.pktPort
  refine .bind (n := 3) (m := 11) (.pktLoad _ hh) fun _ => ?_
  rcases h with ⟨ho, hl⟩ | ⟨ho, hl⟩
  · rw [if_neg (by simp [ho])]
    exact .cmpValue _ ho (by simp [hz]) (by omega)
  · rw [if_pos ho]
    exact .mono (.bind (n := 1) (m := 3) (.emit _) fun _ => .lift (rd_get (by omega)) (.lift (rd_get (by omega))
      (.cmpRange _ _ _))) (by omega)

theorem Tot.swich2 (reg : Reg) (a b : BitVec 32) (xa xb xd : Insn) :
    Tot gs 8 (swich reg [(a, [xa]), (b, [xb])] [xd]) :=
  .mono (.of_emits (emits_swich2 reg a b xa xb xd) (by
    intro i hi
    simp only [swich2F, List.mem_cons, List.not_mem_nil, or_false] at hi
    rcases hi with rfl | rfl | rfl | rfl | rfl | rfl | rfl | rfl <;> trivial)) (by simp [swich2F])

theorem Tot.metaPort (h : (m.op = .eq ∧ m.payload.length = 2) ∨ (m.op = .range ∧ m.payload.length = 4)) :
    Tot gs 21 (metaPort m) := by
  unfold Bf.metaPort
  refine .bind (n := 1) (m := 20) (.emit _) fun _ => ?_
  refine .bind (n := 8) (m := 12) (.swich2 _ _ _ _ _ _) fun _ => ?_
  refine .bind (n := 1) (m := 11) (.next rfl) fun _ => ?_
  rcases h with ⟨ho, hl⟩ | ⟨ho, hl⟩
  · rw [if_neg (by simp [ho])]
    exact .cmpValue _ ho (by simp) (by omega)
  · rw [if_pos ho]
    exact .mono (.bind (n := 1) (m := 3) (.emit _) fun _ => .lift (rd_get (by omega)) (.lift (rd_get (by omega))
      (.cmpRange _ _ _))) (by omega)

theorem Tot.metaFlow (h : 4 ≤ m.payload.length) : Tot gs 12 (metaFlowProbability C m) := by
  unfold Bf.metaFlowProbability
  refine .lift (rd_get (by omega)) ?_
  exact .bind (n := 1) (m := 11) (.emit _) fun _ => .bind (n := 1) (m := 10) (.emit _) fun _ =>
    .bind (n := 1) (m := 9) (.next rfl) fun _ => .bind (n := 1) (m := 8) (.emit _) fun _ =>
    .bind (n := 1) (m := 7) (.emit _) fun _ => .bind (n := 1) (m := 6) (.next rfl) fun _ =>
    .bind (n := 4) (m := 2) (.emits _) fun _ => .bind (n := 1) (m := 1) (.stub _) fun _ => .next rfl

/-- Matchers evaluated by the generic `meta` code. -/
theorem Tot.metaMatcher (hwf : MatcherWf m)
    (ht : m.type = .metaIface ∨ m.type = .metaL3Proto ∨ m.type = .metaL4Proto ∨ m.type = .metaProbability ∨
      m.type = .metaSport ∨ m.type = .metaDport ∨ m.type = .metaFlowProbability) :
    Tot gs 21 (metaMatcher C m) := by
  have hf := hwf.field (by rcases ht with h | h | h | h | h | h | h <;> simp [h])
  unfold Bf.metaMatcher
  rcases ht with h | h | h | h | h | h | h <;> rw [h] <;> rw [h] at hf <;> simp only
  · cases ho : m.op <;> simp [ho, MType.refSize] at hf
    unfold metaIface
    exact .mono (.bind (n := 1) (m := 1) (.emit _) fun _ => .mono (.bind (n := 0) (m := 1) (.jmpIns (by simp [ho]))
      fun _ => .lift (rd_get (by omega)) (.next rfl)) (by omega)) (by omega)
  · cases ho : m.op <;> simp [ho, MType.refSize] at hf
    exact .lift (rd_get (by omega)) (.mono (.cmpValue _ ho (by simp) (by simp [leBytes])) (by omega))
  · cases ho : m.op <;> simp [ho, MType.refSize] at hf
    exact .mono (.cmpValue _ ho (by simp) (by omega)) (by omega)
  · cases ho : m.op <;> simp [ho, MType.refSize] at hf
    exact .lift (rd_get (by omega)) (.mono (.bind (n := 1) (m := 1) (.emit _) fun _ => .next rfl) (by omega))
  · refine .metaPort ?_
    cases ho : m.op <;> simp [ho, MType.refSize] at hf <;> simp [hf]
  · refine .metaPort ?_
    cases ho : m.op <;> simp [ho, MType.refSize] at hf <;> simp [hf]
  · cases ho : m.op <;> simp [ho, MType.refSize] at hf
    exact .mono (.metaFlow (by omega)) (by omega)

theorem Tot.packetMatcher (hwf : MatcherWf m) (hn : NetWf m) (hset : m.type = .set → SetMatch C m)
    (h1 : m.type ≠ .metaMark) (h2 : m.type ≠ .metaFlowHash) : Tot C.groups 150 (packetMatcher C m) := by
  by_cases hs : m.type = .set
  · unfold Bf.packetMatcher
    rw [hs]
    refine .pktSet ?_ (hset hs)
    unfold MatcherWf at hwf
    rw [if_pos hs] at hwf
    exact hwf.1
  have hf := hwf.field hs
  unfold NetWf at hn
  have hcmp : m.type.hdr → m.op = .eq → m.type.meta_.size ≤ m.payload.length →
      Tot C.groups 150 (Bf.pktLoadCmp m m.type.meta_) := fun a b c => .mono (.pktLoadCmp a b c) (by omega)
  have hnet : m.type.hdr → m.op = .eq → (m.type.meta_.size = 4 ∨ m.type.meta_.size = 16) →
      4 + m.type.meta_.size ≤ m.payload.length → Spec.host m.payload 0 4 ≤ 8 * m.type.meta_.size →
      Tot C.groups 150 (Bf.pktNet m m.type.meta_) := fun a b c d e => .mono (.pktNet a b c d e) (by omega)
  have hport : m.type.hdr → m.type.meta_.size = 2 →
      ((m.op = .eq ∧ m.payload.length = 2) ∨ (m.op = .range ∧ m.payload.length = 4)) →
      Tot C.groups 150 (Bf.pktPort m m.type.meta_) := fun a b c => .mono (.pktPort a b c) (by omega)
  have hmeta := fun h => Tot.mono (Tot.metaMatcher (gs := C.groups) (C := C) hwf h) (by omega : 21 ≤ 150)
  unfold Bf.packetMatcher
  cases ht : m.type <;> rw [ht] at hf hn hcmp hnet hport hs h1 h2 hmeta <;>
    simp only [MType.refSize, ne_eq, MType.isNet, forall_const, true_implies] at hf hn <;> simp only
  case set => exact absurd rfl hs
  case metaMark => exact absurd rfl h1
  case metaFlowHash => exact absurd rfl h2
  case metaIface | metaL3Proto | metaL4Proto | metaProbability | metaSport | metaDport | metaFlowProbability =>
    exact hmeta (by simp)
  case ip4Saddr | ip4Daddr | ip4Proto | ip6Saddr | ip6Daddr | icmpType | icmpCode | icmpv6Type | icmpv6Code =>
    cases ho : m.op <;> simp [ho] at hf
    exact hcmp (by simp [MType.hdr, MType.meta_]) ho (by simp [MType.meta_, hf])
  case ip4Snet | ip4Dnet | ip6Snet | ip6Dnet =>
    cases ho : m.op <;> simp [ho] at hf
    exact hnet (by simp [MType.hdr, MType.meta_]) ho (by simp [MType.meta_]) (by simp [MType.meta_, hf]) hn
  case tcpSport | tcpDport | udpSport | udpDport =>
    refine hport (by simp [MType.hdr, MType.meta_]) (by simp [MType.meta_]) ?_
    cases ho : m.op <;> simp [ho] at hf <;> simp [hf]
  case tcpFlags =>
    unfold pktTcpFlags
    refine .mono (.bind (n := 3) (m := 11) (.pktLoad _ (by simp [MType.hdr, MType.meta_])) fun _ => ?_) (by omega)
    cases ho : m.op <;> simp [ho] at hf <;> simp only
    · exact .cmpValue _ ho (by simp [MType.meta_]) (by simp [MType.meta_, hf])
    · exact .lift (rd_get (by omega)) (.mono (.cmpBitfield _ _ (by simp [ho])) (by omega))
    · exact .lift (rd_get (by omega)) (.mono (.cmpBitfield _ _ (by simp [ho])) (by omega))
  case ip4Dscp =>
    cases ho : m.op <;> simp [ho] at hf
    unfold pktIp4Dscp
    exact .mono (.bind (n := 3) (m := 2) (.pktLoad _ (by simp [MType.hdr, MType.meta_])) fun _ =>
      .lift (rd_get (by omega)) (.bind (n := 1) (m := 1) (.emit _) fun _ =>
        .mono (.bind (n := 0) (m := 1) (.jmpIns (by simp [ho])) fun _ => .next rfl) (by omega))) (by omega)
  case ip6Dscp =>
    cases ho : m.op <;> simp [ho] at hf
    unfold pktIp6Dscp
    exact .mono (.bind (n := 1) (m := 4) (.loadHeader _ (by simp [MType.hdr, MType.meta_])) fun _ =>
      .lift (rd_get (by omega)) (.bind (n := 1) (m := 3) (.emit _) fun _ => .bind (n := 1) (m := 2) (.emit _) fun _ =>
        .bind (n := 1) (m := 1) (.emit _) fun _ =>
        .mono (.bind (n := 0) (m := 1) (.jmpIns (by simp [ho])) fun _ => .next rfl) (by omega))) (by omega)
  case ip6Nexthdr =>
    cases ho : m.op <;> simp [ho] at hf
    unfold pktNexthdr
    refine .lift (rd_get (by omega)) (.mono (.bind (n := 0) (m := 3) (.jmpIns (by simp [ho])) fun _ => ?_) (by omega))
    cases ehMask (leNat ((m.payload.drop 0).take 1)) with
    | some k => exact .bind (n := 1) (m := 2) (.emit _) fun _ => .bind (n := 1) (m := 1) (.emit _) fun _ => .next rfl
    | none => exact .mono (.next rfl) (by omega)

theorem Tot.markCmp (hwf : MatcherWf m) (ht : m.type = .metaMark) (r : Reg) : Tot gs 11 (Bf.cmpValue m m.payload 4 r) := by
  have hf := hwf.field (by simp [ht])
  rw [ht] at hf
  cases ho : m.op <;> simp [ho, MType.refSize] at hf
  exact .cmpValue _ ho (by simp) (by omega)

theorem Tot.hashCmp (hwf : MatcherWf m) (ht : m.type = .metaFlowHash) : Tot gs 11 (if m.op = .range then do
      let lo ← Bf.lift (rd m.payload 0 4)
      let hi ← Bf.lift (rd m.payload 4 4)
      Bf.cmpRange m lo hi .r0
    else Bf.cmpValue m m.payload 4 .r0) := by
  have hf := hwf.field (by simp [ht])
  rw [ht] at hf
  cases ho : m.op <;> simp [ho, MType.refSize] at hf
  · rw [if_neg (by simp)]
    exact .cmpValue _ ho (by simp) (by omega)
  · rw [if_pos rfl]
    exact .lift (rd_get (by omega)) (.lift (rd_get (by omega)) (.mono (.cmpRange _ _ _) (by omega)))

theorem Tot.flavorMatcher (hwf : MatcherWf m) (hn : NetWf m) (hset : m.type = .set → SetMatch C m)
    (hs : m.type.unsupported C.chain.hook = false) (hf : C.chain.hook.flavor ≠ .sockAddr) :
    Tot C.groups 150 (flavorMatcher C m) := by
  by_cases hm : m.type = .metaMark
  · unfold Bf.flavorMatcher
    have c := fun r => Tot.markCmp (gs := C.groups) hwf hm r
    rw [hm] at hs ⊢
    cases hfl : C.chain.hook.flavor <;> simp only
    · cases hh : C.chain.hook <;> simp [hh, Hook.flavor, MType.unsupported] at hfl hs
    · exact .mono (.bind (n := 1) (m := 12) (.emit _) fun _ => .bind (n := 1) (m := 11) (.emit _) fun _ => c _) (by omega)
    · exact .mono (.bind (n := 1) (m := 13) (.emit _) fun _ => .bind (n := 1) (m := 12) (.emit _) fun _ =>
        .bind (n := 1) (m := 11) (.emit _) fun _ => c _) (by omega)
    · exact .mono (.bind (n := 1) (m := 12) (.emit _) fun _ => .bind (n := 1) (m := 11) (.emit _) fun _ => c _) (by omega)
    · exact absurd hfl hf
  by_cases hh : m.type = .metaFlowHash
  · unfold Bf.flavorMatcher
    have c := Tot.hashCmp (gs := C.groups) hwf hh
    rw [hh] at hs ⊢
    cases hfl : C.chain.hook.flavor <;> simp [MType.unsupported, hfl] at hs
    exact .mono (.bind (n := 1) (m := 12) (.emit _) fun _ => .bind (n := 1) (m := 11) (.emit _) fun _ => c) (by omega)
  have hp := Tot.packetMatcher hwf hn hset hm hh
  unfold Bf.flavorMatcher
  split
  · exact absurd ‹_› hm
  · exact absurd ‹_› hm
  · exact absurd ‹_› hh
  · exact absurd ‹_› hm
  · exact hp

/-! ### Matchers of the socket address hooks -/

theorem Tot.saLoadField {off size : Nat} (h : size = 1 ∨ size = 2 ∨ size = 4 ∨ size = 8 ∨ size = 16) :
    Tot gs 8 (saLoadField off size) := by
  unfold Bf.saLoadField
  rcases h with rfl | rfl | rfl | rfl | rfl <;> simp only
  · exact .mono (.emit _) (by omega)
  · exact .mono (.emit _) (by omega)
  · exact .mono (.emit _) (by omega)
  · exact .ite (fun _ => .mono (.emit _) (by omega)) fun _ => .mono (.emits _) (by simp)
  · exact .ite (fun _ => .mono (.emits _) (by simp)) fun _ => .mono (.emits _) (by simp)

theorem Tot.saLoadCmp {off size : Nat} (ho : m.op = .eq) (hz : size = 4 ∨ size = 16) (hl : size ≤ m.payload.length) :
    Tot gs 19 (saLoadCmp m off size) :=
  .bind (n := 8) (m := 11) (.saLoadField (by omega)) fun _ => .cmpValue _ ho (by omega) hl

theorem Tot.saNet {off size : Nat} (ho : m.op = .eq) (hz : size = 4 ∨ size = 16) (hl : 4 + size ≤ m.payload.length)
    (hp : Spec.host m.payload 0 4 ≤ 8 * size) : Tot gs 29 (saNet m off size) := by
  unfold Bf.saNet
  refine .lift (rd_get (by omega)) ?_
  exact .bind (n := 8) (m := 21) (.saLoadField (by omega)) fun _ =>
    .cmpMasked _ ho hz (by simp only [List.length_drop]; omega) hp

theorem Tot.saPort (h : (m.op = .eq ∧ m.payload.length = 2) ∨ (m.op = .range ∧ m.payload.length = 4)) :
    Tot gs 19 (saPort m) := by
  unfold Bf.saPort
  refine .bind (n := 8) (m := 11) (.saLoadField (by omega)) fun _ => ?_
  rcases h with ⟨ho, hl⟩ | ⟨ho, hl⟩
  · rw [if_neg (by simp [ho])]
    exact .cmpValue _ ho (by simp) (by omega)
  · rw [if_pos ho]
    exact .mono (.bind (n := 1) (m := 3) (.emit _) fun _ => .lift (rd_get (by omega)) (.lift (rd_get (by omega))
      (.cmpRange _ _ _))) (by omega)

/-- Every component of a set accepted on a socket address hook can be read. -/
theorem saCtxOff_some {t : MType} {h : Hook} (hf : h.flavor = .sockAddr) (hs : t.unsupported h = false)
    (hr : t.refSize .in_ ≠ 0) : ∃ co, saCtxOff t = some co := by
  cases t <;> simp [MType.refSize] at hr <;> simp [MType.unsupported, hf] at hs <;> simp [saCtxOff]

theorem Tot.saSetKey {gs : Groups} : ∀ (ts : List MType) (off : Nat), (∀ t ∈ ts, t.hdr ∧ ∃ co, saCtxOff t = some co) →
    Tot gs (2 * (ts.map (·.meta_.size)).sum) (saSetKey ts off)
  | [], _, _ => .mono (.pure _) (by simp)
  | t :: ts, off, h => by
    unfold Bf.saSetKey
    have ih := @Tot.saSetKey gs ts (off + t.meta_.size) (fun t' h' => h t' (List.mem_cons_of_mem _ h'))
    obtain ⟨hh, co, hc⟩ := h t (List.mem_cons_self ..)
    have h1 : 1 ≤ t.meta_.size := by rcases hdr_size hh with e | e | e | e <;> omega
    rw [hc]
    simp only [List.map_cons, List.sum_cons]
    refine .mono (n := 2 * t.meta_.size + 2 * (ts.map (·.meta_.size)).sum) ?_ (by omega)
    refine .ite (fun _ => ?_) fun _ => ?_
    · exact .mono (.bind (n := 1) (.emit _) fun _ => ih) (by omega)
    · exact .bind (.stubLoad t.meta_.size co t.meta_.size (scr off) (Nat.le_refl _)) fun _ => ih

theorem Tot.saSet (ho : m.op = .in_) (hs : SetMatch C m) (hf : C.chain.hook.flavor = .sockAddr) :
    Tot C.groups 150 (saSet C m) := by
  obtain ⟨i, s, hu, hw, hk⟩ := hs.use
  obtain ⟨k1, k2, k3, k4⟩ := hw.key
  unfold Bf.saSet
  refine .lift hu.idx ?_
  simp only
  refine .ite (fun _ => ?_) fun _ => ?_
  · cases hk' : s.key with
    | nil => exact absurd hk' k1
    | cons t ts =>
      have hm : t ∈ s.key := by rw [hk']; exact List.mem_cons_self ..
      obtain ⟨co, hc⟩ := saCtxOff_some hf (hk t hm) (k3 t hm)
      simp only [hc]
      exact .mono (.trieLookup hu (by simp [ho]) _ _ (hdr_size_le (in_hdr (k3 t hm)).1)) (by omega)
  · exact .mono (.bind (m := 9) (.saSetKey s.key 0 fun t ht => ⟨(in_hdr (k3 t ht)).1, saCtxOff_some hf (hk t ht) (k3 t ht)⟩)
      fun _ => .mapLookup hu (by simp [ho]) _) (by omega)

theorem Tot.saMatcher (hwf : MatcherWf m) (hn : NetWf m) (hset : m.type = .set → SetMatch C m)
    (hs : m.type.unsupported C.chain.hook = false) (hf : C.chain.hook.flavor = .sockAddr) :
    Tot C.groups 150 (saMatcher C m) := by
  by_cases hst : m.type = .set
  · unfold Bf.saMatcher
    rw [hst]
    refine .saSet ?_ (hset hst) hf
    unfold MatcherWf at hwf
    rw [if_pos hst] at hwf
    exact hwf.1
  have hfl := hwf.field hst
  unfold NetWf at hn
  have hcmp : ∀ off size, m.op = .eq → (size = 4 ∨ size = 16) → size ≤ m.payload.length →
      Tot C.groups 150 (Bf.saLoadCmp m off size) := fun _ _ a b c => .mono (.saLoadCmp a b c) (by omega)
  have hnet : ∀ off size, m.op = .eq → (size = 4 ∨ size = 16) → 4 + size ≤ m.payload.length →
      Spec.host m.payload 0 4 ≤ 8 * size →
      Tot C.groups 150 (Bf.saNet m off size) := fun _ _ a b c d => .mono (.saNet a b c d) (by omega)
  have hmeta := fun h => Tot.mono (Tot.metaMatcher (gs := C.groups) (C := C) hwf h) (by omega : 21 ≤ 150)
  unfold Bf.saMatcher
  cases ht : m.type <;> rw [ht] at hfl hn hst hmeta hs <;>
    simp only [MType.unsupported, hf, MType.isNet, forall_const, true_implies] at hn hs <;> simp only
  case set => exact absurd rfl hst
  case metaL3Proto | metaL4Proto | metaProbability => exact hmeta (by simp)
  case ip4Saddr | ip4Daddr | ip6Saddr | ip6Daddr =>
    cases ho : m.op <;> simp [ho, MType.refSize] at hfl
    exact hcmp _ _ ho (by simp) (by omega)
  case ip4Snet | ip4Dnet | ip6Snet | ip6Dnet =>
    cases ho : m.op <;> simp [ho, MType.refSize] at hfl
    exact hnet _ _ ho (by simp) (by omega) hn
  case metaDport | tcpDport | udpDport =>
    refine .mono (.saPort ?_) (by omega : 19 ≤ 150)
    cases ho : m.op <;> simp [ho, MType.refSize] at hfl <;> simp [hfl]
  case ip4Proto =>
    cases ho : m.op <;> simp [ho, MType.refSize] at hfl
    exact .mono (.bind (n := 1) (m := 11) (.emit _) fun _ => .cmpValue _ ho (by simp) (by omega)) (by omega)
  all_goals simp at hs

/-- A well-formed matcher the hook supports always has code. -/
theorem Tot.matcher (hwf : MatcherWf m) (hn : NetWf m) (hset : m.type = .set → SetMatch C m)
    (hs : m.type.unsupported C.chain.hook = false) : Tot C.groups 150 (inlineMatcher C m) := by
  unfold inlineMatcher
  cases hf : C.chain.hook.flavor <;> simp only
  case sockAddr => exact .saMatcher hwf hn hset hs hf
  all_goals exact .flavorMatcher hwf hn hset hs (by simp [hf])

end Bf
