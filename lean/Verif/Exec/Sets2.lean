import Verif.Exec.Sets
/-!
# Meaning of the code of set matchers on packets; all packet matchers
-/
namespace Bf

variable {E : Env} {gs : Groups} {K : Frame} {C : Cfg} {i : Spec.Input} {v : Spec.View}
  {cap : Spec.Capture}

/-- Types usable in a set key. -/
theorem keyType {t : MType} (h : t.refSize .in_ ≠ 0) :
    t.meta_.layer ≠ .noLayer ∧ t ≠ .ip4Dscp ∧ t ≠ .ip6Dscp ∧ 0 < t.meta_.size ∧
    (t.isNet = false → t.refSize .in_ = t.meta_.size) ∧
    (t.isNet = true → t.meta_.size + 4 ≤ t.refSize .in_ ∧ t.refSize .in_ ≤ 24 ∧ t.meta_.size ≤ 16) := by
  cases t <;> simp_all [MType.refSize, MType.meta_, MType.isNet]

theorem loadHeader_eq {mt : Meta} (hl : mt.layer = .l3 ∨ mt.layer = .l4) :
    loadHeader mt .r6 = emit (.ldx .dw .r6 .r10 (ctx mt.layer.fld)) ∧ mt.layer.fld + 8 ≤ 184 := by
  unfold loadHeader
  rcases hl with h | h <;> rw [h] <;> exact ⟨rfl, by decide⟩

theorem PktFacts.field (hF : PktFacts E C K i v cap) {t : MType} (hr : t.refSize .in_ ≠ 0)
    (hp : Spec.protoOk v t = true) : (Spec.fieldOf v t).length = t.meta_.size := by
  obtain ⟨h1, h2, h3, _⟩ := keyType hr
  obtain ⟨_, _, h4, _, h5⟩ := hF.hdr h1 hp
  rw [h5 ⟨h2, h3⟩]
  simp only [List.length_take, List.length_drop]; omega

/-- packet.c:335-356: the key in the scratch area is the concatenation of the fields. -/
theorem setKey_gen (hF : PktFacts E C K i v cap) (ts : List MType) (off : Nat)
    (hk : ∀ t ∈ ts, t.refSize .in_ ≠ 0 ∧ Spec.protoOk v t = true)
    (hfit : off + (ts.map fun t => t.meta_.size).sum ≤ 64) :
    GenT (setKey ts off) (fun _ x => ∀ s, Inv K s → ∀ z Q,
      (∀ s', Inv K s' → s'.w = s.w →
        s'.stk = s.stk.put (scr off) ((Spec.keyOf (Spec.fieldOf v) ts).map .byte) → wp E gs z 0 Q s') →
      wp E gs (x ++ z) 0 Q s) := by
  induction ts generalizing off with
  | nil =>
    refine .lastPure ?_
    intro s hs z Q hz
    exact hz s hs rfl (by simp [Spec.keyOf, Stack.put_nil])
  | cons t ts ih =>
    obtain ⟨hr, hp⟩ := hk t (List.mem_cons_self ..)
    obtain ⟨k1, k2, k3, _⟩ := keyType hr
    obtain ⟨h1, h2, h3, h4, h5⟩ := hF.hdr k1 hp
    have hfl := hF.field hr hp
    simp only [List.map_cons, List.sum_cons] at hfit
    obtain ⟨hld, hfld⟩ := loadHeader_eq h1
    unfold setKey
    rw [hld]
    refine .thenEmit ?_
    unfold stxPayload
    refine (stubLoad_gen (E := E) (gs := gs) (K := K) t.meta_.size t.meta_.off t.meta_.size (scr off)
      (Nat.le_refl _) (by simp only [scr]; omega) (by simp only [scr]; omega)).then ?_
    intro _ y hy
    refine (ih (off + t.meta_.size) (fun t' h => hk t' (List.mem_cons_of_mem _ h)) (by omega)).mono ?_
    intro _ x hx s hs z Q hz
    obtain ⟨p, hp1, hp2⟩ := h2
    simp only [List.cons_append, List.append_assoc]
    refine wp_ldCtx hs hfld hp1 ?_
    refine hy p _ hp2 h3 _ (hs.set (d := .r6) _ hF.sa) (by simp) _ Q ?_
    intro s1 i1 _ w1 e1
    refine hx s1 i1 z Q ?_
    intro s2 i2 w2 e2
    refine hz s2 i2 (by rw [w2, w1]; rfl) ?_
    rw [e2, e1, ← h5 ⟨k2, k3⟩]
    have : scr (off + t.meta_.size) = scr off + ((Spec.fieldOf v t).map Cell.byte).length := by
      simp only [scr, List.length_map, hfl]; omega
    rw [this, Stack.put_put]
    simp [Spec.keyOf]

theorem samePrefix_append {n k : Nat} {a b g : List Byte} (hk : a.length = k) (h : n ≤ 8 * k) :
    Spec.samePrefix n (a ++ g) b = Spec.samePrefix n a b := by
  have : ∀ i, i < n → Spec.bitAt (a ++ g) i = Spec.bitAt a i := by
    intro i hi
    simp only [Spec.bitAt, Spec.byteAt]
    rw [List.getElem?_append_left (by omega)]
  rw [Bool.eq_iff_iff, samePrefix_iff, samePrefix_iff]
  constructor
  · intro h i hi; rw [← h i hi, this i hi]
  · intro h i hi; rw [← h i hi, this i hi]

/-- Longest prefix match of a full-length key. -/
theorem lpmMatch_key {a g e : List Byte} {n : Nat} (ha : a.length = n) (hn : n ≤ 16)
    (he : Spec.host e 0 4 ≤ 8 * n) :
    lpmMatch (leBytes 4 (n * 8) ++ a ++ g) e = Spec.inNet a e := by
  have h1 : Spec.host (leBytes 4 (n * 8) ++ a ++ g) 0 4 = 8 * n := by
    simp only [Spec.host, List.drop_zero, List.append_assoc]
    rw [List.take_left' (by simp), leNat_leBytes, Nat.mod_eq_of_lt (by omega)]; omega
  have h2 : (leBytes 4 (n * 8) ++ a ++ g).drop 4 = a ++ g := by
    rw [List.append_assoc, List.drop_left' (by simp)]
  unfold lpmMatch Spec.inNet
  rw [h1, h2, samePrefix_append ha he]
  simp [he]

/-- set.c:61-79: lookup of an address in a set of networks. -/
theorem trieLookup_gen (hL : SetsLoaded E C) (hW : SetsWf C.chain.sets)
    (hG : C.groups = buildGroups C.chain.sets) (m : Matcher) (hop : m.op = .in_) (src n : Nat)
    (hn : n ≤ 16) :
    GenT (trieLookup C m src n) (fun _ x => ∀ ix s t, C.chain.setFor m = .ok (some (ix, s)) →
      C.chain.sets[ix]? = some s → s.useTrie = true → s.key = [t] → t.meta_.size = n →
      ∀ p bs, HdrAt E K p bs → src + n ≤ bs.length → ∀ st, Inv K st → st.r .r6 = p →
      wp E C.groups x 0 (mpost K (s.elems.any (Spec.inNet ((bs.drop src).take n)) != m.negate) st.w) st) := by
  unfold trieLookup
  refine .thenEmit (.thenEmit ?_)
  refine (stubLoad_gen (E := E) (gs := C.groups) (K := K) n src n (scr 8)
      (Nat.le_refl _) (by simp only [scr]; omega) (by simp only [scr]; omega)).then ?_
  intro _ y hy
  refine (mapLookup_gen (E := E) (K := K) hL hW hG m hop 4 (by omega)).mono ?_
  intro _ x hx ix s t hsf hget htr hkey hsz p bs hp hlen st hst h6
  have hws := hW.each s (List.mem_of_getElem? hget)
  obtain ⟨s0, hs0, es, et⟩ := hws.new
  rw [hkey] at hs0
  have hs0' : t.refSize .in_ ≠ 0 ∧ s0 = ⟨s.name, [t], ([t].map (·.refSize .in_)).sum, [t].any MType.isNet, []⟩ := by
    unfold setNew at hs0
    split at hs0
    · cases hs0
    · split at hs0
      · cases hs0
      · split at hs0
        · cases hs0
        · next hz =>
          split at hs0
          · cases hs0
          · cases hs0
            exact ⟨by simpa using hz, rfl⟩
  obtain ⟨hr, rfl⟩ := hs0'
  have hnet : t.isNet = true := by rw [htr] at et; simpa using et.symm
  obtain ⟨_, _, _, _, _, hsize⟩ := keyType hr
  obtain ⟨z1, z2, z3⟩ := hsize hnet
  have hes : s.elemSize = t.refSize .in_ := by rw [es]; simp
  have him : ((BitVec.ofNat 32 (n * 8)).signExtend 64) = BitVec.ofNat 64 (n * 8) := by
    apply BitVec.eq_of_toNat_eq
    rw [sext_small (by omega), ofNat64_toNat (by omega)]
  refine wp_movi (by simp) ?_
  rw [him]
  have i1 := hst.set (d := .r1) (.sc (BitVec.ofNat 64 (n * 8))) trivial
  refine wp_stx (s' := { st.set .r1 (.sc (BitVec.ofNat 64 (n * 8))) with
    stk := st.stk.put (scr 4) ((leBytes 4 (n * 8)).map .byte) }) ?_ ?_
  · have := i1.storeScr (E := E) (o := scr 4) (n := 4) (BitVec.ofNat 64 (n * 8)) (by simp [scr]) (by simp [scr])
    rw [ofNat64_toNat (by omega)] at this
    rw [St.set_same]
    exact this
  have i2 := i1.put (o := scr 4) (leBytes 4 (n * 8)) (by simp [scr])
  refine hy p bs hp hlen _ i2 (by simpa using h6) x _ ?_
  intro s3 i3 _ w3 e3
  simp only at e3
  have hbl : ((bs.drop src).take n).length = n := by
    simp only [List.length_take, List.length_drop]; omega
  have e4 : s3.stk = st.stk.put (scr 4) ((leBytes 4 (n * 8) ++ (bs.drop src).take n).map .byte) := by
    rw [e3]
    have : scr 8 = scr 4 + ((leBytes 4 (n * 8)).map Cell.byte).length := by simp [scr]
    rw [this, Stack.put_put, ← List.map_append]
    rfl
  obtain ⟨g, hg1, hg2⟩ := stackBytes_put i3 (o := scr 4) (bs := leBytes 4 (n * 8) ++ (bs.drop src).take n)
    (n := s.elemSize) (by simp [scr]) (by simp only [scr]; omega)
    (by rw [List.length_append, leBytes_length, hbl]; omega) _ e4
  have := hx ix s hsf hget s3 _ i3 hg1 hg2
  have hmem : memberOf s (leBytes 4 (n * 8) ++ (bs.drop src).take n ++ g) =
      s.elems.any (Spec.inNet ((bs.drop src).take n)) := by
    unfold memberOf
    rw [htr, if_pos rfl]
    rw [Bool.eq_iff_iff, List.any_eq_true, List.any_eq_true]
    have hb : ∀ e ∈ s.elems, lpmMatch (leBytes 4 (n * 8) ++ (bs.drop src).take n ++ g) e =
        Spec.inNet ((bs.drop src).take n) e := by
      intro e he
      refine lpmMatch_key hbl hn ?_
      have := hws.trie htr t (by rw [hkey]; simp) e he
      rw [hsz] at this; exact this
    constructor
    · rintro ⟨e, he, h⟩; exact ⟨e, he, by rw [← hb e he]; exact h⟩
    · rintro ⟨e, he, h⟩; exact ⟨e, he, by rw [hb e he]; exact h⟩
  rw [hmem, w3] at this
  exact this

/-- What `bf_set_new` guarantees about the key of a set. -/
theorem SetWf.keyOk {s : BSet} (h : SetWf s) :
    (∀ t ∈ s.key, t.refSize .in_ ≠ 0) ∧
    (s.useTrie = false → (∀ t ∈ s.key, t.isNet = false) ∧ s.elemSize = (s.key.map fun t => t.meta_.size).sum) ∧
    (s.useTrie = true → ∃ t, s.key = [t] ∧ t.isNet = true) := by
  obtain ⟨s0, hs0, es, et⟩ := h.new
  unfold setNew at hs0
  split at hs0
  · cases hs0
  · next hne =>
    split at hs0
    · cases hs0
    · split at hs0
      · cases hs0
      · next hz =>
        have hz' : ∀ t ∈ s.key, t.refSize .in_ ≠ 0 := by simpa using hz
        split at hs0
        · cases hs0
        · next hm =>
          cases hs0
          refine ⟨hz', ?_, ?_⟩
          · intro hf
            rw [hf] at et
            have hn : ∀ t ∈ s.key, t.isNet = false := by simpa using et.symm
            refine ⟨hn, ?_⟩
            rw [es]
            show (s.key.map (·.refSize .in_)).sum = _
            refine congrArg List.sum ?_
            exact List.map_congr_left fun t ht => (keyType (hz' t ht)).2.2.2.2.1 (hn t ht)
          · intro hf
            rw [hf] at et
            simp only at et
            cases hk : s.key with
            | nil => rw [hk] at hne; simp at hne
            | cons t ts =>
              cases ts with
              | nil => rw [hk] at et; exact ⟨t, rfl, by simpa using et.symm⟩
              | cons t' ts =>
                exfalso
                apply hm
                refine ⟨by rw [hk]; simp, et.symm⟩

theorem isNet_any (ts : List MType) :
    ts.any (fun t => t == .ip4Snet || t == .ip4Dnet || t == .ip6Snet || t == .ip6Dnet) = ts.any MType.isNet := by
  congr 1
  funext t
  cases t <;> rfl

/-- packet.c:303-359: membership in a set. -/
theorem pktSet_ok (hF : PktFacts E C K i v cap) (hL : SetsLoaded E C) (hW : SetsWf C.chain.sets)
    (hG : C.groups = buildGroups C.chain.sets) (m : Matcher) (ht : m.type = .set) (hop : m.op = .in_)
    (hp : ∀ t ∈ Spec.typesOf C.chain.sets m, Spec.protoOk v t = true) :
    GenT (pktSet C m) (fun _ x => MatchT E C.groups K (specM E C i v m) x) := by
  unfold pktSet
  refine .thenLift fun r hr => ?_
  cases r with
  | none => exact GenT.fail _ _
  | some pr =>
    obtain ⟨ix, s⟩ := pr
    have hsf := hr
    unfold Chain.setFor at hr
    rw [if_neg (by simp [ht])] at hr
    obtain ⟨n, hn, hr⟩ := Res.bind_eq_ok hr
    obtain ⟨hpl, hne⟩ := rd_ok hn
    have hhost : Spec.host m.payload 0 4 = n := hne.symm
    simp only [Res.ok.injEq, Option.map_eq_some_iff, Prod.mk.injEq] at hr
    obtain ⟨s', hget, rfl, rfl⟩ := hr
    have hws := hW.each s' (List.mem_of_getElem? hget)
    obtain ⟨k1, k2, k3⟩ := hws.keyOk
    have htypes : Spec.typesOf C.chain.sets m = s'.key := by
      simp [Spec.typesOf, ht, hhost, hget]
    rw [htypes] at hp
    have hc : ∀ mk rn, Spec.core i v mk rn C.chain.sets C.thr m = some (Spec.inSet (Spec.fieldOf v) s') := by
      intro mk rn; simp only [Spec.core, ht, hhost, hget]
    rw [specM_of (by rw [ht]; decide) (fun w => hc _ _)]
    have hnets := isNet_any s'.key
    cases htr : s'.useTrie with
    | true =>
      dsimp only
      rw [if_pos htr]
      obtain ⟨t, hk, hnt⟩ := k3 htr
      simp only [hk]
      have hr' := k1 t (by rw [hk]; simp)
      have hpt := hp t (by rw [hk]; simp)
      obtain ⟨a1, a2, a3, _, _, a4⟩ := keyType hr'
      obtain ⟨h1, h2, h3, h4, h5⟩ := hF.hdr a1 hpt
      obtain ⟨hld, hfld⟩ := loadHeader_eq h1
      rw [hld]
      refine .thenEmit ?_
      refine (trieLookup_gen (E := E) (K := K) hL hW hG m hop t.meta_.off t.meta_.size (a4 hnt).2.2).mono ?_
      intro _ x hx st hst
      obtain ⟨p, hp1, hp2⟩ := h2
      refine wp_ldCtx hst hfld hp1 ?_
      have := hx n s' t hsf hget htr hk rfl p _ hp2 h3 _ (hst.set (d := .r6) p hF.sa) (St.set_same _ _ _)
      rw [← h5 ⟨a2, a3⟩] at this
      have hin : Spec.inSet (Spec.fieldOf v) s' = s'.elems.any (Spec.inNet (Spec.fieldOf v t)) := by
        unfold Spec.inSet
        rw [hnets, hk]
        simp [hnt, Spec.keyOf]
      simp only [hin]
      exact this
    | false =>
      dsimp only
      rw [if_neg (by rw [htr]; decide)]
      obtain ⟨hnn, hes⟩ := k2 htr
      have hfits := hws.fits
      refine (setKey_gen (E := E) (gs := C.groups) hF s'.key 0
        (fun t h => ⟨k1 t h, hp t h⟩) (by omega)).then ?_
      intro _ y hy
      refine (mapLookup_gen (E := E) (K := K) hL hW hG m hop 0 (by omega)).mono ?_
      intro _ x hx st hst
      refine hy st hst x _ ?_
      intro s2 i2 w2 e2
      have hkl : (Spec.keyOf (Spec.fieldOf v) s'.key).length = s'.elemSize := by
        rw [hes]
        unfold Spec.keyOf
        have : ∀ ts : List MType, (∀ t ∈ ts, t.refSize .in_ ≠ 0 ∧ Spec.protoOk v t = true) →
            ((ts.map (Spec.fieldOf v)).flatten).length = (ts.map fun t => t.meta_.size).sum := by
          intro ts
          induction ts with
          | nil => intro _; rfl
          | cons t ts ih =>
            intro h
            obtain ⟨b1, b2⟩ := h t (List.mem_cons_self ..)
            simp only [List.map_cons, List.flatten_cons, List.length_append, List.sum_cons]
            rw [hF.field b1 b2, ih (fun t' h' => h t' (List.mem_cons_of_mem _ h'))]
        exact this _ fun t h => ⟨k1 t h, hp t h⟩
      obtain ⟨g, hg1, hg2⟩ := stackBytes_put i2 (o := scr 0) (bs := Spec.keyOf (Spec.fieldOf v) s'.key)
        (n := s'.elemSize) (by simp [scr]) (by simp only [scr]; omega) (by omega) _ e2
      have hg0 : g = [] := by
        rw [List.length_append, hkl] at hg2
        exact List.eq_nil_of_length_eq_zero (by omega)
      subst hg0
      rw [List.append_nil] at hg1 hg2
      have := hx n s' hsf hget s2 _ i2 hg1 hg2
      have hin : Spec.inSet (Spec.fieldOf v) s' = memberOf s' (Spec.keyOf (Spec.fieldOf v) s'.key) := by
        unfold Spec.inSet memberOf
        rw [hnets, htr]
        have : s'.key.any MType.isNet = false := by simpa using hnn
        simp [this]
      simp only [hin]
      rw [← w2]
      exact this

/-- Every matcher of a packet program. -/
theorem packetMatcher_ok (hE : EnvFacts E C i) (hF : PktFacts E C K i v cap) (hL : SetsLoaded E C)
    (hW : SetsWf C.chain.sets) (hG : C.groups = buildGroups C.chain.sets) (hfl : C.chain.hook.flavor ≠ .sockAddr)
    (m : Matcher) (hwf : MatcherWf m)
    (hp : ∀ t ∈ Spec.typesOf C.chain.sets m, Spec.protoOk v t = true)
    (hnh : m.type = .ip6Nexthdr → C.chain.flagNexthdr = true) :
    GenT (inlineMatcher C m) (fun _ x => MatchT E C.groups K (specM E C i v m) x) := by
  have e : inlineMatcher C m = flavorMatcher C m := by
    unfold inlineMatcher
    split
    · next h => exact absurd h hfl
    · rfl
  rw [e]
  by_cases ht : m.type = .set
  · have e2 : flavorMatcher C m = pktSet C m := by
      unfold flavorMatcher
      split <;> simp_all [packetMatcher]
    rw [e2]
    have hop : m.op = .in_ := by
      unfold MatcherWf at hwf
      rw [if_pos ht] at hwf
      exact hwf.1
    exact pktSet_ok hF hL hW hG m ht hop hp
  · exact flavorMatcher_ok hE hF m hwf ht (hp m.type (by simp [Spec.typesOf, ht])) hnh

end Bf
