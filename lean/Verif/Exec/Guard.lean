import Verif.Exec.Sets2
import Verif.Frag.Static
import Verif.Chain.Check
/-!
# Protocol guards of a rule

Nothing here models code of the repository.
-/
namespace Bf

variable {E : Env} {gs : Groups} {K : Frame} {C : Cfg}

/-- The registers hold the protocol a field belongs to. -/
def regOk (K : Frame) (t : MType) : Bool :=
  match t.meta_.layer with
  | .l3 => decide (K.r7.toNat = htobe16 t.meta_.hdrId)
  | .l4 => decide (K.r8.toNat = t.meta_.hdrId)
  | _ => true

theorem regOk_congr {t t' : MType} (h1 : t.meta_.layer = t'.meta_.layer)
    (h2 : t.meta_.hdrId = t'.meta_.hdrId) : regOk K t = regOk K t' := by
  unfold regOk; rw [h1, h2]

/-- Types of different protocols do not meet at the same layer. -/
def Compat (ts : List MType) : Prop :=
  ∃ ids : LayerIds, ∀ t ∈ ts, t.meta_.layer ≠ .noLayer → ids t.meta_.layer = some t.meta_.hdrId

theorem checkLayer_some {t : MType} {ids ids' : LayerIds} (h : checkLayer t ids = some ids') :
    (∀ l n, ids l = some n → ids' l = some n) ∧
      (t.meta_.layer ≠ .noLayer → ids' t.meta_.layer = some t.meta_.hdrId) := by
  unfold checkLayer at h
  split at h
  · next hl => cases h; exact ⟨fun _ _ h => h, fun h => absurd hl h⟩
  · split at h
    · next hn =>
      cases h
      refine ⟨?_, fun _ => by simp⟩
      intro l n hl
      simp only
      split
      · next e => subst e; rw [hn] at hl; cases hl
      · exact hl
    · next h0 hs =>
      split at h
      · cases h
      · next hne =>
        cases h
        refine ⟨fun _ _ h => h, fun _ => ?_⟩
        rw [hs]; simp at hne; rw [hne]

theorem checkLayers_some {ts : List MType} {ids ids' : LayerIds} (h : checkLayers ts ids = some ids') :
    (∀ l n, ids l = some n → ids' l = some n) ∧
      (∀ t ∈ ts, t.meta_.layer ≠ .noLayer → ids' t.meta_.layer = some t.meta_.hdrId) := by
  induction ts generalizing ids with
  | nil => cases h; exact ⟨fun _ _ h => h, by simp⟩
  | cons t ts ih =>
    simp only [checkLayers, Option.bind_eq_some_iff] at h
    obtain ⟨i1, h1, h2⟩ := h
    obtain ⟨a1, a2⟩ := checkLayer_some h1
    obtain ⟨b1, b2⟩ := ih h2
    refine ⟨fun l n hl => b1 l n (a1 l n hl), ?_⟩
    intro t' ht' hl
    rcases List.mem_cons.mp ht' with rfl | ht'
    · exact b1 _ _ (a2 hl)
    · exact b2 _ ht' hl

theorem incompatible_ids {sets : List BSet} {ms : List Matcher} {ids : LayerIds}
    (h : incompatible sets ms ids = .ok false) :
    ∃ ids' : LayerIds, (∀ l n, ids l = some n → ids' l = some n) ∧
      ∀ m ∈ ms, ∀ t ∈ Spec.typesOf sets m, t.meta_.layer ≠ .noLayer →
        ids' t.meta_.layer = some t.meta_.hdrId := by
  induction ms generalizing ids with
  | nil => exact ⟨ids, fun _ _ h => h, by simp⟩
  | cons m ms ih =>
    simp only [incompatible] at h
    obtain ⟨r, h1, h2⟩ := Res.bind_eq_ok h
    cases r with
    | none => cases h2
    | some i1 =>
      obtain ⟨i2, b1, b2⟩ := ih h2
      have key : (∀ l n, ids l = some n → i1 l = some n) ∧
          (∀ t ∈ Spec.typesOf sets m, t.meta_.layer ≠ .noLayer →
            i1 t.meta_.layer = some t.meta_.hdrId) := by
        unfold Spec.typesOf
        split at h1
        · next hset =>
          obtain ⟨n, hn, h1⟩ := Res.bind_eq_ok h1
          obtain ⟨_, hne⟩ := rd_ok hn
          have hh : Spec.host m.payload 0 4 = n := hne.symm
          rw [if_pos hset, hh]
          split at h1
          · cases h1
          · next s hs =>
            rw [hs]
            simp only [Res.ok.injEq] at h1
            exact checkLayers_some h1
        · next hset =>
          rw [if_neg hset]
          simp only [Res.ok.injEq] at h1
          obtain ⟨a1, a2⟩ := checkLayer_some h1
          exact ⟨a1, fun t ht => by simp at ht; subst ht; exact a2⟩
      refine ⟨i2, fun l n hl => b1 l n (key.1 l n hl), ?_⟩
      intro m' hm' t ht hl
      rcases List.mem_cons.mp hm' with rfl | hm'
      · exact b1 _ _ (key.2 t ht hl)
      · exact b2 m' hm' t ht hl

theorem incompatible_compat {sets : List BSet} {ms : List Matcher}
    (h : incompatible sets ms (fun _ => none) = .ok false) :
    Compat (ms.flatMap (Spec.typesOf sets)) := by
  obtain ⟨ids, _, h⟩ := incompatible_ids h
  refine ⟨ids, ?_⟩
  intro t ht hl
  obtain ⟨m, hm, ht⟩ := List.mem_flatMap.mp ht
  exact h m hm t ht hl

/-- What guard code does, given the layers already checked. -/
def GuardT (E : Env) (gs : Groups) (K : Frame) (ts : List MType) (done d : List Layer)
    (x : List Item) : Prop :=
  MatchT E gs K (fun w => (ts.all fun t => done.contains t.meta_.layer || regOk K t, w)) x ∧
  (∀ l ∈ done, l ∈ d) ∧ (∀ l ∈ d, l ∈ done ∨ ∃ t ∈ ts, t.meta_.layer = l ∧ l ≠ .noLayer)

theorem GuardT.nil (done : List Layer) : GuardT E gs K [] done done [] :=
  ⟨MatchT.nil E gs K, fun _ h => h, fun _ h => Or.inl h⟩

theorem GuardT.append {ts us : List MType} {done d e : List Layer} {x y : List Item}
    (hc : Compat (ts ++ us)) (hx : GuardT E gs K ts done d x) (hy : GuardT E gs K us d e y) :
    GuardT E gs K (ts ++ us) done e (x ++ y) := by
  obtain ⟨x1, x2, x3⟩ := hx
  obtain ⟨y1, y2, y3⟩ := hy
  refine ⟨?_, fun l h => y2 l (x2 l h), ?_⟩
  · have hh : ∀ w : World, (if (ts.all fun t => done.contains t.meta_.layer || regOk K t) = true
          then (us.all (fun t => d.contains t.meta_.layer || regOk K t), w) else (false, w))
        = ((ts ++ us).all (fun t => done.contains t.meta_.layer || regOk K t), w) := by
      intro w
      rw [List.all_append]
      cases hts : ts.all fun t => done.contains t.meta_.layer || regOk K t with
      | false => simp
      | true =>
        simp only [if_true, Bool.true_and, Prod.mk.injEq, and_true]
        apply Bool.eq_iff_iff.mpr
        simp only [List.all_eq_true, Bool.or_eq_true, List.contains_iff_mem] at hts ⊢
        constructor
        · intro h t ht
          rcases h t ht with h | h
          · rcases x3 _ h with h | ⟨t', ht', hl, hn⟩
            · exact Or.inl h
            · rcases hts t' ht' with h' | h'
              · rw [hl] at h'; exact Or.inl h'
              · right
                obtain ⟨ids, hids⟩ := hc
                have e1 := hids t' (by simp [ht']) (by rw [hl]; exact hn)
                have e2 := hids t (by simp [ht]) hn
                rw [hl, e2] at e1
                simp only [Option.some.injEq] at e1
                rw [regOk_congr hl.symm e1]
                exact h'
          · exact Or.inr h
        · intro h t ht
          rcases h t ht with h | h
          · exact Or.inl (x2 _ h)
          · exact Or.inr h
    have := MatchT.append x1 y1
    intro s hs
    have h := this s hs
    dsimp only at h
    rw [hh] at h
    exact h
  · intro l hl
    rcases y3 l hl with h | ⟨t, ht, h⟩
    · rcases x3 l h with h | ⟨t, ht, h⟩
      · exact Or.inl h
      · exact Or.inr ⟨t, by simp [ht], h⟩
    · exact Or.inr ⟨t, by simp [ht], h⟩

theorem hdrId_lt (t : MType) : t.meta_.hdrId < 65536 ∧ (t.meta_.layer = .l4 → t.meta_.hdrId < 256) := by
  cases t <;> simp [MType.meta_]

/-- stub.c:394-416, program.c:479-505. -/
theorem checkProto_gen (t : MType) (done : List Layer) :
    GenT (checkProto t done) (fun d x => GuardT E gs K [t] done d x) := by
  unfold checkProto
  split
  · next h =>
    refine .lastPure ⟨?_, fun _ h => h, fun _ h => Or.inl h⟩
    have := MatchT.nil E gs K
    simp only [List.all_cons, List.all_nil, h, Bool.true_or, Bool.and_true]
    exact this
  · next h =>
    have h' : done.contains t.meta_.layer = false := by simpa using h
    obtain ⟨hid1, hid2⟩ := hdrId_lt t
    split
    · unfold checkProtocol
      split
      · next hl =>
        refine .thenNext (.lastPure ⟨?_, fun l h => by simp [h], ?_⟩)
        · simp only [List.all_cons, List.all_nil, h', Bool.false_or, Bool.and_true]
          intro s hs
          refine wp_cmpN hs rfl (va := K.r7) hs.r7 rfl ?_
          have hlt := htobe16_lt t.meta_.hdrId
          rw [if_pos rfl, sext_small (by omega)]
          unfold regOk
          rw [hl]
          simp [Cond.holds]
        · intro l hl'
          rcases List.mem_cons.mp hl' with rfl | h
          · exact Or.inr ⟨t, by simp, rfl, by rw [hl]; simp⟩
          · exact Or.inl h
      · next hl =>
        refine .thenNext (.lastPure ⟨?_, fun l h => by simp [h], ?_⟩)
        · simp only [List.all_cons, List.all_nil, h', Bool.false_or, Bool.and_true]
          intro s hs
          refine wp_cmpN hs rfl (va := K.r8) hs.r8 rfl ?_
          have := hid2 hl
          rw [if_pos rfl, sext_small (by omega)]
          have e : t.meta_.hdrId % 256 = t.meta_.hdrId := by omega
          rw [e]
          unfold regOk
          rw [hl]
          simp [Cond.holds]
        · intro l hl'
          rcases List.mem_cons.mp hl' with rfl | h
          · exact Or.inr ⟨t, by simp, rfl, by rw [hl]; simp⟩
          · exact Or.inl h
      · exact (GenT.fail .EINVAL (fun _ _ => False)).then fun _ _ h => h.elim
    · next hl =>
      refine .lastPure ⟨?_, fun _ h => h, fun _ h => Or.inl h⟩
      have hr : regOk K t = true := by
        unfold regOk
        cases hh : t.meta_.layer <;> simp_all
      simp only [List.all_cons, List.all_nil, hr, Bool.or_true, Bool.and_true]
      exact MatchT.nil E gs K

theorem Compat.sub {ts us : List MType} (h : Compat us) (hs : ∀ t ∈ ts, t ∈ us) : Compat ts := by
  obtain ⟨ids, h⟩ := h
  exact ⟨ids, fun t ht => h t (hs t ht)⟩

theorem checkProtos_gen (ts : List MType) (done : List Layer) (hc : Compat ts) :
    GenT (checkProtos ts done) (fun d x => GuardT E gs K ts done d x) := by
  induction ts generalizing done with
  | nil => exact .lastPure (GuardT.nil _)
  | cons t ts ih =>
    unfold checkProtos
    refine (checkProto_gen (E := E) (gs := gs) (K := K) t done).then fun d y hy => ?_
    refine (ih d (hc.sub (by intro t ht; simp [ht]))).mono fun e z hz => ?_
    exact GuardT.append (ts := [t]) hc hy hz

/-- program.c:523-549. -/
theorem guards_gen (ms : List Matcher) (done : List Layer)
    (hc : Compat (ms.flatMap (Spec.typesOf C.chain.sets))) :
    GenT (guards C ms done)
      (fun d x => GuardT E gs K (ms.flatMap (Spec.typesOf C.chain.sets)) done d x) := by
  induction ms generalizing done with
  | nil => exact .lastPure (GuardT.nil _)
  | cons m ms ih =>
    unfold guards
    have key : GenT (if m.type = .set then (do
        match ← lift (C.chain.setFor m) with
        | none => fail .ENOENT
        | some (_, s) => checkProtos s.key done)
      else checkProto m.type done) (fun d x => GuardT E gs K (Spec.typesOf C.chain.sets m) done d x) := by
      have hcm : Compat (Spec.typesOf C.chain.sets m) :=
        hc.sub (by intro t ht; simp only [List.flatMap_cons, List.mem_append]; exact Or.inl ht)
      split
      · next hset =>
        refine .thenLift fun r hr => ?_
        split
        · exact GenT.fail _ _
        · next ix s =>
          unfold Chain.setFor at hr
          rw [if_neg (by simp [hset])] at hr
          obtain ⟨n, hn, hr⟩ := Res.bind_eq_ok hr
          obtain ⟨_, hne⟩ := rd_ok hn
          have hh : Spec.host m.payload 0 4 = n := hne.symm
          simp only [Res.ok.injEq, Option.map_eq_some_iff, Prod.mk.injEq] at hr
          obtain ⟨s', hget, rfl, rfl⟩ := hr
          have e : Spec.typesOf C.chain.sets m = s'.key := by
            unfold Spec.typesOf; rw [if_pos hset, hh, hget]
          rw [e] at hcm ⊢
          exact checkProtos_gen _ _ hcm
      · next hset =>
        have e : Spec.typesOf C.chain.sets m = [m.type] := by
          unfold Spec.typesOf; rw [if_neg hset]
        rw [e]
        exact checkProto_gen _ _
    refine key.then fun d y hy => ?_
    refine (ih d (hc.sub ?_)).mono fun e z hz => ?_
    · intro t ht; simp only [List.flatMap_cons, List.mem_append]; exact Or.inr ht
    · exact GuardT.append hc hy hz

/-- For a packet program the registers hold the packet's protocols. -/
theorem PktFacts.regOk {i : Spec.Input} {v : Spec.View} {cap : Spec.Capture}
    (hF : PktFacts E C K i v cap) (t : MType) : Bf.regOk K t = Spec.protoOk v t := by
  have h7 : K.r7.toNat = htobe16 v.l3Num := by
    rw [hF.r7]; have := htobe16_lt v.l3Num; exact ofNat64_toNat (by omega)
  have h8 : K.r8.toNat = v.l4Num := by
    rw [hF.r8]; have := l4Num_lt v; exact ofNat64_toNat (by omega)
  have l3 : ∀ n, n < 65536 → decide (htobe16 v.l3Num = htobe16 n) = (v.l3Num == n) := by
    intro n hn
    have := htobe16_inj (l3Num_lt v) hn
    simp only [this]
    rfl
  unfold Bf.regOk Spec.protoOk
  rw [h7, h8]
  cases t <;> simp only [MType.meta_] <;> first | exact l3 _ (by omega) | rfl

end Bf
