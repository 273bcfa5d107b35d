import Verif.Frag.GenT
/-!
# A successful compilation resolves every fixup of the main program
-/
namespace Bf

/-- Fixups are attached to the right kind of instruction. -/
def TyOk (i : Item) : Prop :=
  match i.fix with
  | none => True
  | some .nextRule => True
  | some (.stub _) => i.insn = .callRel 0
  | some _ => ∃ d, i.insn = .ldMap d 0

/-- `i'` is what resolving fixup `ty` on instruction `i` at `n` must give. -/
def ValOk (M : MapFds) (gs : Groups) (loc : Stub → Nat) (n : Nat) (i i' : Insn) : FixTy → Prop
  | .nextRule => False
  | .stub id => ∃ v : BitVec 32, i' = .callRel v ∧ 0 ≤ v.toInt ∧ n + 1 + v.toInt.toNat = loc id
  | ty => ∃ d fd, i = .ldMap d 0 ∧ i' = .ldMap d fd ∧ M.fd gs ty = .ok fd

/-- State of the image while fixups are being processed; `done` are those already processed. -/
structure PInv (M : MapFds) (gs : Groups) (loc : Stub → Nat) (f : List Item) (img1 : List Insn)
    (done : FixTy → Bool) (fs : List Fixup) (img : List Insn) : Prop where
  fs : fs = (fixupsOf 0 f).filter (fun g => !done g.ty)
  len : img.length = img1.length
  tail : ∀ j, f.length ≤ j → img[j]? = img1[j]?
  plain : ∀ (n : Nat) (i : Item), f[n]? = some i → i.fix = none → img[n]? = some i.insn
  pend : ∀ (n : Nat) (i : Item) (ty : FixTy), f[n]? = some i → i.fix = some ty → done ty = false →
    img[n]? = some i.insn
  res : ∀ (n : Nat) (i : Item) (ty : FixTy), f[n]? = some i → i.fix = some ty → done ty = true →
    ∃ i', img[n]? = some i' ∧ ValOk M gs loc n i.insn i' ty

/-- A fixup of a fragment placed at 0 points at its item. -/
theorem fixupsOf_zero {f : List Item} {g : Fixup} (h : g ∈ fixupsOf 0 f) :
    ∃ i, f[g.insn]? = some i ∧ i.fix = some g.ty := by
  obtain ⟨_, i, h1, h2⟩ := fixupsOf_ge h
  exact ⟨i, by simpa using h1, h2⟩

theorem PInv.step {M : MapFds} {gs : Groups} {loc : Stub → Nat} {f : List Item} {img1 : List Insn}
    {done : FixTy → Bool} {fs : List Fixup} {img : List Insn}
    (h : PInv M gs loc f img1 done fs img) (F : FixEnv) (sel : FixTy → Bool)
    (hF : ∀ ty n i i', sel ty = true → fixVal F img1.length ⟨ty, n⟩ i.insn = .ok i' →
      i.fix = some ty → TyOk i → ValOk M gs loc n i.insn i' ty)
    (hty : ∀ i ∈ f, TyOk i) (r : List Fixup × List Insn)
    (hr : fixupLoop F sel fs img = .ok r) :
    PInv M gs loc f img1 (fun t => done t || sel t) r.1 r.2 := by
  have hpw : fs.Pairwise (fun a b => a.insn ≠ b.insn) := by
    rw [h.fs]; exact (fixupsOf_pairwise 0 f).filter _
  obtain ⟨e1, e2, e3, e4⟩ := fixupLoop_spec F sel fs img r hpw hr
  have hmem : ∀ g ∈ fs, g ∈ fixupsOf 0 f ∧ done g.ty = false := by
    intro g hg
    rw [h.fs, List.mem_filter] at hg
    exact ⟨hg.1, by simpa using hg.2⟩
  -- items that are not selected are unchanged
  have hsame : ∀ (n : Nat) (i : Item), f[n]? = some i →
      (∀ ty, i.fix = some ty → done ty = true ∨ sel ty = false) → r.2[n]? = img[n]? := by
    intro n i hi hs
    apply e3
    intro g hg hsel hgn
    obtain ⟨hg1, hg2⟩ := hmem g hg
    obtain ⟨j, hj1, hj2⟩ := fixupsOf_zero hg1
    rw [hgn, hi] at hj1
    cases hj1
    rcases hs _ hj2 with h' | h'
    · rw [hg2] at h'; cases h'
    · rw [hsel] at h'; cases h'
  refine ⟨?_, by rw [e2, h.len], ?_, ?_, ?_, ?_⟩
  · rw [e1, h.fs, List.filter_filter]
    apply List.filter_congr
    intro g _
    cases done g.ty <;> cases sel g.ty <;> rfl
  · intro j hj
    rw [← h.tail j hj]
    apply e3
    intro g hg _ hgj
    obtain ⟨i, hi, _⟩ := fixupsOf_zero (hmem g hg).1
    have := (List.getElem?_eq_some_iff.mp hi).1
    omega
  · intro n i hi hn
    rw [hsame n i hi (by intro ty hty'; rw [hn] at hty'; cases hty'), h.plain n i hi hn]
  · intro n i ty hi hfix hd
    simp only [Bool.or_eq_false_iff] at hd
    rw [hsame n i hi (by intro ty' h'; rw [hfix] at h'; cases h'; exact Or.inr hd.2),
      h.pend n i ty hi hfix hd.1]
  · intro n i ty hi hfix hd
    cases hdone : done ty with
    | true =>
      obtain ⟨i', h1, h2⟩ := h.res n i ty hi hfix hdone
      refine ⟨i', ?_, h2⟩
      rw [hsame n i hi (by intro ty' h'; rw [hfix] at h'; cases h'; exact Or.inl hdone), h1]
    | false =>
      have hsel : sel ty = true := by simpa [hdone] using hd
      have hg : (⟨ty, n⟩ : Fixup) ∈ fs := by
        rw [h.fs, List.mem_filter]
        refine ⟨?_, by simp [hdone]⟩
        have := fixupsOf_mem (base := 0) hi hfix
        simpa using this
      obtain ⟨x, x', hx1, hx2, hx3⟩ := e4 _ hg hsel
      refine ⟨x', hx3, ?_⟩
      have := h.pend n i ty hi hfix hdone
      simp only at hx1
      rw [this] at hx1
      cases hx1
      rw [h.len] at hx2
      exact hF ty n i x' hsel hx2 hfix (hty i (List.mem_of_getElem? hi))

/-- A call fixup resolves to the stub's location. -/
theorem fixVal_stub {F : FixEnv} {len n : Nat} {id : Stub} {i i' : Insn} {M : MapFds} {gs : Groups}
    (h : fixVal F len ⟨.stub id, n⟩ i = .ok i') (hi : i = .callRel 0) :
    ValOk M gs F.stubLoc n i i' (.stub id) := by
  subst hi
  simp only [fixVal] at h
  split at h
  · cases h
  · next hc =>
    simp only [fixImm, if_true, Res.ok.injEq] at h
    refine ⟨_, h.symm, ?_, ?_⟩
    · rw [BitVec.toInt_ofNat']
      simp only [Int.bmod]
      split <;> omega
    · rw [BitVec.toInt_eq_toNat_of_lt (by simp only [BitVec.toNat_ofNat]; omega)]
      simp only [BitVec.toNat_ofNat]
      omega

theorem fixVal_map {F : FixEnv} {len n : Nat} {ty : FixTy} {i i' : Insn} {M : MapFds} {gs : Groups}
    {loc : Stub → Nat} (hF : F.fd = M.fd gs) (h : fixVal F len ⟨ty, n⟩ i = .ok i')
    (hi : ∃ d, i = .ldMap d 0) (hn : ty ≠ .nextRule) (hs : ∀ id, ty ≠ .stub id) :
    ValOk M gs loc n i i' ty := by
  obtain ⟨d, rfl⟩ := hi
  cases ty with
  | nextRule => exact absurd rfl hn
  | stub id => exact absurd rfl (hs id)
  | cmap | lmap | smap | setMap ix =>
    simp only [fixVal] at h
    obtain ⟨fd, h1, h2⟩ := Res.bind_eq_ok h
    simp only [fixImm, if_true, Res.ok.injEq] at h2
    rw [hF] at h1
    exact ⟨d, fd, rfl, h2.symm, h1⟩

/-- A successful compilation leaves an image in which the main program is resolved. -/
theorem compile_resolved {chain : Chain} {thr : Nat → BitVec 32} {slen : Stub → Nat} {M : MapFds}
    {img : List Insn} (h : compile chain thr slen M = .ok img)
    (f : List Item)
    (hf : ∀ r, genMain ⟨chain, buildGroups chain.sets, thr⟩ ⟨[], []⟩ = .ok r →
      r = ((), (⟨[], []⟩ : Prog).app f))
    (hpos : 0 < f.length) (hty : ∀ i ∈ f, TyOk i)
    (hn : ∀ i ∈ f, i.fix ≠ some .nextRule)
    (hl : ∀ i ∈ f, i.fix = some .lmap → chain.flagLog = true)
    (hs : ∀ i ∈ f, i.fix = some .smap → chain.flagRate = true ∧ chain.rules ≠ []) :
    Resolved M (buildGroups chain.sets) img f ∧
    img.length = (elfstubs slen (fixupsOf 0 f) (f.map (·.insn)) (fun _ => 0)).1.length ∧
    ∀ j, f.length ≤ j → img[j]? = (elfstubs slen (fixupsOf 0 f) (f.map (·.insn)) (fun _ => 0)).1[j]? := by
  unfold compile at h
  obtain ⟨p, hp, hload⟩ := Res.bind_eq_ok h
  unfold genProgram at hp
  obtain ⟨r, hr, hp⟩ := Res.bind_eq_ok hp
  have := hf r hr
  subst this
  simp only [Prog.app, List.nil_append, List.length_nil] at hp
  generalize he : elfstubs slen (fixupsOf 0 f) (f.map (·.insn)) (fun _ => 0) = e at hp
  obtain ⟨⟨t, ht⟩, hloc, _, hcov, hfar⟩ := elfstubs_spec slen (fixupsOf 0 f) (f.map (·.insn)) (fun _ => 0)
    (by simpa using hpos) (by intro id h; exact absurd rfl h)
  rw [he] at ht hloc hcov hfar
  have h0 : PInv M (buildGroups chain.sets) e.2 f e.1 (fun _ => false) (fixupsOf 0 f) e.1 := by
    have hget : ∀ (n : Nat) (i : Item), f[n]? = some i → e.1[n]? = some i.insn := by
      intro n i hi
      rw [ht, List.getElem?_append_left (by
        have := (List.getElem?_eq_some_iff.mp hi).1; simpa using this)]
      simp [hi]
    refine ⟨(List.filter_eq_self.mpr (by simp)).symm, rfl, fun _ _ => rfl, fun n i hi _ => hget n i hi,
      fun n i ty hi _ _ => hget n i hi, fun n i ty _ _ hd => by cases hd⟩
  obtain ⟨r1, hp1, hp2⟩ := Res.bind_eq_ok hp
  simp only [fixup] at hp1
  obtain ⟨q1, hq1, hq2⟩ := Res.bind_eq_ok hp1
  have h1 := h0.step _ _ (by
    intro ty n i i' hsel hv hfix hok
    cases ty with
    | stub id =>
      have hi : i.insn = .callRel 0 := by simpa [TyOk, hfix] using hok
      exact fixVal_stub hv hi
    | _ => simp at hsel) hty q1 hq1
  simp only [Res.ok.injEq] at hq2 hp2
  subst hq2
  simp only at hp2
  subst hp2
  unfold loadFixups at hload
  simp only [fixup] at hload
  have hmapF : ∀ (sel : FixTy → Bool), (∀ id, sel (.stub id) = false) → sel .nextRule = false →
      ∀ ty n i i', sel ty = true →
        fixVal ⟨M.fd (buildGroups chain.sets), fun _ => 0⟩ e.1.length ⟨ty, n⟩ i.insn = .ok i' →
      i.fix = some ty → TyOk i → ValOk M (buildGroups chain.sets) e.2 n i.insn i' ty := by
    intro sel hs1 hs2 ty n i i' hsel hv hfix hok
    have hns : ∀ id, ty ≠ .stub id := by
      intro id e; subst e; rw [hs1] at hsel; cases hsel
    have hnn : ty ≠ .nextRule := by intro e; subst e; rw [hs2] at hsel; cases hsel
    refine fixVal_map rfl hv ?_ hnn hns
    cases ty with
    | nextRule => exact absurd rfl hnn
    | stub id => exact absurd rfl (hns id)
    | cmap | lmap | smap | setMap ix => simpa [TyOk, hfix] using hok
  obtain ⟨r2, hr2, hload⟩ := Res.bind_eq_ok hload
  obtain ⟨q2, hq2, hr2⟩ := Res.bind_eq_ok hr2
  simp only [Res.ok.injEq] at hr2
  subst hr2
  have h2 := h1.step _ _ (hmapF _ (fun _ => rfl) rfl) hty q2 hq2
  obtain ⟨r3, hr3, hload⟩ := Res.bind_eq_ok hload
  obtain ⟨q3, hq3, hr3⟩ := Res.bind_eq_ok hr3
  simp only [Res.ok.injEq] at hr3
  subst hr3
  have h3 := h2.step _ _ (hmapF _ (fun _ => rfl) rfl) hty q3 hq3
  obtain ⟨r4, hr4, hload⟩ := Res.bind_eq_ok hload
  have h4 : ∃ done4, PInv M (buildGroups chain.sets) e.2 f e.1 done4 r4.2.fixups r4.2.img ∧
      ∀ t, (t ≠ .lmap ∨ chain.flagLog = true) → t ≠ .nextRule → t ≠ .smap → done4 t = true := by
    cases hfl : chain.flagLog with
    | true =>
      simp only [hfl, if_true] at hr4
      obtain ⟨q4, hq4, hr4⟩ := Res.bind_eq_ok hr4
      simp only [Res.ok.injEq] at hr4
      subst hr4
      refine ⟨_, h3.step _ _ (hmapF _ (fun _ => rfl) rfl) hty q4 hq4, ?_⟩
      intro t _ h2 h3
      cases t <;> simp_all
    | false =>
      simp only [hfl, Bool.false_eq_true, if_false, Res.ok.injEq] at hr4
      subst hr4
      refine ⟨_, h3, ?_⟩
      intro t h1 h2 h3
      cases t <;> simp_all
  obtain ⟨done4, h4, hd4⟩ := h4
  obtain ⟨r5, hr5, hload⟩ := Res.bind_eq_ok hload
  simp only [Res.ok.injEq] at hload
  subst hload
  have h5 : ∃ done5, PInv M (buildGroups chain.sets) e.2 f e.1 done5 r5.2.fixups r5.2.img ∧
      ∀ t, (t ≠ .lmap ∨ chain.flagLog = true) → t ≠ .nextRule →
        (t ≠ .smap ∨ (chain.flagRate = true ∧ chain.rules ≠ [])) → done5 t = true := by
    by_cases hfr : chain.flagRate = true ∧ chain.rules ≠ []
    · rw [if_pos hfr] at hr5
      obtain ⟨q5, hq5, hr5⟩ := Res.bind_eq_ok hr5
      simp only [Res.ok.injEq] at hr5
      subst hr5
      refine ⟨_, h4.step _ _ (hmapF _ (fun _ => rfl) rfl) hty q5 hq5, ?_⟩
      intro t h1 h2 _
      by_cases ht' : t = .smap
      · subst ht'; simp
      · simp [hd4 t h1 h2 ht']
    · rw [if_neg hfr] at hr5
      simp only [Res.ok.injEq] at hr5
      subst hr5
      refine ⟨_, h4, ?_⟩
      intro t h1 h2 h3
      rcases h3 with h3 | h3
      · exact hd4 t h1 h2 h3
      · exact absurd h3 hfr
  obtain ⟨done5, h5, hd5⟩ := h5
  refine ⟨?_, h5.len, h5.tail⟩
  intro n i hi
  have hmem : i ∈ f := List.mem_of_getElem? hi
  cases hfix : i.fix with
  | none => exact h5.plain n i hi hfix
  | some ty =>
    have hdone : done5 ty = true := by
      apply hd5
      · by_cases ht' : ty = .lmap
        · subst ht'; exact Or.inr (hl i hmem hfix)
        · exact Or.inl ht'
      · intro e'; subst e'; exact hn i hmem hfix
      · by_cases ht' : ty = .smap
        · subst ht'; exact Or.inr (hs i hmem hfix)
        · exact Or.inl ht'
    obtain ⟨i', hi1, hi2⟩ := h5.res n i ty hi hfix hdone
    cases ty with
    | nextRule => exact hi2.elim
    | stub id =>
      obtain ⟨v, rfl, hv1, hv2⟩ := hi2
      refine ⟨v, hi1, hv1, ?_⟩
      rw [hv2]
      have hne : e.2 id ≠ 0 := hcov ⟨.stub id, n⟩ (by
        have := fixupsOf_mem (base := 0) hi hfix
        simpa using this) id rfl
      have hge : f.length ≤ e.2 id := by simpa using hfar id rfl hne
      rw [h5.tail _ hge]
      exact hloc id hne
    | cmap | lmap | smap | setMap ix =>
      obtain ⟨d, fd, h1, rfl, h3⟩ := hi2
      exact ⟨d, fd, h1, hi1, h3⟩

end Bf
