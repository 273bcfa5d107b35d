import Verif.Exec.Tail
/-!
# Whole packet programs

Nothing here models code of the repository.
-/
namespace Bf

variable {E : Env} {gs : Groups} {C : Cfg} {K : Frame} {i : Spec.Input} {v : Spec.View} {cap : Spec.Capture}

theorem inputOf_hash (E : Env) (h : Hook) : (Spec.inputOf E h).hash = E.hash.toNat := by
  unfold Spec.inputOf
  split <;> rfl

/-- What is known once a packet has been understood. -/
theorem PktFacts.sem (hE : EnvOk E C) (hC : CfgOk C) (hfl : C.chain.hook.flavor ≠ .sockAddr)
    (hF : PktFacts E C K (Spec.inputOf E C.chain.hook) v cap) :
    SemFacts E C K (specCtx E C (Spec.inputOf E C.chain.hook) v cap) where
  of := ⟨rfl, rfl, rfl⟩
  ctx := ⟨hE.flavor, hF.arg, hF.size⟩
  reg := hF.regOk
  state := hF.stateMap
  matcher r hr hd m hm hp := packetMatcher_ok ⟨hE.flavor, inputOf_hash ..⟩ hF hE.sets hC.sets hC.groups hfl m
    (hC.matchers r hr m hm) hp ((hC.chain.rule r hr).nexthdr hd m hm)
  log r hr hd h0 := by
    have e : inlineLog C r = packetLog r := by
      unfold inlineLog
      split
      · next h => exact absurd h hfl
      · rfl
    rw [e]
    exact packetLog_ok hF ((hC.chain.rule r hr).log hd h0) r

/-- The specified outcome of a packet program, for some captured headers. -/
def PktOutcome (E : Env) (C : Cfg) (w : World) (r : BitVec 64) (w' : World) : Prop :=
  ∃ capture : Spec.View → Spec.Capture,
    (∀ v, Spec.understand (Spec.inputOf E C.chain.hook) C.chain.flagNexthdr = some v →
      CaptureOk E (Spec.inputOf E C.chain.hook) v (capture v)) ∧
    (r, w') = Spec.evalPacket C.chain.hook.flavor (Spec.inputOf E C.chain.hook) C.chain.flagNexthdr
      ⟨E.rng, E.clk, E.ringOk, E.redirectRet⟩ C.chain.sets C.thr capture C.chain.policy C.chain.rules w

theorem understand_ether {h : Hook} {rec_ : Bool} (hv : Spec.understand (Spec.inputOf E h) rec_ = some v)
    (hl : (Spec.inputOf E h).link = .ethernet) : 14 ≤ E.pkt.length := by
  have hb : (Spec.inputOf E h).bytes = E.pkt := by unfold Spec.inputOf; split <;> rfl
  unfold Spec.understand at hv
  split at hv
  · unfold Spec.parse at hv
    rw [hl, hb] at hv
    simp only [Option.bind_eq_some_iff] at hv
    obtain ⟨e, h1, _⟩ := hv
    unfold Spec.bytesAt at h1
    split at h1
    · omega
    · cases h1
  · cases hv

/-- The program of a packet hook does what is specified. -/
theorem genMain_pkt (hE : EnvOk E C) (hC : CfgOk C) (hfl : C.chain.hook.flavor ≠ .sockAddr) :
    GenN (FixOk C) (genMain C) (fun _ x => 0 < x.length ∧ ∀ w,
      wp E C.groups x 0 ⟨fun _ => False, fun _ => False, PktOutcome E C w⟩ (initSt E w)) := by
  rw [genMain_eq]
  refine (entry_ok (E := E) (gs := C.groups)).then FixOk.noNext fun _ x1 ⟨h1, hpos⟩ _ => ?_
  refine (GenT.inRule (prologue_ok (E := E) (gs := C.groups) hE.cnt hfl) (GS.prologue C) (GN.prologue C)).then
    FixOk.noNext fun _ x2 h2 _ => ?_
  refine (state_ok (E := E) (gs := C.groups)).then FixOk.noNext fun _ x3 h3 _ => ?_
  have htail := GenN.all (ι := Frame × Spec.View × Spec.Capture) (tail_shape C)
    (H := fun k => PktFacts E C k.1 (Spec.inputOf E C.chain.hook) k.2.1 k.2.2) (fun k hk => tail_ok hE hC (PktFacts.sem hE hC hfl hk))
  refine GenN.mono htail (fun _ h => h) fun _ x4 h4 => ⟨by simp; omega, fun w => ?_⟩
  refine h1 w _ _ fun s hs hpre hr1 hw => ?_
  refine h2 s hs hpre hr1 _ _ ?_ ?_
  · intro v hv s' ps' hp hl2 hw'
    refine h3 _ _ s' ps' _ _ fun t pt hsame hst hwt _ => ?_
    obtain ⟨cap, hcap, hF⟩ := hp.facts (t := t) hl2 (understand_ether hv) hsame pt hst
    refine wp_mono (h4 (_, v, cap) hF t (Pr.inv pt)) ?_ ?_ ?_
    · intro u hu; cases hu.2
    · intro u hu; cases hu.2
    · intro r w' hx
      refine ⟨fun _ => cap, ?_, ?_⟩
      · intro v' hv'
        rw [hv] at hv'
        cases hv'
        exact hcap
      · have hx' : Spec.Step.stop _ _ = Spec.Step.stop r w' := hx
        injection hx' with e1 e2
        rw [← e1, ← e2, hwt, hw', hw]
        unfold Spec.evalPacket
        rw [hv]
        rfl
  · intro hv r w' e
    refine ⟨fun _ => ⟨none, none, none⟩, ?_, ?_⟩
    · intro v' hv'
      rw [hv] at hv'
      cases hv'
    · rw [e, hw]
      unfold Spec.evalPacket
      rw [hv]

/-- A generated program, once loaded: its main part, followed by the ELF stubs. -/
theorem loaded_whole {chain : Chain} {thr : Nat → BitVec 32} {slen : Stub → Nat} {M : MapFds} {img : List Insn}
    {S : List Item → Prop} (h : compile chain thr slen M = .ok img)
    (hg : GenN (FixOk ⟨chain, buildGroups chain.sets, thr⟩) (genMain ⟨chain, buildGroups chain.sets, thr⟩)
      (fun _ x => 0 < x.length ∧ S x)) (hr : chain.flagRate = true → chain.rules ≠ []) :
    ∃ f, S f ∧ Resolved M (buildGroups chain.sets) img f ∧ Sta (FixOk ⟨chain, buildGroups chain.sets, thr⟩) f ∧
      0 < f.length ∧ genMain ⟨chain, buildGroups chain.sets, thr⟩ ⟨[], []⟩ = .ok ((), (⟨[], []⟩ : Prog).app f) ∧
      img.length = (elfstubs slen (fixupsOf 0 f) (f.map (·.insn)) (fun _ => 0)).1.length ∧
      ∀ j, f.length ≤ j → img[j]? = (elfstubs slen (fixupsOf 0 f) (f.map (·.insn)) (fun _ => 0)).1[j]? := by
  have h' := h
  unfold compile at h'
  obtain ⟨p, hp, _⟩ := Res.bind_eq_ok h'
  unfold genProgram at hp
  obtain ⟨⟨u, q⟩, hq, _⟩ := Res.bind_eq_ok hp
  obtain ⟨f, e, sf, hpos, hS⟩ := hg ⟨[], []⟩ u q (by simp) hq
  have hres := compile_resolved h f ?_ hpos (fun i hi => (sf.mem hi).1) (fun i hi e => ((sf.mem hi).2 _ e).1 rfl)
    (fun i hi e => ((sf.mem hi).2 _ e).2.1 rfl)
    (fun i hi e => ⟨((sf.mem hi).2 _ e).2.2 rfl, hr (((sf.mem hi).2 _ e).2.2 rfl)⟩)
  · exact ⟨f, hS, hres.1, sf, hpos, by rw [hq, e], hres.2⟩
  · intro r hr'
    rw [hq] at hr'
    cases hr'
    rw [e]

/-- A generated program, once loaded. -/
theorem loaded {chain : Chain} {thr : Nat → BitVec 32} {slen : Stub → Nat} {M : MapFds} {img : List Insn}
    {S : List Item → Prop} (h : compile chain thr slen M = .ok img)
    (hg : GenN (FixOk ⟨chain, buildGroups chain.sets, thr⟩) (genMain ⟨chain, buildGroups chain.sets, thr⟩)
      (fun _ x => 0 < x.length ∧ S x)) (hr : chain.flagRate = true → chain.rules ≠ []) :
    ∃ f, S f ∧ Resolved M (buildGroups chain.sets) img f ∧ Sta (FixOk ⟨chain, buildGroups chain.sets, thr⟩) f ∧
      f.length ≤ img.length := by
  obtain ⟨f, hS, hres, sf, hpos, _, _, _⟩ := loaded_whole h hg hr
  refine ⟨f, hS, hres, sf, ?_⟩
  have hlast : ∃ i, f[f.length - 1]? = some i := ⟨f[f.length - 1]'(by omega), List.getElem?_eq_getElem (by omega)⟩
  obtain ⟨i, hi⟩ := hlast
  have hh := hres _ i hi
  have hsome : ∃ j, img[f.length - 1]? = some j := by
    split at hh
    · exact ⟨_, hh⟩
    · exact hh.elim
    · obtain ⟨_, h1, _⟩ := hh; exact ⟨_, h1⟩
    · obtain ⟨_, _, _, h1, _⟩ := hh; exact ⟨_, h1⟩
  obtain ⟨j, hj⟩ := hsome
  have := (List.getElem?_eq_some_iff.mp hj).1
  omega

end Bf
