import Verif.Frag.TotalR
import Verif.Exec.Main3
/-!
# Every well-formed chain compiles
-/
namespace Bf

variable {gs : Groups} {C : Cfg}

theorem TotN.of {g : Gen Unit} {n : Nat} (h : Tot gs n g) (hn : GN g) : TotN gs n g := by
  intro p _
  obtain ⟨a, x, h1, h2, h3⟩ := h p
  obtain ⟨y, e, hy⟩ := hn.gen p a _ h1
  have := Prog.app_inj e
  subst this
  exact ⟨x, h1, h2, fun i hi => ⟨h3 i hi, hy i hi⟩⟩

theorem Tot.errBlock (C : Cfg) : Tot gs 8 (errBlock C) :=
  .bind (n := 6) (m := 2) (.emitCounter _) fun _ => .emitVerdict _ (by simp)

theorem Tot.makeDynptr (C : Cfg) (k : Kfunc) : Tot gs 13 (makeDynptr C k) :=
  .bind (n := 4) (m := 9) (.emits _) fun _ => .withJmp (.errBlock C)

theorem Tot.parseL2 (C : Cfg) : Tot gs 20 (parseL2 C) :=
  .bind (n := 8) (m := 12) (.emits _) fun _ => .bind (n := 9) (m := 3) (.withJmp (.errBlock C)) fun _ => .emits _

theorem Tot.swich4 (reg : Reg) (a b c d : BitVec 32) (xa xb xc xd xe : Insn) :
    Tot gs 14 (swich reg [(a, [xa]), (b, [xb]), (c, [xc]), (d, [xd])] [xe]) :=
  .mono (.of_emits (emits_swich4 reg a b c d xa xb xc xd xe) (by simp [swich4F, Good])) (by simp [swich4F])

theorem Tot.l3Ipv6 (C : Cfg) : Tot gs 23 (l3Ipv6 C) := by
  rw [l3Ipv6_eq]
  refine .withJmp (n := 22) (.mono (.of_emits (emits_ipv6 C) (by simp [ipv6F, Good])) (by simp [ipv6F]))

theorem Tot.parseL3 (C : Cfg) : Tot gs 57 (parseL3 C) :=
  .bind (n := 8) (m := 49) (.swich2 _ _ _ _ _ _) fun _ => .withJmp (n := 48) (.bind (n := 7) (m := 41) (.emits _) fun _ =>
    .bind (n := 9) (m := 32) (.withJmp (.errBlock C)) fun _ => .bind (n := 1) (m := 31) (.emit _) fun _ =>
    .bind (n := 8) (m := 23) (.withJmp (n := 7) (.emits _)) fun _ => .l3Ipv6 C)

theorem Tot.parseL4 (C : Cfg) : Tot gs 32 (parseL4 C) :=
  .bind (n := 14) (m := 18) (.swich4 _ _ _ _ _ _ _ _ _ _) fun _ => .withJmp (n := 17) (.bind (n := 7) (m := 10) (.emits _) fun _ =>
    .bind (n := 9) (m := 1) (.withJmp (.errBlock C)) fun _ => .emit _)

theorem Tot.prologue (C : Cfg) : Tot gs 200 (prologue C) := by
  unfold Bf.prologue
  split
  · exact .mono (.bind (n := 6) (m := 122) (.emits _) fun _ => .bind (n := 13) (m := 109) (.makeDynptr _ _) fun _ =>
      .bind (n := 20) (m := 89) (.parseL2 C) fun _ => .bind (n := 57) (m := 32) (.parseL3 C) fun _ => .parseL4 C) (by omega)
  · exact .mono (.bind (n := 4) (m := 122) (.emits _) fun _ => .bind (n := 13) (m := 109) (.makeDynptr _ _) fun _ =>
      .bind (n := 20) (m := 89) (.parseL2 C) fun _ => .bind (n := 57) (m := 32) (.parseL3 C) fun _ => .parseL4 C) (by omega)
  · exact .mono (.bind (n := 5) (m := 115) (.emits _) fun _ => .bind (n := 8) (m := 107) (.swich2 _ _ _ _ _ _) fun _ =>
      .bind (n := 5) (m := 102) (.emits _) fun _ => .bind (n := 13) (m := 89) (.makeDynptr _ _) fun _ =>
      .bind (n := 57) (m := 32) (.parseL3 C) fun _ => .parseL4 C) (by omega)
  · exact .mono (.bind (n := 6) (m := 111) (.emits _) fun _ => .bind (n := 8) (m := 103) (.swich2 _ _ _ _ _ _) fun _ =>
      .bind (n := 1) (m := 102) (.emit _) fun _ => .bind (n := 13) (m := 89) (.makeDynptr _ _) fun _ =>
      .bind (n := 57) (m := 32) (.parseL3 C) fun _ => .parseL4 C) (by omega)
  · exact .mono (.bind (n := 3) (m := 9) (.emits _) fun _ => .bind (n := 8) (m := 1) (.swich2 _ _ _ _ _ _) fun _ => .emit _)
      (by omega)

theorem GN.ite {α : Type} {c : Prop} [Decidable c] {a b : Gen α} (ha : GN a) (hb : GN b) : GN (if c then a else b) := by
  split
  · exact ha
  · exact hb

theorem GN.entryG (C : Cfg) : GN (entryG C) :=
  .bind (.emits _) fun _ => .bind (.ite (.bind (.map (by simp) _) fun _ => .emit _) (.pure _)) fun _ =>
    .ite (.emit _) (.pure _)

theorem GN.stateG (C : Cfg) : GN (stateG C) :=
  .ite (.bind (.emit _) fun _ => .bind (.map (by simp) _) fun _ => .emits _) (.pure _)

theorem Tot.entryG (C : Cfg) : Tot gs 7 (entryG C) :=
  .bind (n := 3) (m := 4) (.emits _) fun _ => .bind (n := 3) (m := 1) (.ite
    (fun _ => .bind (n := 2) (m := 1) (.map _ ⟨_, rfl⟩) fun _ => .emit _) fun _ => .mono (.pure _) (by omega)) fun _ =>
    .ite (fun _ => .emit _) fun _ => .mono (.pure _) (by omega)

theorem Tot.stateG (C : Cfg) : Tot gs 7 (stateG C) :=
  .ite (fun _ => .bind (n := 1) (m := 6) (.emit _) fun _ => .bind (n := 2) (m := 4) (.map _ ⟨_, rfl⟩) fun _ => .emits _)
    fun _ => .mono (.pure _) (by omega)

theorem emits_pos {g : Gen Unit} {f : List Item} {k : Unit → Gen Unit} {m : Nat} (hg : Emits g (.ok f)) (hf : 0 < f.length)
    (hk : ∀ a, Tot gs m (k a)) (p : Prog) {a : Unit} {x : List Item} (h : (g >>= k) p = .ok (a, p.app x)) : 0 < x.length := by
  obtain ⟨b, y, k1, _, _⟩ := hk () (p.app f)
  rw [bind_run, hg p] at h
  simp only [Res.ok_bind', k1, Prog.app_app, Res.ok.injEq, Prod.mk.injEq] at h
  have := Prog.app_inj h.2
  subst this
  simp; omega

theorem entryG_pos (C : Cfg) (p : Prog) {x : List Item} (h : entryG C p = .ok ((), p.app x)) : 0 < x.length := by
  refine emits_pos (gs := C.groups) (m := 4) (emits_emits _) (by simp) (fun _ => ?_) p h
  exact .bind (n := 3) (m := 1) (.ite
    (fun _ => .bind (n := 2) (m := 1) (.map _ ⟨_, rfl⟩) fun _ => .emit _) fun _ => .mono (.pure _) (by omega)) fun _ =>
    .ite (fun _ => .emit _) fun _ => .mono (.pure _) (by omega)

theorem TotN.main (h : ∀ r ∈ C.chain.rules, r.disabled = false → ROk C r) (hp : C.chain.policy.validPolicy = true)
    (p : Prog) (hpc : ∀ f ∈ p.fixups, f.ty ≠ .nextRule) :
    ∃ x, genMain C p = .ok ((), p.app x) ∧ x.length ≤ 222 + 32000 * C.chain.rules.length ∧ 0 < x.length ∧
      ∀ i ∈ x, Good' C.groups i := by
  rw [genMain_eq]
  have hv : C.chain.policy = .accept ∨ C.chain.policy = .drop ∨ C.chain.policy = .next := by
    cases hh : C.chain.policy <;> simp [hh, Verdict.validPolicy] at hp ⊢
  have hrest := TotN.bind (.of (.prologue C) (.prologue C))
    (.bind (.of (.stateG C) (.stateG C)) (.bind (.rules C.chain.rules h)
      (.bind (.of (.emitCounter C.chain.rules.length) (.emitCounter _))
        (.of (.emitVerdict C.chain.hook.flavor hv) (.emitVerdict _ _)))))
  obtain ⟨x, h1, h2, h3⟩ := (TotN.of (Tot.entryG C) (.entryG C)) p hpc
  have hpos : 0 < x.length := entryG_pos C p h1
  obtain ⟨y, k1, k2, k3⟩ := hrest (p.app x) (app_clean hpc h3)
  refine ⟨x ++ y, ?_, by simp; omega, by simp; omega, ?_⟩
  · rw [bind_run, h1]
    simp only [Res.ok_bind']
    rw [← Prog.app_app]
    exact k1
  · intro i hi
    rcases List.mem_append.mp hi with h | h
    · exact h3 i h
    · exact k3 i h

/-! ### Fixups -/

theorem fixupLoop_total (F : FixEnv) (sel : FixTy → Bool) (fs : List Fixup) (img : List Insn)
    (hd : fs.Pairwise (fun a b => a.insn ≠ b.insn))
    (hv : ∀ g ∈ fs, sel g.ty = true → ∃ i i', img[g.insn]? = some i ∧ fixVal F img.length g i = .ok i') :
    ∃ r, fixupLoop F sel fs img = .ok r := by
  induction fs generalizing img with
  | nil => exact ⟨_, rfl⟩
  | cons f fs ih =>
    obtain ⟨hd1, hd2⟩ := List.pairwise_cons.mp hd
    unfold fixupLoop
    cases hs : sel f.ty with
    | false =>
      obtain ⟨r, hr⟩ := ih img hd2 fun g hg => hv g (List.mem_cons_of_mem _ hg)
      simp [hr]
    | true =>
      obtain ⟨i, i', h1, h2⟩ := hv f (List.mem_cons_self ..) hs
      simp only [if_true]
      have e : fixOne F img f = .ok (img.set f.insn i') := by simp [fixOne, h1, h2]
      rw [e]
      refine ih _ hd2 fun g hg hsg => ?_
      obtain ⟨j, j', k1, k2⟩ := hv g (List.mem_cons_of_mem _ hg) hsg
      refine ⟨j, j', ?_, by simpa using k2⟩
      rw [List.getElem?_set_ne (hd1 g hg)]
      exact k1

/-- While fixups are processed, those whose value can be computed succeed. -/
theorem PInv.total {M : MapFds} {gs : Groups} {loc : Stub → Nat} {f : List Item} {img1 : List Insn}
    {done : FixTy → Bool} {fs : List Fixup} {img : List Insn}
    (h : PInv M gs loc f img1 done fs img) (F : FixEnv) (sel : FixTy → Bool)
    (hv : ∀ (n : Nat) (i : Item) (ty : FixTy), sel ty = true → f[n]? = some i → i.fix = some ty →
      ∃ i', fixVal F img1.length ⟨ty, n⟩ i.insn = .ok i') :
    ∃ r, fixupLoop F sel fs img = .ok r := by
  refine fixupLoop_total F sel fs img ?_ ?_
  · rw [h.fs]; exact (fixupsOf_pairwise 0 f).filter _
  · intro g hg hs
    rw [h.fs, List.mem_filter] at hg
    obtain ⟨i, h1, h2⟩ := fixupsOf_zero hg.1
    obtain ⟨i', h3⟩ := hv g.insn i g.ty hs h1 h2
    refine ⟨i.insn, i', h.pend g.insn i g.ty h1 h2 (by simpa using hg.2), ?_⟩
    rw [h.len]
    exact h3

/-- All the stubs. -/
def allStubs : List Stub := [.parseIpv6Eh, .parseIpv6Nh, .updateCounters, .pktLog, .flowHash, .sockAddrLog]

/-- Words still to be appended. -/
def stubRoom (slen : Stub → Nat) (loc : Stub → Nat) : Nat :=
  (allStubs.map fun id => if loc id = 0 then slen id + 1 else 0).sum

theorem elfstubs_length (slen : Stub → Nat) (fs : List Fixup) : ∀ (img : List Insn) (loc : Stub → Nat), 0 < img.length →
    (elfstubs slen fs img loc).1.length ≤ img.length + stubRoom slen loc := by
  induction fs with
  | nil => intro img loc _; simp [elfstubs]
  | cons f fs ih =>
    intro img loc hi
    unfold elfstubs
    split
    · next id _ =>
      by_cases h0 : loc id = 0
      · rw [if_neg (by simp [h0])]
        refine Nat.le_trans (ih _ _ (by simp; omega)) ?_
        have : stubRoom slen (fun x => if x = id then img.length else loc x) + (slen id + 1) ≤ stubRoom slen loc := by
          have hne : img.length ≠ 0 := by omega
          cases id <;> simp [stubRoom, allStubs, h0, hne] <;> omega
        simp only [List.length_append, List.length_cons, List.length_replicate]
        omega
      · rw [if_pos h0]
        exact ih img loc hi
    · exact ih img loc hi

/-- The static conditions of `Frag.Compile` follow. -/
theorem Good'.tyOk {i : Item} (h : Good' gs i) : TyOk i := by
  obtain ⟨h1, h2⟩ := h
  unfold Good at h1
  unfold TyOk
  cases hf : i.fix with
  | none => trivial
  | some ty =>
    rw [hf] at h1 h2
    cases ty with
    | nextRule => exact absurd rfl h2
    | stub id => exact h1
    | setMap k => exact h1.1
    | cmap | lmap | smap => exact h1

/-- One pass of map fixups. -/
theorem PInv.pass {M : MapFds} {loc : Stub → Nat} {f : List Item} {img1 : List Insn}
    {done : FixTy → Bool} {fs : List Fixup} {img : List Insn} (h : PInv M gs loc f img1 done fs img)
    (hg : ∀ i ∈ f, Good' gs i) (sel : FixTy → Bool) (hs1 : ∀ id, sel (.stub id) = false) (hs2 : sel .nextRule = false) :
    ∃ r, fixupLoop ⟨M.fd gs, fun _ => 0⟩ sel fs img = .ok r ∧ ∃ done', PInv M gs loc f img1 done' r.1 r.2 := by
  obtain ⟨r, hr⟩ := h.total ⟨M.fd gs, fun _ => 0⟩ sel (by
    intro n i ty hs hi hfix
    have hgi := (hg i (List.mem_of_getElem? hi)).1
    unfold Good at hgi
    rw [hfix] at hgi
    cases ty with
    | nextRule => rw [hs2] at hs; cases hs
    | stub id => rw [hs1] at hs; cases hs
    | cmap => obtain ⟨d, hd⟩ := hgi; exact ⟨.ldMap d M.counters, by rw [hd]; rfl⟩
    | lmap => obtain ⟨d, hd⟩ := hgi; exact ⟨.ldMap d M.log, by rw [hd]; rfl⟩
    | smap => obtain ⟨d, hd⟩ := hgi; exact ⟨.ldMap d M.state, by rw [hd]; rfl⟩
    | setMap k =>
      obtain ⟨⟨d, hd⟩, g, hk⟩ := hgi
      exact ⟨.ldMap d (M.set g), by rw [hd]; simp [fixVal, MapFds.fd, hk, Res.bind, fixImm]⟩)
  refine ⟨r, hr, _, h.step _ sel ?_ (fun i hi => (hg i hi).tyOk) r hr⟩
  intro ty n i i' hsel hv hfix hok
  have hns : ∀ id, ty ≠ .stub id := by
    intro id e; subst e; rw [hs1] at hsel; cases hsel
  have hnn : ty ≠ .nextRule := by intro e; subst e; rw [hs2] at hsel; cases hsel
  refine fixVal_map rfl hv ?_ hnn hns
  cases ty with
  | nextRule => exact absurd rfl hnn
  | stub id => exact absurd rfl (hns id)
  | cmap | lmap | smap | setMap ix => simpa [TyOk, hfix] using hok

/-- Every chain whose rules are well formed compiles. -/
theorem compile_total {chain : Chain} {thr : Nat → BitVec 32} {slen : Stub → Nat} (M : MapFds)
    (hr : ∀ r ∈ chain.rules, r.disabled = false → ROk ⟨chain, buildGroups chain.sets, thr⟩ r)
    (hp : chain.policy.validPolicy = true)
    (hz : 222 + 32000 * chain.rules.length + stubRoom slen (fun _ => 0) < 2147483647) :
    ∃ img, compile chain thr slen M = .ok img := by
  obtain ⟨f, hf, hlen, hpos, hg⟩ := TotN.main (C := ⟨chain, buildGroups chain.sets, thr⟩) hr hp ⟨[], []⟩ (by simp)
  simp only at hlen hg
  have hbnd := elfstubs_length slen (fixupsOf 0 f) (f.map (·.insn)) (fun _ => 0) (by simpa using hpos)
  obtain ⟨⟨t, ht⟩, hloc, _, hcov, hfar⟩ := elfstubs_spec slen (fixupsOf 0 f) (f.map (·.insn)) (fun _ => 0)
    (by simpa using hpos) (by intro id h; exact absurd rfl h)
  generalize he : elfstubs slen (fixupsOf 0 f) (f.map (·.insn)) (fun _ => 0) = e at *
  have h0 : PInv M (buildGroups chain.sets) e.2 f e.1 (fun _ => false) (fixupsOf 0 f) e.1 := by
    have hget : ∀ (n : Nat) (i : Item), f[n]? = some i → e.1[n]? = some i.insn := by
      intro n i hi
      rw [ht, List.getElem?_append_left (by
        have := (List.getElem?_eq_some_iff.mp hi).1; simpa using this)]
      simp [hi]
    refine ⟨(List.filter_eq_self.mpr (by simp)).symm, rfl, fun _ _ => rfl, fun n i hi _ => hget n i hi,
      fun n i ty hi _ _ => hget n i hi, fun n i ty _ _ hd => by cases hd⟩
  obtain ⟨q1, hq1⟩ := h0.total ⟨fun _ => .ub, e.2⟩ (fun t => match t with | .stub _ => true | _ => false) (by
    intro n i ty hs hi hfix
    have hgi := (hg i (List.mem_of_getElem? hi)).1
    unfold Good at hgi
    rw [hfix] at hgi
    cases ty with
    | stub id =>
      have hne : e.2 id ≠ 0 := hcov ⟨.stub id, n⟩ (by
        have := fixupsOf_mem (base := 0) hi hfix
        simpa using this) id rfl
      have hge : f.length ≤ e.2 id := by simpa using hfar id rfl hne
      have hlt := (List.getElem?_eq_some_iff.mp (hloc id hne)).1
      have hn := (List.getElem?_eq_some_iff.mp hi).1
      simp only [fixVal]
      rw [if_neg (by simp at hbnd; omega)]
      simp only at hgi
      rw [hgi]
      exact ⟨_, rfl⟩
    | _ => simp at hs)
  have h1 := h0.step _ _ (by
    intro ty n i i' hsel hv hfix hok
    cases ty with
    | stub id =>
      have hi : i.insn = .callRel 0 := by simpa [TyOk, hfix] using hok
      exact fixVal_stub hv hi
    | _ => simp at hsel) (fun i hi => (hg i hi).tyOk) q1 hq1
  obtain ⟨q2, hq2, _, h2⟩ := h1.pass hg (fun t => match t with | .setMap _ => true | _ => false) (fun _ => rfl) rfl
  obtain ⟨q3, hq3, _, h3⟩ := h2.pass hg (· == .cmap) (fun _ => rfl) rfl
  obtain ⟨q4, hq4, _, h4⟩ := h3.pass hg (· == .lmap) (fun _ => rfl) rfl
  obtain ⟨q5, hq5, _⟩ := h4.pass hg (· == .smap) (fun _ => rfl) rfl
  obtain ⟨q6, hq6, _⟩ := h3.pass hg (· == .smap) (fun _ => rfl) rfl
  unfold compile genProgram
  simp only
  rw [hf]
  simp only [Res.ok_bind', Prog.app, List.nil_append, List.length_nil, he, fixup]
  change ∃ img, ((((fixupLoop ⟨fun _ => .ub, e.2⟩ (fun t => match t with | .stub _ => true | _ => false) (fixupsOf 0 f) e.1).bind
    _).bind _).bind _) = Res.ok img
  rw [hq1]
  simp only [Res.ok_bind', loadFixups, fixup]
  change ∃ img, ((((fixupLoop _ (fun t => match t with | .setMap _ => true | _ => false) q1.1 q1.2).bind
    _).bind _)) = Res.ok img
  rw [hq2]
  simp only [Res.ok_bind']
  rw [hq3]
  simp only [Res.ok_bind']
  by_cases c1 : chain.flagLog = true
  · rw [if_pos c1, hq4]
    simp only [Res.ok_bind']
    by_cases c2 : chain.flagRate = true ∧ chain.rules ≠ []
    · rw [if_pos c2, hq5]; exact ⟨_, rfl⟩
    · rw [if_neg c2]; exact ⟨_, rfl⟩
  · rw [if_neg c1]
    simp only [Res.ok_bind']
    by_cases c2 : chain.flagRate = true ∧ chain.rules ≠ []
    · rw [if_pos c2, hq6]; exact ⟨_, rfl⟩
    · rw [if_neg c2]; exact ⟨_, rfl⟩

end Bf
