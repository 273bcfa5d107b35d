import Verif.Props.C15_Loaded
import Verif.Props.Sample
/-!
# C13: shape of the generated programs
-/
namespace Bf

variable {E : Env} {chain : Chain} {thr : Nat → BitVec 32} {slen : Stub → Nat} {M : MapFds} {img : List Insn}

/-- The words of an ELF stub in an image. -/
def stubBody (slen : Stub → Nat) (id : Stub) : List Insn := .stub id :: List.replicate (slen id) .stubPad

/-- What an instruction at `pc` of a main program of `n` instructions may be: jumps go forward and stay in the
main program, which can only be left by an `exit`. -/
def InsnOk (n pc : Nat) : Insn → Prop
  | .jmp _ _ _ _ off => 0 ≤ off.toInt ∧ pc + 1 + off.toInt.toNat < n ∧ pc + 1 < n
  | .ja off => 0 ≤ off.toInt ∧ pc + 1 + off.toInt.toNat < n
  | .ld64 _ _ => pc + 2 < n
  | .ldMap _ _ => pc + 2 < n
  | .stub _ => False
  | .stubPad => False
  | .exit => True
  | _ => pc + 1 < n

/-- The ELF stub pass appends each stub body once. -/
theorem elfstubs_bodies (slen : Stub → Nat) (fs : List Fixup) (img : List Insn) (loc : Stub → Nat) (hpos : 0 < img.length) :
    ∃ ids : List Stub, (elfstubs slen fs img loc).1 = img ++ ids.flatMap (stubBody slen) ∧ ids.Nodup ∧
      (∀ id ∈ ids, loc id = 0 ∧ ∃ g ∈ fs, g.ty = .stub id) ∧
      (∀ g ∈ fs, ∀ id, g.ty = .stub id → loc id ≠ 0 ∨ id ∈ ids) := by
  induction fs generalizing img loc with
  | nil => exact ⟨[], by simp [elfstubs], by simp, by simp, by simp⟩
  | cons f fs ih =>
    cases hty : f.ty with
    | stub id =>
      by_cases hl : loc id ≠ 0
      · simp only [elfstubs, hty, hl, if_true, ne_eq, not_false_eq_true]
        obtain ⟨ids, a, b, c, d⟩ := ih img loc hpos
        refine ⟨ids, a, b, ?_, ?_⟩
        · intro i hi
          obtain ⟨c1, g, hg, c2⟩ := c i hi
          exact ⟨c1, g, List.mem_cons_of_mem _ hg, c2⟩
        · intro g hg i hi
          rcases List.mem_cons.mp hg with rfl | hg
          · rw [hty] at hi; cases hi; exact Or.inl hl
          · exact d g hg i hi
      · have hl0 : loc id = 0 := by simpa using hl
        simp only [elfstubs, hty, hl0, ne_eq, not_true_eq_false, if_false]
        obtain ⟨ids, a, b, c, d⟩ := ih (img ++ stubBody slen id) (fun x => if x = id then img.length else loc x)
          (by simp only [List.length_append]; omega)
        refine ⟨id :: ids, ?_, ?_, ?_, ?_⟩
        · rw [show (Insn.stub id :: List.replicate (slen id) Insn.stubPad) = stubBody slen id from rfl, a]
          simp [List.append_assoc]
        · refine List.nodup_cons.mpr ⟨fun hm => ?_, b⟩
          have := (c id hm).1
          simp only [if_true] at this
          omega
        · intro i hi
          rcases List.mem_cons.mp hi with rfl | hi
          · exact ⟨hl0, f, List.mem_cons_self .., hty⟩
          · obtain ⟨c1, g, hg, c2⟩ := c i hi
            refine ⟨?_, g, List.mem_cons_of_mem _ hg, c2⟩
            split at c1
            · omega
            · exact c1
        · intro g hg i hi
          rcases List.mem_cons.mp hg with rfl | hg
          · rw [hty] at hi; cases hi; exact Or.inr (List.mem_cons_self ..)
          · rcases d g hg i hi with h | h
            · split at h
              · next e => subst e; exact Or.inr (List.mem_cons_self ..)
              · exact Or.inl h
            · exact Or.inr (List.mem_cons_of_mem _ h)
    | nextRule | cmap | lmap | smap | setMap i =>
      simp only [elfstubs, hty]
      obtain ⟨ids, a, b, c, d⟩ := ih img loc hpos
      refine ⟨ids, a, b, ?_, ?_⟩
      · intro i hi
        obtain ⟨c1, g, hg, c2⟩ := c i hi
        exact ⟨c1, g, List.mem_cons_of_mem _ hg, c2⟩
      · intro g hg id hi
        rcases List.mem_cons.mp hg with rfl | hg
        · rw [hty] at hi; cases hi
        · exact d g hg id hi

/-- The end of a program: the policy's counter and verdict. -/
def endOf (idx c : BitVec 32) : List Item :=
  [it (mov .r1 .r10), it (addi .r1 (ctx oArg)), itF .cmap (.ldMap .r2 0), it .pad, it (mov32i .r3 idx),
    itF (.stub .updateCounters) (.callRel 0), it (movi .r0 c), it .exit]

/-- A main program: well-formed code, then an end. -/
theorem genMain_end (C : Cfg) : GenN (FixOk C) (genMain C) (fun _ x => 0 < x.length ∧ ∃ y idx c, x = y ++ endOf idx c ∧
    Sta (FixOk C) y) := by
  rw [genMain_eq]
  refine (entry_ok (E := Sample.base) (gs := [])).then FixOk.noNext fun _ x1 _ s1 => ?_
  refine (GenT.inRule (g := prologue C) (S := fun _ _ => True) ((GS.prologue C).gen.mono fun _ _ _ => trivial) (GS.prologue C)
    (GN.prologue C)).then FixOk.noNext fun _ x2 _ s2 => ?_
  refine (state_ok (E := Sample.base) (gs := [])).then FixOk.noNext fun _ x3 _ s3 => ?_
  refine ((genRules_shape C C.chain.rules).mono (fun _ h => h.fixOk) fun _ _ h => h).then FixOk.noNext fun _ x4 _ s4 => ?_
  have hend := polG_fix C (S := fun x => ∃ idx c, x = endOf idx c) (by
    unfold emitCounter emitVerdict
    simp only [gen_assoc]
    exact .thenEmits (.thenMap (.thenEmit (.thenStub (.thenLift fun c _ => .thenEmit (.lastEmit ⟨_, _, rfl⟩))))))
  refine hend.mono (fun _ h => h) fun _ z ⟨idx, c, h⟩ => ⟨?_, ?_⟩
  · rw [h]; simp [endOf]; omega
  · exact ⟨x1 ++ (x2 ++ (x3 ++ x4)), idx, c, by rw [h]; simp [List.append_assoc], s1.append (s2.append (s3.append s4))⟩

/-- What a resolved item is. -/
theorem Resolved.what {M : MapFds} {g : Groups} {f : List Item} (h : Resolved M g img f) {pc : Nat} {j : Item} {i : Insn}
    (hj : f[pc]? = some j) (hi : img[pc]? = some i) :
    (j.fix = none ∧ i = j.insn) ∨ (∃ id v, j.fix = some (.stub id) ∧ i = .callRel v) ∨
      (∃ ty d fd, j.fix = some ty ∧ (∀ id, ty ≠ .stub id) ∧ ty ≠ .nextRule ∧ i = .ldMap d fd) := by
  have hr := h pc j hj
  obtain ⟨insn, fix⟩ := j
  cases fix with
  | none => exact Or.inl ⟨rfl, (Option.some.inj (hr.symm.trans hi)).symm⟩
  | some ty =>
    cases ty with
    | nextRule => exact hr.elim
    | stub id =>
      obtain ⟨v, hv, _⟩ := hr
      exact Or.inr (Or.inl ⟨id, v, rfl, (Option.some.inj (hv.symm.trans hi)).symm⟩)
    | cmap | lmap | smap | setMap ix =>
      obtain ⟨d, fd, _, hv, _⟩ := hr
      exact Or.inr (Or.inr ⟨_, d, fd, rfl, by simp, by simp,
        (Option.some.inj (hv.symm.trans hi)).symm⟩)

theorem off_nonneg {o : BitVec 16} (h : o.toNat < 32768) : o.toInt = (o.toNat : Int) := by
  rw [BitVec.toInt_eq_toNat_of_lt (by omega)]

theorem insnOk_none {n pc k : Nat} {i : Insn} (hfit : Item.fits k ⟨i, none⟩) (hn : pc + 1 + k < n) : InsnOk n pc i := by
  have h1 : pc + 1 < n := by omega
  match i, hfit with
  | .jmp w c d s o, hfit =>
    have h3 : o.toNat ≤ k ∧ o.toNat < 32768 := hfit
    show 0 ≤ o.toInt ∧ pc + 1 + o.toInt.toNat < n ∧ pc + 1 < n
    rw [off_nonneg h3.2, Int.toNat_natCast]
    omega
  | .ja o, hfit =>
    have h3 : o.toNat ≤ k ∧ o.toNat < 32768 := hfit
    show 0 ≤ o.toInt ∧ pc + 1 + o.toInt.toNat < n
    rw [off_nonneg h3.2, Int.toNat_natCast]
    omega
  | .ld64 _ _, hfit =>
    have h3 : 1 ≤ k := hfit
    show pc + 2 < n
    omega
  | .ldMap _ _, hfit => exact hfit.elim
  | .stub _, hfit => exact hfit.elim
  | .stubPad, hfit => exact hfit.elim
  | .exit, _ => trivial
  | .alu .., _ => exact h1
  | .bswap16 _, _ | .stx .., _ | .st .., _ | .ldxF .., _ | .stxF .., _ | .pad, _ | .call _, _ | .kcall _, _ | .callRel _, _ => exact h1
  | .ldx .., _ => exact h1

/-- An item that fits before the last instruction gives a good instruction. -/
theorem insnOk_of_fits {n pc k : Nat} {j : Item} {i : Insn} (hfit : j.fits k) (hn : pc + 1 + k < n) 
    (hw : (j.fix = none ∧ i = j.insn) ∨ (∃ id v, j.fix = some (.stub id) ∧ i = .callRel v) ∨
      (∃ ty d fd, j.fix = some ty ∧ (∀ id, ty ≠ .stub id) ∧ ty ≠ .nextRule ∧ i = .ldMap d fd)) : InsnOk n pc i := by
  obtain ⟨insn, fix⟩ := j
  rcases hw with ⟨h1, rfl⟩ | ⟨id, v, h1, rfl⟩ | ⟨ty, d, fd, h1, h2, h3, rfl⟩
  · simp only at h1
    subst h1
    exact insnOk_none hfit hn
  · show pc + 1 < n
    omega
  · simp only at h1
    subst h1
    show pc + 2 < n
    cases ty <;> simp only [Item.fits] at hfit
    case stub id => exact absurd rfl (h2 id)
    case nextRule => exact absurd rfl h3
    all_goals omega

/-- The instructions of an end. -/
theorem endOf_insn {idx c : BitVec 32} {k : Nat} {j : Item} {n pc : Nat} {i : Insn} (hj : (endOf idx c)[k]? = some j)
    (hn : n = pc - k + 8) (hk : k ≤ pc)
    (hw : (j.fix = none ∧ i = j.insn) ∨ (∃ id v, j.fix = some (.stub id) ∧ i = .callRel v) ∨
      (∃ ty d fd, j.fix = some ty ∧ (∀ id, ty ≠ .stub id) ∧ ty ≠ .nextRule ∧ i = .ldMap d fd)) : InsnOk n pc i := by
  have hk8 : k < 8 := (List.getElem?_eq_some_iff.mp hj).1
  by_cases h7 : k = 7
  · subst h7
    have : j = it .exit := (Option.some.inj hj).symm
    subst this
    rcases hw with ⟨_, rfl⟩ | ⟨id, v, h1, _⟩ | ⟨ty, d, fd, h1, _⟩
    · trivial
    · cases h1
    · cases h1
  · refine insnOk_of_fits (k := 7 - k - 1) ?_ (by omega) hw
    have : k = 0 ∨ k = 1 ∨ k = 2 ∨ k = 3 ∨ k = 4 ∨ k = 5 ∨ k = 6 := by omega
    rcases this with rfl | rfl | rfl | rfl | rfl | rfl | rfl <;> rw [← Option.some.inj hj]
    all_goals simp only [Item.fits, it, itF, mov, addi, mov32i, movi]
    omega

/-- **C13.**  The image of any chain is a main program followed by the ELF stubs it calls, each once.  In the main
program, jumps go forward and stay in it, execution never falls off its end, and what is called is the start of
the body of the stub that was asked for. -/
theorem C13_shape (hapi : ApiChain chain) (h : compile chain thr slen M = .ok img) :
    ∃ (main : List Insn) (ids : List Stub) (fixups : List Fixup),
      img = main ++ ids.flatMap (stubBody slen) ∧ ids.Nodup ∧
      (∃ p, genMain ⟨chain, buildGroups chain.sets, thr⟩ ⟨[], []⟩ = .ok ((), p) ∧ p.img.length = main.length ∧ p.fixups = fixups) ∧
      (∀ (pc : Nat) (i : Insn), main[pc]? = some i → InsnOk main.length pc i) ∧
      (∀ (pc : Nat) (v : BitVec 32), main[pc]? = some (.callRel v) → ∃ id, (⟨.stub id, pc⟩ : Fixup) ∈ fixups ∧ id ∈ ids ∧
        0 ≤ v.toInt ∧ main.length ≤ pc + 1 + v.toInt.toNat ∧ img[pc + 1 + v.toInt.toNat]? = some (.stub id)) ∧
      (∀ (pc : Nat) (id : Stub), (⟨.stub id, pc⟩ : Fixup) ∈ fixups → ∃ v : BitVec 32, main[pc]? = some (.callRel v)) := by
  obtain ⟨f, ⟨y, idx, c, hf, sy⟩, hres, sf, hpos, hgen, hlen, htail⟩ := loaded_whole h (genMain_end _)
    (fun hr => hapi.ok.rate hr)
  obtain ⟨ids, e1, e2, e3, e4⟩ := elfstubs_bodies slen (fixupsOf 0 f) (f.map (·.insn)) (fun _ => 0) (by simpa using hpos)
  rw [e1] at hlen htail
  have hfl : f.length ≤ img.length := by rw [hlen]; simp
  have himg : img = img.take f.length ++ ids.flatMap (stubBody slen) := by
    apply List.ext_getElem?
    intro j
    by_cases hj : j < f.length
    · rw [List.getElem?_append_left (by simp; omega), List.getElem?_take_of_lt hj]
    · rw [htail j (by omega), List.getElem?_append_right (by simp; omega), List.getElem?_append_right (by simp; omega)]
      simp only [List.length_map, List.length_take]
      rw [Nat.min_eq_left hfl]
  have hml : (img.take f.length).length = f.length := by simp; omega
  refine ⟨img.take f.length, ids, fixupsOf 0 f, himg, e2, ⟨_, hgen, by rw [hml]; simp [Prog.app], rfl⟩, ?_, ?_, ?_⟩
  · intro pc i hi
    rw [hml]
    have hlt : pc < f.length := by
      have := (List.getElem?_eq_some_iff.mp hi).1
      omega
    rw [List.getElem?_take_of_lt hlt] at hi
    obtain ⟨j, hj⟩ : ∃ j, f[pc]? = some j := ⟨_, List.getElem?_eq_getElem hlt⟩
    have hw := Resolved.what hres hj hi
    have hfl' : f.length = y.length + 8 := by rw [hf]; simp [endOf]
    by_cases hy : pc < y.length
    · rw [hf, List.getElem?_append_left hy] at hj
      exact insnOk_of_fits (sy.at hj) (by omega) hw
    · rw [hf, List.getElem?_append_right (by omega)] at hj
      exact endOf_insn hj (by omega) (by omega) hw
  · intro pc v hv
    have hlt : pc < f.length := by
      have := (List.getElem?_eq_some_iff.mp hv).1
      omega
    rw [List.getElem?_take_of_lt hlt] at hv
    obtain ⟨j, hj⟩ : ∃ j, f[pc]? = some j := ⟨_, List.getElem?_eq_getElem hlt⟩
    have hr := hres pc j hj
    have hfit := sf.at hj
    cases hfix : j.fix with
    | none =>
      rw [hfix] at hr
      simp only at hr
      rw [hv] at hr
      injection hr with hr
      unfold Item.fits at hfit
      rw [hfix, ← hr] at hfit
      exact hfit.elim
    | some ty =>
      rw [hfix] at hr
      cases ty with
      | nextRule => exact hr.elim
      | stub id =>
        obtain ⟨v', h1, h2, h3⟩ := hr
        rw [hv] at h1
        cases h1
        have hmem : (⟨.stub id, pc⟩ : Fixup) ∈ fixupsOf 0 f := by
          have := fixupsOf_mem (base := 0) hj hfix
          simpa using this
        refine ⟨id, hmem, ?_, h2, ?_, h3⟩
        · exact (e4 _ hmem id rfl).resolve_left (by simp)
        · rw [hml]
          rcases Nat.lt_or_ge (pc + 1 + v.toInt.toNat) f.length with hlt' | hge
          · exfalso
            obtain ⟨j', hj'⟩ : ∃ j, f[pc + 1 + v.toInt.toNat]? = some j := ⟨_, List.getElem?_eq_getElem hlt'⟩
            have hr' := hres _ j' hj'
            have hfit' := sf.at hj'
            cases hfix' : j'.fix with
            | none =>
              rw [hfix'] at hr'
              simp only at hr'
              rw [h3] at hr'
              injection hr' with hr'
              unfold Item.fits at hfit'
              rw [hfix', ← hr'] at hfit'
              exact hfit'.elim
            | some ty' =>
              rw [hfix'] at hr'
              cases ty' with
              | nextRule => exact hr'.elim
              | stub id' => obtain ⟨_, h1, _⟩ := hr'; rw [h3] at h1; cases h1
              | cmap | lmap | smap | setMap ix => obtain ⟨_, _, _, h1, _⟩ := hr'; rw [h3] at h1; cases h1
          · exact hge
      | cmap | lmap | smap | setMap ix => obtain ⟨_, _, _, h1, _⟩ := hr; rw [hv] at h1; cases h1
  · intro pc id hm
    obtain ⟨i, h1, h2⟩ := fixupsOf_zero hm
    have hr := hres pc i h1
    have hlt := (List.getElem?_eq_some_iff.mp h1).1
    simp only at h2
    rw [h2] at hr
    obtain ⟨v, hv, _⟩ := hr
    exact ⟨v, by rw [List.getElem?_take_of_lt hlt]; exact hv⟩

/-- **C13.**  Execution ends after at most as many steps as there are instructions, whatever arrives. -/
theorem C13_terminates (h : IsLoaded E chain thr img) (w : World) : ∃ r w', run E img img.length 0 (initSt E w) = .exit r w' := by
  obtain ⟨r, w', hr⟩ := C01_returns h w
  exact ⟨r, w', hr _ (Nat.le_refl _)⟩

/-- Non-empty hypotheses: a chain with matchers, logs, sets and counters compiles. -/
example : ApiChain Sample.chain ∧ ∃ img, compile Sample.chain Sample.thr Sample.slen stdFds = .ok img :=
  ⟨Sample.api, Sample.compiles_of (by decide +kernel)⟩

end Bf
