import Verif.Frag.Compile
/-!
# Program logic for fragments

`wp E gs x k Q s`: executing fragment `x` from state `s`, skipping `k` instructions first, ends in one
of the outcomes allowed by `Q`.  Nothing here models code of the repository.
-/
namespace Bf

/-- Allowed outcomes of a fragment: run past its end, jump to the next rule, leave the program. -/
structure Post where
  fall : St → Prop
  next : St → Prop
  exit : BitVec 64 → World → Prop

/-- The fragment ends in an allowed outcome. -/
def wp (E : Env) (gs : Groups) : List Item → Nat → Post → St → Prop
  | [], k, Q, s => k = 0 ∧ Q.fall s
  | _ :: x, k + 1, Q, s => wp E gs x k Q s
  | i :: x, 0, Q, s =>
    match stepT E gs i s with
    | .fall k s' => wp E gs x k Q s'
    | .next s' => Q.next s'
    | .exit v w => Q.exit v w
    | .err => False

variable {E : Env} {gs : Groups}

theorem wp_nil {Q : Post} {s : St} : wp E gs [] 0 Q s ↔ Q.fall s := by simp [wp]

theorem wp_mono {x : List Item} {k : Nat} {Q R : Post} {s : St} (h : wp E gs x k Q s)
    (hf : ∀ s, Q.fall s → R.fall s) (hn : ∀ s, Q.next s → R.next s)
    (hx : ∀ v w, Q.exit v w → R.exit v w) : wp E gs x k R s := by
  induction x generalizing k s with
  | nil => exact ⟨h.1, hf _ h.2⟩
  | cons i is ih =>
    cases k with
    | succ k => exact ih h
    | zero =>
      simp only [wp] at h ⊢
      cases hst : stepT E gs i s with
      | fall k s' => rw [hst] at h; exact ih h
      | next s' => rw [hst] at h; exact hn _ h
      | exit v w => rw [hst] at h; exact hx _ _ h
      | err => rw [hst] at h; exact h

theorem wp_append {a b : List Item} {k : Nat} {Q : Post} {s : St}
    (h : wp E gs a k ⟨fun s => wp E gs b 0 Q s, Q.next, Q.exit⟩ s) : wp E gs (a ++ b) k Q s := by
  induction a generalizing k s with
  | nil =>
    obtain ⟨rfl, h⟩ := h
    exact h
  | cons i is ih =>
    cases k with
    | succ k => exact ih h
    | zero =>
      simp only [wp, List.cons_append] at h ⊢
      cases hst : stepT E gs i s with
      | fall k s' => rw [hst] at h; exact ih h
      | next s' => rw [hst] at h; exact h
      | exit v w => rw [hst] at h; exact h
      | err => rw [hst] at h; exact h

/-- Skip a whole fragment. -/
theorem wp_skip {a b : List Item} {Q : Post} {s : St} {n : Nat} (hn : n = a.length)
    (h : wp E gs b 0 Q s) : wp E gs (a ++ b) n Q s := by
  subst hn
  induction a with
  | nil => exact h
  | cons i is ih => exact ih

/-- From the program logic back to executions. -/
theorem wp_run {x : List Item} {k : Nat} {Q : Post} {s : St} (h : wp E gs x k Q s) :
    (∃ s', runT E gs x k s = .fall 0 s' ∧ Q.fall s') ∨ (∃ s', runT E gs x k s = .next s' ∧ Q.next s') ∨
    (∃ v w, runT E gs x k s = .exit v w ∧ Q.exit v w) := by
  induction x generalizing k s with
  | nil => obtain ⟨rfl, h⟩ := h; exact Or.inl ⟨s, rfl, h⟩
  | cons i is ih =>
    cases k with
    | succ k => simp only [runT]; exact ih h
    | zero =>
      simp only [wp] at h
      simp only [runT]
      cases hst : stepT E gs i s with
      | fall k s' => rw [hst] at h; exact ih h
      | next s' => rw [hst] at h; exact Or.inr (Or.inl ⟨s', rfl, h⟩)
      | exit v w => rw [hst] at h; exact Or.inr (Or.inr ⟨v, w, rfl, h⟩)
      | err => rw [hst] at h; exact h.elim

/-- Resolving the next-rule jumps of a fragment turns them into falling through. -/
theorem wp_resolveNext {x : List Item} (hx : NextOk x) {Q : Post} {s : St}
    (h : wp E gs x 0 Q s) (hq : ∀ s, Q.next s → Q.fall s) : wp E gs (resolveNext x) 0 Q s := by
  have key : ∀ (y : List Item) (k : Nat) (s : St), (∀ (o : Out), runT E gs y k s = o →
      match o with
      | .fall 0 s' => Q.fall s'
      | .fall _ _ => False
      | .next s' => Q.next s'
      | .exit v w => Q.exit v w
      | .err => False) → wp E gs y k Q s := by
    intro y
    induction y with
    | nil =>
      intro k s h
      have := h _ rfl
      simp only [runT] at this
      cases k with
      | zero => exact ⟨rfl, this⟩
      | succ k => exact this.elim
    | cons i is ih =>
      intro k s h
      cases k with
      | succ k => exact ih k s (by simpa [runT] using h)
      | zero =>
        simp only [wp]
        simp only [runT] at h
        cases hst : stepT E gs i s with
        | fall k s' => rw [hst] at h; exact ih k s' h
        | next s' => rw [hst] at h; exact h _ rfl
        | exit v w => rw [hst] at h; exact h _ rfl
        | err => rw [hst] at h; exact h _ rfl
  apply key
  intro o ho
  rw [runT_resolveNext E gs x hx] at ho
  rcases wp_run h with ⟨s', h1, h2⟩ | ⟨s', h1, h2⟩ | ⟨v, w, h1, h2⟩
  · rw [h1] at ho; subst ho; exact h2
  · rw [h1] at ho; subst ho; exact hq _ h2
  · rw [h1] at ho; subst ho; exact h2

/-! ### Instruction rules -/

variable {x : List Item} {Q : Post} {s : St}

theorem wp_seq {i : Insn} {s' : St} (h : effect E s i = .seq s') (hx : wp E gs x 0 Q s') :
    wp E gs (it i :: x) 0 Q s := by
  simp only [wp, stepT, h]; exact hx

theorem wp_movi {d : Reg} {k : BitVec 32} (hd : d ≠ .r10)
    (hx : wp E gs x 0 Q (s.set d (.sc (k.signExtend 64)))) : wp E gs (it (movi d k) :: x) 0 Q s :=
  wp_seq (s' := s.set d (.sc (k.signExtend 64))) (by simp [movi, effect, hd, aluVal, srcVal]) hx

theorem wp_mov {d r : Reg} {v : Val} (hd : d ≠ .r10) (hv : s.r r = v) (hu : v ≠ .uninit)
    (hx : wp E gs x 0 Q (s.set d v)) : wp E gs (it (mov d r) :: x) 0 Q s :=
  wp_seq (s' := s.set d v) (by
    cases v <;> simp_all [mov, effect, aluVal, srcVal]) hx

theorem wp_mov32i {d : Reg} {k : BitVec 32} {v : BitVec 64} (hd : d ≠ .r10)
    (hv : v = k.setWidth 64)
    (hx : wp E gs x 0 Q (s.set d (.sc v))) : wp E gs (it (mov32i d k) :: x) 0 Q s := by
  refine wp_seq (s' := s.set d (.sc v)) ?_ hx
  subst hv
  simp only [mov32i, effect, hd, if_false, aluVal, srcVal, alu32]
  congr 4
  have h1 : BitVec.setWidth 32 (BitVec.signExtend 64 k) = k := by
    apply BitVec.eq_of_getLsbD_eq
    intro i hi
    simp [BitVec.getLsbD_signExtend, hi]
    intro h; omega
  rw [h1]

theorem wp_alu {w : Bool} {op : AluOp} {d : Reg} {src : Src} {v : Val} (hd : d ≠ .r10)
    (hv : aluVal w op (s.r d) (srcVal s src) = some v)
    (hx : wp E gs x 0 Q (s.set d v)) : wp E gs (it (.alu w op d src) :: x) 0 Q s :=
  wp_seq (s' := s.set d v) (by simp [effect, hd, hv]) hx

theorem wp_ldx {sz : Size} {d r : Reg} {off : Int} {v : Val}
    (hv : load E s (s.r r) off sz.bytes = some v)
    (hx : wp E gs x 0 Q (s.set d v)) : wp E gs (it (.ldx sz d r off) :: x) 0 Q s :=
  wp_seq (s' := s.set d v) (by simp [effect, hv]) hx

theorem wp_bswap {d : Reg} {v : BitVec 64} (hv : s.r d = .sc v)
    (hx : wp E gs x 0 Q (s.set d (.sc (swap16 v)))) : wp E gs (it (.bswap16 d) :: x) 0 Q s :=
  wp_seq (s' := s.set d (.sc (swap16 v))) (by simp [effect, hv]) hx

theorem wp_ldxF {sz : Size} {d r : Reg} {f : KField} {v : Val}
    (hv : loadF E s (s.r r) f sz = some v)
    (hx : wp E gs x 0 Q (s.set d v)) : wp E gs (it (.ldxF sz d r f) :: x) 0 Q s :=
  wp_seq (s' := s.set d v) (by simp [effect, hv]) hx

theorem wp_stx {sz : Size} {d r : Reg} {off : Int} {s' : St}
    (hv : store E s (s.r d) off sz.bytes (s.r r) = some s')
    (hx : wp E gs x 0 Q s') : wp E gs (it (.stx sz d off r) :: x) 0 Q s :=
  wp_seq (s' := s') (by simp [effect, hv, Eff.ofOpt]) hx

theorem wp_st {sz : Size} {d : Reg} {off : Int} {k : BitVec 32} {s' : St}
    (hv : store E s (s.r d) off sz.bytes (.sc (k.signExtend 64)) = some s')
    (hx : wp E gs x 0 Q s') : wp E gs (it (.st sz d off k) :: x) 0 Q s :=
  wp_seq (s' := s') (by simp [effect, hv, Eff.ofOpt]) hx

theorem wp_call {h : Helper} {s' : St} (hv : helper E s h = some s')
    (hx : wp E gs x 0 Q s') : wp E gs (it (.call h) :: x) 0 Q s :=
  wp_seq (s' := s') (by simp [effect, hv, Eff.ofOpt]) hx

theorem wp_kcall {k : Kfunc} {s' : St} (hv : kfunc E s k = some s')
    (hx : wp E gs x 0 Q s') : wp E gs (it (.kcall k) :: x) 0 Q s :=
  wp_seq (s' := s') (by simp [effect, hv, Eff.ofOpt]) hx

theorem wp_stub {id : Stub} {i : Insn} {s' : St} (hv : stubSem E s id = some s')
    (hx : wp E gs x 0 Q s') : wp E gs (itF (.stub id) i :: x) 0 Q s := by
  simp only [wp, stepT, hv]; exact hx

/-- A map reference load occupies two words. -/
theorem wp_ldMap {ty : FixTy} {d : Reg} {k : BitVec 32} {m : MapRef} (hm : mapOf gs ty = some m)
    (hx : wp E gs x 0 Q (s.set d (.map m))) :
    wp E gs (itF ty (.ldMap d k) :: it .pad :: x) 0 Q s := by
  have hn : ty ≠ .nextRule := by intro e; subst e; simp [mapOf] at hm
  have hs : ∀ id, ty ≠ .stub id := by intro id e; subst e; simp [mapOf] at hm
  cases ty with
  | nextRule => exact absurd rfl hn
  | stub id => exact absurd rfl (hs id)
  | cmap | lmap | smap | setMap ix => simp only [wp, stepT, hm]; exact hx

/-- A conditional jump to the next rule. -/
theorem wp_jmpN {w : Bool} {c : Cond} {d : Reg} {src : Src} {o : BitVec 16} {b : Bool}
    (hc : condVal w c (s.r d) (srcVal s src) = some b)
    (ht : b = true → Q.next s) (hx : b = false → wp E gs x 0 Q s) :
    wp E gs (itN (.jmp w c d src o) :: x) 0 Q s := by
  simp only [wp, stepT, effect, hc]
  cases b
  · exact hx rfl
  · exact ht rfl

theorem wp_jaN {o : BitVec 16} (h : Q.next s) : wp E gs (itN (.ja o) :: x) 0 Q s := by
  simp only [wp, stepT, effect]; exact h

/-- A conditional jump over part of the fragment. -/
theorem wp_jmp {w : Bool} {c : Cond} {d : Reg} {src : Src} {o : BitVec 16} {b : Bool}
    (hc : condVal w c (s.r d) (srcVal s src) = some b) (ho : o.toNat < 32768)
    (ht : b = true → wp E gs x o.toNat Q s) (hx : b = false → wp E gs x 0 Q s) :
    wp E gs (it (.jmp w c d src o) :: x) 0 Q s := by
  simp only [wp, stepT, effect, hc]
  cases b
  · exact hx rfl
  · simp only [ho, if_true]; exact ht rfl

theorem wp_ja {o : BitVec 16} (ho : o.toNat < 32768) (hx : wp E gs x o.toNat Q s) :
    wp E gs (it (.ja o) :: x) 0 Q s := by
  simp only [wp, stepT, effect, ho, if_true]; exact hx

theorem wp_ld64 {d : Reg} {v : BitVec 64} (hx : wp E gs x 0 Q (s.set d (.sc v))) :
    wp E gs (it (.ld64 d v) :: it .pad :: x) 0 Q s := by
  simp only [wp, stepT, effect]
  exact hx

theorem wp_exit {v : BitVec 64} (hv : s.r .r0 = .sc v) (h : Q.exit v s.w) :
    wp E gs (it .exit :: x) 0 Q s := by
  simp only [wp, stepT, effect, hv]; exact h

/-- The block of a scoped jump (`_clean_bf_jmpctx_`): jump over `y`, or execute it. -/
theorem wp_skipBlock {w : Bool} {c : Cond} {d : Reg} {src : Src} {y z : List Item} {b : Bool}
    (hc : condVal w c (s.r d) (srcVal s src) = some b) (hy : y.length < 32768)
    (ht : b = true → wp E gs z 0 Q s) (hx : b = false → wp E gs (y ++ z) 0 Q s) :
    wp E gs ((it (.jmp w c d src (BitVec.ofNat 16 y.length)) :: y) ++ z) 0 Q s := by
  have hn : (BitVec.ofNat 16 y.length).toNat = y.length := by
    simp only [BitVec.toNat_ofNat]; omega
  refine wp_jmp hc (by rw [hn]; exact hy) ?_ hx
  intro hb
  exact wp_skip hn (ht hb)

end Bf
