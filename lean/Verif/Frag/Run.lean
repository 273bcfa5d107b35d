import Verif.Frag.Tagged
/-!
# Execution of fragments, and its relation to the execution of the final image
-/
namespace Bf

/-- Map behind a map fixup. -/
def mapOf (gs : Groups) : FixTy → Option MapRef
  | .cmap => some .counters
  | .lmap => some .log
  | .smap => some .state
  | .setMap i => (findGroup gs i).map .set
  | _ => none

/-- Outcome of a fragment: ran past its end (with `k` more instructions to skip), jumped to the next
rule, left the program, or failed. -/
inductive Out
  | fall (k : Nat) (s : St)
  | next (s : St)
  | exit (r0 : BitVec 64) (w : World)
  | err

/-- One tagged instruction: `fall k` continues after skipping `k` instructions. -/
def stepT (E : Env) (gs : Groups) (i : Item) (s : St) : Out :=
  match i.fix with
  | some .nextRule =>
    match effect E s i.insn with
    | .jump _ s' => .next s'
    | .seq s' => .fall 0 s'
    | _ => .err
  | some (.stub id) =>
    match stubSem E s id with
    | some s' => .fall 0 s'
    | none => .err
  | some ty =>
    match i.insn, mapOf gs ty with
    | .ldMap d _, some m => .fall 1 (s.set d (.map m))
    | _, _ => .err
  | none =>
    match effect E s i.insn with
    | .seq s' => .fall 0 s'
    | .jump off s' => if off.toNat < 32768 then .fall off.toNat s' else .err
    | .exit v => .exit v s.w
    | _ => .err

/-- Execution of a fragment; `k` instructions are skipped first. -/
def runT (E : Env) (gs : Groups) : List Item → Nat → St → Out
  | [], k, s => .fall k s
  | _ :: is, k + 1, s => runT E gs is k s
  | i :: is, 0, s =>
    match stepT E gs i s with
    | .fall k s' => runT E gs is k s'
    | o => o

/-- Continue after a fragment. -/
def Out.andThen (o : Out) (k : Nat → St → Out) : Out :=
  match o with
  | .fall n s => k n s
  | o => o

theorem runT_append (E : Env) (gs : Groups) (a b : List Item) (k : Nat) (s : St) :
    runT E gs (a ++ b) k s = (runT E gs a k s).andThen (runT E gs b) := by
  induction a generalizing k s with
  | nil => rfl
  | cons i is ih =>
    cases k with
    | succ k => simp only [List.cons_append, runT, ih]
    | zero =>
      simp only [List.cons_append, runT]
      cases stepT E gs i s with
      | fall k s' => exact ih k s'
      | next s' => rfl
      | exit v w => rfl
      | err => rfl

theorem runT_skip (E : Env) (gs : Groups) (a : List Item) (k : Nat) (s : St) (h : a.length ≤ k) :
    runT E gs a k s = .fall (k - a.length) s := by
  induction a generalizing k with
  | nil => simp [runT]
  | cons i is ih =>
    simp only [List.length_cons] at h
    obtain ⟨k, rfl⟩ : ∃ n, k = n + 1 := ⟨k - 1, by omega⟩
    simp only [runT]
    rw [ih k (by omega)]
    congr 1
    simp

/-! ### Next-rule jumps -/

/-- Resolve the next-rule jumps of a fragment to its end. -/
def resolveNext : List Item → List Item
  | [] => []
  | i :: is =>
    (if i.fix = some .nextRule then ⟨i.insn.setOff (BitVec.ofNat 16 is.length), none⟩ else i)
      :: resolveNext is

@[simp] theorem resolveNext_length (f : List Item) : (resolveNext f).length = f.length := by
  induction f with
  | nil => rfl
  | cons i is ih => simp [resolveNext, ih]

theorem resolveNext_no_next (f : List Item) : ∀ i ∈ resolveNext f, i.fix ≠ some .nextRule := by
  induction f with
  | nil => simp [resolveNext]
  | cons i is ih =>
    intro j hj
    simp only [resolveNext, List.mem_cons] at hj
    rcases hj with rfl | hj
    · split
      · simp
      · assumption
    · exact ih j hj

/-- Next-rule fixups are on unresolved jumps, close enough to the end. -/
def NextOk : List Item → Prop
  | [] => True
  | i :: is => (i.fix = some .nextRule → ∃ v, fixOff i.insn is.length = .ok v) ∧ NextOk is

theorem fixOff_ok {i v : Insn} {n : Nat} (h : fixOff i n = .ok v) :
    v = i.setOff (BitVec.ofNat 16 n) ∧ n < 32767 ∧
      ((∃ w c d s, i = .jmp w c d s 0) ∨ i = .ja 0) := by
  cases i <;> simp only [fixOff] at h <;> try (cases h)
  · split at h
    · next hh =>
      cases h
      refine ⟨rfl, hh.2, Or.inl ?_⟩
      rw [hh.1]
      exact ⟨_, _, _, _, rfl⟩
    · cases h
  · split at h
    · next hh =>
      cases h
      refine ⟨rfl, hh.2, Or.inr ?_⟩
      rw [hh.1]
    · cases h

theorem ofNat16_toNat {n : Nat} (h : n < 32767) : (BitVec.ofNat 16 n).toNat = n := by
  simp only [BitVec.toNat_ofNat]
  omega

theorem stepT_next {E : Env} {gs : Groups} {i : Item} {s s' : St} (h : stepT E gs i s = .next s') :
    i.fix = some .nextRule := by
  unfold stepT at h
  split at h
  · assumption
  · split at h <;> cases h
  · split at h <;> cases h
  · split at h <;> try (cases h)
    split at h <;> cases h

/-- Executing a fragment whose next-rule jumps were resolved to its end. -/
theorem runT_resolveNext (E : Env) (gs : Groups) (f : List Item) (hf : NextOk f) (k : Nat) (s : St) :
    runT E gs (resolveNext f) k s =
      match runT E gs f k s with
      | .next s' => .fall 0 s'
      | o => o := by
  induction f generalizing k s with
  | nil => rfl
  | cons i is ih =>
    obtain ⟨h1, h2⟩ := hf
    cases k with
    | succ k => simp only [resolveNext, runT]; exact ih h2 k s
    | zero =>
      simp only [resolveNext, runT]
      by_cases hn : i.fix = some .nextRule
      · obtain ⟨v, hv⟩ := h1 hn
        obtain ⟨_, hlt, hj⟩ := fixOff_ok hv
        have hnat := ofNat16_toNat hlt
        have hlt' : is.length < 32768 := by omega
        simp only [hn, if_true, stepT]
        rcases hj with ⟨w, c, d, sr, hi⟩ | hi
        · rw [hi]
          simp only [Insn.setOff, effect]
          cases condVal w c (s.r d) (srcVal s sr) with
          | none => rfl
          | some b =>
            cases b
            · simp only []
              exact ih h2 0 s
            · simp only [hnat, hlt', if_true]
              rw [runT_skip E gs _ _ s (by simp)]
              simp
        · rw [hi]
          simp only [Insn.setOff, effect, hnat, hlt', if_true]
          rw [runT_skip E gs _ _ s (by simp)]
          simp
      · simp only [hn, if_false]
        cases hst : stepT E gs i s with
        | fall k s' => exact ih h2 k s'
        | next s' => exact absurd (stepT_next hst) hn
        | exit v w => rfl
        | err => rfl

/-- program.c:400-477 applied to a rule's code: only the rule's own next-rule jumps are resolved. -/
theorem fixupLoop_skip (F : FixEnv) (sel : FixTy → Bool) (a b : List Fixup) (img : List Insn)
    (h : ∀ g ∈ a, sel g.ty = false) :
    fixupLoop F sel (a ++ b) img =
      (fixupLoop F sel b img).bind fun r => .ok (a ++ r.1, r.2) := by
  induction a with
  | nil => cases h : fixupLoop F sel b img <;> simp [h]
  | cons g gs ih =>
    have hg := h g (by simp)
    simp only [List.cons_append, fixupLoop, hg, Bool.false_eq_true, if_false]
    rw [ih (fun x hx => h x (by simp [hx]))]
    cases fixupLoop F sel b img <;> rfl

theorem fixupLoop_next (pre : List Insn) (f : List Item) (r : List Fixup × List Insn)
    (h : fixupLoop noFix (· == .nextRule) (fixupsOf pre.length f) (pre ++ f.map (·.insn)) = .ok r) :
    r = (fixupsOf pre.length (resolveNext f), pre ++ (resolveNext f).map (·.insn)) ∧ NextOk f := by
  induction f generalizing pre r with
  | nil => simp only [fixupsOf, fixupLoop, Res.ok.injEq] at h; subst h; exact ⟨rfl, trivial⟩
  | cons i is ih =>
    have hpre : (pre ++ [i.insn]).length = pre.length + 1 := by simp
    have key : ∀ (x : Insn) (r : List Fixup × List Insn),
        fixupLoop noFix (· == .nextRule) (fixupsOf (pre.length + 1) is)
          (pre ++ x :: is.map (·.insn)) = .ok r →
        r = (fixupsOf (pre.length + 1) (resolveNext is), pre ++ x :: (resolveNext is).map (·.insn))
          ∧ NextOk is := by
      intro x r hr
      have := ih (pre ++ [x]) r (by simpa using hr)
      simpa using this
    cases hfix : i.fix with
    | none =>
      simp only [fixupsOf, hfix, List.map_cons] at h
      obtain ⟨e, hn⟩ := key i.insn r h
      refine ⟨?_, ?_, hn⟩
      · simp [resolveNext, hfix, fixupsOf, e]
      · intro hc; rw [hfix] at hc; cases hc
    | some ty =>
      by_cases hty : ty = .nextRule
      · subst hty
        simp only [fixupsOf, hfix, List.map_cons, fixupLoop, beq_self_eq_true, if_true] at h
        obtain ⟨img', h1, h2⟩ := Res.bind_eq_ok h
        simp only [fixOne] at h1
        rw [List.getElem?_append_right (by omega)] at h1
        simp only [Nat.sub_self, List.getElem?_cons_zero, fixVal] at h1
        obtain ⟨v, h3, h4⟩ := Res.bind_eq_ok h1
        have hl : (pre ++ i.insn :: List.map (fun x => x.insn) is).length - pre.length - 1
            = is.length := by simp
        rw [hl] at h3
        simp only [Res.ok.injEq] at h4
        rw [List.set_append_right _ _ (by omega)] at h4
        simp only [Nat.sub_self, List.set_cons_zero] at h4
        subst h4
        obtain ⟨e, hn⟩ := key v r h2
        refine ⟨?_, fun _ => ⟨v, h3⟩, hn⟩
        have := (fixOff_ok h3).1
        subst this
        simp [resolveNext, hfix, fixupsOf, e]
      · have hb : (ty == FixTy.nextRule) = false := by simpa using hty
        simp only [fixupsOf, hfix, List.map_cons, fixupLoop, hb, Bool.false_eq_true, if_false] at h
        obtain ⟨r', h1, h2⟩ := Res.bind_eq_ok h
        obtain ⟨e, hn⟩ := key i.insn r' h1
        simp only [Res.ok.injEq] at h2
        refine ⟨?_, ?_, hn⟩
        · subst h2
          simp [resolveNext, hty, fixupsOf, hfix, e]
        · intro hc; rw [hfix] at hc; simp at hc; exact absurd hc hty

theorem fixupsOf_ty {base : Nat} {f : List Item} {g : Fixup} (h : g ∈ fixupsOf base f) :
    ∃ i ∈ f, i.fix = some g.ty := by
  induction f generalizing base with
  | nil => simp [fixupsOf] at h
  | cons i is ih =>
    cases hfix : i.fix with
    | none =>
      simp only [fixupsOf, hfix] at h
      obtain ⟨j, hj, e⟩ := ih h
      exact ⟨j, by simp [hj], e⟩
    | some ty =>
      simp only [fixupsOf, hfix, List.mem_cons] at h
      rcases h with rfl | h
      · exact ⟨i, by simp, hfix⟩
      · obtain ⟨j, hj, e⟩ := ih h
        exact ⟨j, by simp [hj], e⟩

/-- Resolving the next-rule jumps of a rule's fragment. -/
theorem fixup_next (p : Prog) (hp : ∀ g ∈ p.fixups, g.ty ≠ .nextRule) (f : List Item)
    (r : Unit × Prog) (h : fixup noFix (· == .nextRule) (p.app f) = .ok r) :
    r = ((), p.app (resolveNext f)) ∧ NextOk f := by
  simp only [fixup, Prog.app] at h
  rw [fixupLoop_skip _ _ _ _ _ (fun g hg => by simpa using hp g hg)] at h
  obtain ⟨x, h1, h2⟩ := Res.bind_eq_ok h
  obtain ⟨y, h3, h4⟩ := Res.bind_eq_ok h1
  obtain ⟨e, hn⟩ := fixupLoop_next p.img f y h3
  refine ⟨?_, hn⟩
  simp only [Res.ok.injEq] at h4 h2
  subst h4; subst h2; subst e
  simp [Prog.app]

end Bf
