import Verif.Frag.Run
/-!
# The final image executes like the fragment of the main program
-/
namespace Bf

/-- What a fixup pass does to the program. -/
theorem fixupLoop_spec (F : FixEnv) (sel : FixTy → Bool) (fs : List Fixup) (img : List Insn)
    (r : List Fixup × List Insn) (hd : fs.Pairwise (fun a b => a.insn ≠ b.insn))
    (h : fixupLoop F sel fs img = .ok r) :
    r.1 = fs.filter (fun g => !sel g.ty) ∧ r.2.length = img.length ∧
    (∀ j, (∀ g ∈ fs, sel g.ty = true → g.insn ≠ j) → r.2[j]? = img[j]?) ∧
    (∀ g ∈ fs, sel g.ty = true → ∃ i i', img[g.insn]? = some i ∧
      fixVal F img.length g i = .ok i' ∧ r.2[g.insn]? = some i') := by
  induction fs generalizing img r with
  | nil =>
    simp only [fixupLoop, Res.ok.injEq] at h; subst h
    simp
  | cons f fs ih =>
    obtain ⟨hd1, hd2⟩ := List.pairwise_cons.mp hd
    cases hs : sel f.ty with
    | false =>
      simp only [fixupLoop, hs, Bool.false_eq_true, if_false] at h
      obtain ⟨r', h1, h2⟩ := Res.bind_eq_ok h
      simp only [Res.ok.injEq] at h2
      subst h2
      obtain ⟨e1, e2, e3, e4⟩ := ih img r' hd2 h1
      refine ⟨by simp [hs, e1], e2, ?_, ?_⟩
      · intro j hj
        exact e3 j fun g hg => hj g (by simp [hg])
      · intro g hg hsel
        simp only [List.mem_cons] at hg
        rcases hg with rfl | hg
        · rw [hs] at hsel; cases hsel
        · exact e4 g hg hsel
    | true =>
      simp only [fixupLoop, hs, if_true] at h
      obtain ⟨img', h1, h2⟩ := Res.bind_eq_ok h
      unfold fixOne at h1
      cases hi : img[f.insn]? with
      | none => rw [hi] at h1; cases h1
      | some i =>
        rw [hi] at h1
        obtain ⟨i', h3, h4⟩ := Res.bind_eq_ok h1
        simp only [Res.ok.injEq] at h4
        have hlen : img'.length = img.length := by rw [← h4]; simp
        obtain ⟨e1, e2, e3, e4⟩ := ih img' r hd2 h2
        have hget : ∀ j, f.insn ≠ j → img'[j]? = img[j]? := by
          intro j hj
          rw [← h4, List.getElem?_set_ne hj]
        have hself : img'[f.insn]? = some i' := by
          rw [← h4, List.getElem?_set_self]
          exact (List.getElem?_eq_some_iff.mp hi).1
        refine ⟨by simp [hs, e1], by rw [e2, hlen], ?_, ?_⟩
        · intro j hj
          rw [e3 j fun g hg => hj g (by simp [hg]), hget j (hj f (by simp) hs)]
        · intro g hg hsel
          simp only [List.mem_cons] at hg
          rcases hg with rfl | hg
          · refine ⟨i, i', hi, h3, ?_⟩
            rw [e3 _ fun g' hg' _ => fun e => hd1 g' hg' e.symm, hself]
          · obtain ⟨x, x', hx1, hx2, hx3⟩ := e4 g hg hsel
            refine ⟨x, x', ?_, ?_, hx3⟩
            · rw [← hget g.insn (hd1 g hg)]; exact hx1
            · rw [← hlen]; exact hx2

/-- The ELF stub pass appends stub bodies and records where they start. -/
theorem elfstubs_spec (slen : Stub → Nat) (fs : List Fixup) (img : List Insn) (loc : Stub → Nat)
    (hpos : 0 < img.length) (hloc : ∀ id, loc id ≠ 0 → img[loc id]? = some (.stub id)) :
    (∃ t, (elfstubs slen fs img loc).1 = img ++ t) ∧
    (∀ id, (elfstubs slen fs img loc).2 id ≠ 0 →
      (elfstubs slen fs img loc).1[(elfstubs slen fs img loc).2 id]? = some (.stub id)) ∧
    (∀ id, loc id ≠ 0 → (elfstubs slen fs img loc).2 id = loc id) ∧
    (∀ g ∈ fs, ∀ id, g.ty = .stub id → (elfstubs slen fs img loc).2 id ≠ 0) ∧
    (∀ id, loc id = 0 → (elfstubs slen fs img loc).2 id ≠ 0 →
      img.length ≤ (elfstubs slen fs img loc).2 id) := by
  induction fs generalizing img loc with
  | nil =>
    exact ⟨⟨[], by simp [elfstubs]⟩, by simpa [elfstubs] using hloc, by simp [elfstubs], by simp,
      fun id h h' => absurd h h'⟩
  | cons f fs ih =>
    cases hty : f.ty with
    | stub id =>
      by_cases hl : loc id ≠ 0
      · simp only [elfstubs, hty, hl, if_true, ne_eq, not_false_eq_true]
        obtain ⟨a, b, c, d, e⟩ := ih img loc hpos hloc
        refine ⟨a, b, c, ?_, e⟩
        intro g hg id' he
        simp only [List.mem_cons] at hg
        rcases hg with rfl | hg
        · rw [hty] at he; cases he
          rw [c id hl]; exact hl
        · exact d g hg id' he
      · have hl0 : loc id = 0 := by simpa using hl
        simp only [elfstubs, hty, hl0, ne_eq, not_true_eq_false, if_false]
        generalize hbody : Insn.stub id :: List.replicate (slen id) Insn.stubPad = body
        have hb0 : body[0]? = some (.stub id) := by rw [← hbody]; rfl
        have hlen : img.length < (img ++ body).length := by rw [← hbody]; simp
        have hloc' : ∀ x, (if x = id then img.length else loc x) ≠ 0 →
            (img ++ body)[if x = id then img.length else loc x]? = some (.stub x) := by
          intro x hx
          by_cases hxi : x = id
          · subst hxi
            simp only [if_true]
            rw [List.getElem?_append_right (Nat.le_refl _), Nat.sub_self]; exact hb0
          · simp only [hxi, if_false] at hx ⊢
            have := hloc x hx
            rw [List.getElem?_append_left ((List.getElem?_eq_some_iff.mp this).1)]; exact this
        obtain ⟨⟨t, a⟩, b, c, d, e⟩ := ih (img ++ body) _ (by omega) hloc'
        refine ⟨⟨body ++ t, by rw [a, List.append_assoc]⟩, b, ?_, ?_, ?_⟩
        · intro x hx
          have hxi : x ≠ id := fun e => by subst e; exact hx hl0
          have := c x (by simp only [hxi, if_false]; exact hx)
          simpa [hxi] using this
        · intro g hg id' he
          simp only [List.mem_cons] at hg
          rcases hg with rfl | hg
          · rw [hty] at he; cases he
            have := c id (by rw [if_pos rfl]; omega)
            rw [this, if_pos rfl]; omega
          · exact d g hg id' he
        · intro x hx hne
          by_cases hxi : x = id
          · subst hxi
            have := c x (by rw [if_pos rfl]; omega)
            rw [this, if_pos rfl]; exact Nat.le_refl _
          · have := e x (by rw [if_neg hxi]; exact hx) hne
            omega
    | nextRule | cmap | lmap | smap | setMap i =>
      simp only [elfstubs, hty]
      obtain ⟨a, b, c, d, e⟩ := ih img loc hpos hloc
      refine ⟨a, b, c, ?_, e⟩
      intro g hg id' he
      simp only [List.mem_cons] at hg
      rcases hg with rfl | hg
      · rw [hty] at he; cases he
      · exact d g hg id' he

/-- Fixup positions increase. -/
theorem fixupsOf_ge {base : Nat} {f : List Item} {g : Fixup} (h : g ∈ fixupsOf base f) :
    base ≤ g.insn ∧ ∃ i, f[g.insn - base]? = some i ∧ i.fix = some g.ty := by
  induction f generalizing base with
  | nil => simp [fixupsOf] at h
  | cons i is ih =>
    have step : g ∈ fixupsOf (base + 1) is →
        base ≤ g.insn ∧ ∃ j, (i :: is)[g.insn - base]? = some j ∧ j.fix = some g.ty := by
      intro h
      obtain ⟨h1, j, h2, h3⟩ := ih h
      refine ⟨by omega, j, ?_, h3⟩
      have : g.insn - base = (g.insn - (base + 1)) + 1 := by omega
      rw [this, List.getElem?_cons_succ]; exact h2
    cases hfix : i.fix with
    | none => simp only [fixupsOf, hfix] at h; exact step h
    | some ty =>
      simp only [fixupsOf, hfix, List.mem_cons] at h
      rcases h with rfl | h
      · exact ⟨Nat.le_refl _, i, by simp, hfix⟩
      · exact step h

theorem fixupsOf_mem {base : Nat} {f : List Item} {n : Nat} {i : Item} {ty : FixTy}
    (h : f[n]? = some i) (hf : i.fix = some ty) : (⟨ty, base + n⟩ : Fixup) ∈ fixupsOf base f := by
  induction f generalizing base n with
  | nil => simp at h
  | cons j is ih =>
    cases n with
    | zero =>
      simp only [List.getElem?_cons_zero, Option.some.injEq] at h
      subst h
      simp [fixupsOf, hf]
    | succ n =>
      have := ih (base := base + 1) (n := n) (by simpa using h)
      have e : base + (n + 1) = base + 1 + n := by omega
      rw [e]
      cases hj : j.fix <;> simp [fixupsOf, hj, this]

theorem fixupsOf_pairwise (base : Nat) (f : List Item) :
    (fixupsOf base f).Pairwise (fun a b => a.insn ≠ b.insn) := by
  induction f generalizing base with
  | nil => simp [fixupsOf]
  | cons i is ih =>
    cases hfix : i.fix with
    | none => simp only [fixupsOf, hfix]; exact ih _
    | some ty =>
      simp only [fixupsOf, hfix, List.pairwise_cons]
      refine ⟨?_, ih _⟩
      intro g hg
      have := (fixupsOf_ge hg).1
      simp only [ne_eq]
      omega

/-- An image in which every fixup of the main fragment `f` is resolved. -/
def Resolved (M : MapFds) (gs : Groups) (img : List Insn) (f : List Item) : Prop :=
  ∀ (n : Nat) (i : Item), f[n]? = some i →
    match i.fix with
    | none => img[n]? = some i.insn
    | some .nextRule => False
    | some (.stub id) => ∃ v : BitVec 32, img[n]? = some (.callRel v) ∧ 0 ≤ v.toInt ∧
        img[n + 1 + v.toInt.toNat]? = some (.stub id)
    | some ty => ∃ d fd, i.insn = .ldMap d 0 ∧ img[n]? = some (.ldMap d fd) ∧ M.fd gs ty = .ok fd

/-- The kernel's view of file descriptors agrees with the handle's. -/
def FdsOk (E : Env) (M : MapFds) (gs : Groups) : Prop :=
  ∀ ty fd, M.fd gs ty = .ok fd → E.fds fd = mapOf gs ty

theorem Resolved.tail {M : MapFds} {gs : Groups} {img : List Insn} {pre f : List Item}
    (h : Resolved M gs img (pre ++ f)) (n : Nat) (i : Item) (hi : f[n]? = some i) :
    match i.fix with
    | none => img[pre.length + n]? = some i.insn
    | some .nextRule => False
    | some (.stub id) => ∃ v : BitVec 32, img[pre.length + n]? = some (.callRel v) ∧ 0 ≤ v.toInt ∧
        img[pre.length + n + 1 + v.toInt.toNat]? = some (.stub id)
    | some ty => ∃ d fd, i.insn = .ldMap d 0 ∧ img[pre.length + n]? = some (.ldMap d fd) ∧
        M.fd gs ty = .ok fd :=
  h (pre.length + n) i (by rw [List.getElem?_append_right (by omega)]; simpa using hi)

/-- An execution of the fragment that leaves the program is an execution of the image. -/
theorem run_of_runT {E : Env} {M : MapFds} {gs : Groups} {img : List Insn} (hfd : FdsOk E M gs)
    (pre f : List Item) (h : Resolved M gs img (pre ++ f)) (k : Nat) (s : St)
    (v : BitVec 64) (w : World) (hr : runT E gs f k s = .exit v w) (fuel : Nat)
    (hfuel : f.length ≤ fuel) :
    run E img fuel ((pre.length + k : Nat) : Int) s = .exit v w := by
  induction f generalizing pre k s fuel with
  | nil => simp [runT] at hr
  | cons i is ih =>
    have hpre : (pre ++ [i]).length = pre.length + 1 := by simp
    have hres : Resolved M gs img ((pre ++ [i]) ++ is) := by simpa using h
    simp only [List.length_cons] at hfuel
    cases k with
    | succ k =>
      simp only [runT] at hr
      have := ih (pre ++ [i]) hres k s hr fuel (by omega)
      rw [hpre] at this
      have e : pre.length + (k + 1) = pre.length + 1 + k := by omega
      rw [e]; exact this
    | zero =>
      obtain ⟨fuel, rfl⟩ : ∃ n, fuel = n + 1 := ⟨fuel - 1, by omega⟩
      have hrec : ∀ k s', runT E gs is k s' = .exit v w →
          run E img fuel ((pre.length + 1 + k : Nat) : Int) s' = .exit v w := by
        intro k s' hk
        have := ih (pre ++ [i]) hres k s' hk fuel (by omega)
        rwa [hpre] at this
      simp only [runT] at hr
      have hi := Resolved.tail h 0 i (by simp)
      simp only [Nat.add_zero] at hi
      have hnn : ¬ ((pre.length + 0 : Nat) : Int) < 0 := by omega
      have htn : ((pre.length + 0 : Nat) : Int).toNat = pre.length := by omega
      unfold run
      rw [if_neg hnn, htn]
      unfold stepT at hr
      cases hfix : i.fix with
      | none =>
        rw [hfix] at hi hr
        rw [hi]
        simp only at hr ⊢
        cases heff : effect E s i.insn with
        | seq s' =>
          simp only [heff] at hr ⊢
          have := hrec 0 s' hr
          have e : ((pre.length + 0 : Nat) : Int) + 1 = ((pre.length + 1 + 0 : Nat) : Int) := by omega
          rw [e]; exact this
        | jump off s' =>
          simp only [heff] at hr ⊢
          by_cases ho : off.toNat < 32768
          · rw [if_pos ho] at hr
            have := hrec off.toNat s' hr
            have e : ((pre.length + 0 : Nat) : Int) + 1 + off.toInt
                = ((pre.length + 1 + off.toNat : Nat) : Int) := by
              rw [BitVec.toInt_eq_toNat_of_lt (by omega)]; omega
            rw [e]; exact this
          · rw [if_neg ho] at hr; cases hr
        | map d fd => rw [heff] at hr; cases hr
        | call imm => rw [heff] at hr; cases hr
        | exit x => rw [heff] at hr; simpa using hr
        | err => rw [heff] at hr; cases hr
      | some ty =>
        rw [hfix] at hi hr
        have hmap : ∀ (hi' : ∃ d fd, i.insn = .ldMap d 0 ∧ img[pre.length]? = some (.ldMap d fd) ∧
            M.fd gs ty = .ok fd) (m : MapRef) (hm : mapOf gs ty = some m)
            (hr' : ∀ d, i.insn = .ldMap d 0 → runT E gs is 1 (s.set d (.map m)) = .exit v w),
            (match img[pre.length]? with
              | none => Final.err
              | some i =>
                match effect E s i with
                | .seq s' => run E img fuel (((pre.length + 0 : Nat) : Int) + 1) s'
                | .jump off s' => run E img fuel (((pre.length + 0 : Nat) : Int) + 1 + off.toInt) s'
                | .map dst fd =>
                  match E.fds fd with
                  | some m => run E img fuel (((pre.length + 0 : Nat) : Int) + 2) (s.set dst (.map m))
                  | none => .err
                | .call imm =>
                  if ((pre.length + 0 : Nat) : Int) + 1 + imm.toInt < 0 then .err else
                  match img[(((pre.length + 0 : Nat) : Int) + 1 + imm.toInt).toNat]? with
                  | some (.stub id) =>
                    match stubSem E s id with
                    | some s' => run E img fuel (((pre.length + 0 : Nat) : Int) + 1) s'
                    | none => .err
                  | _ => .err
                | .exit v => .exit v s.w
                | .err => .err) = .exit v w := by
          intro ⟨d, fd, h1, h2, h3⟩ m hm hr'
          rw [h2]
          simp only [effect, hfd ty fd h3, hm]
          have := hrec 1 _ (hr' d h1)
          have e : ((pre.length + 0 : Nat) : Int) + 2 = ((pre.length + 1 + 1 : Nat) : Int) := by omega
          rw [e]; exact this
        cases ty with
        | nextRule => exact hi.elim
        | stub id =>
          obtain ⟨x, h1, h2, h3⟩ := hi
          rw [h1]
          simp only [effect]
          have hpos : ¬ (((pre.length + 0 : Nat) : Int) + 1 + x.toInt < 0) := by omega
          have e : (((pre.length + 0 : Nat) : Int) + 1 + x.toInt).toNat
              = pre.length + 1 + x.toInt.toNat := by omega
          rw [if_neg hpos, e, h3]
          simp only
          cases hst : stubSem E s id with
          | none => simp only [hst] at hr; cases hr
          | some s' =>
            simp only [hst] at hr ⊢
            have := hrec 0 s' hr
            have e : ((pre.length + 0 : Nat) : Int) + 1 = ((pre.length + 1 + 0 : Nat) : Int) := by omega
            rw [e]; exact this
        | cmap | lmap | smap | setMap ix =>
          obtain ⟨d, fd, h1, h2, h3⟩ := hi
          rw [h1] at hr
          simp only at hr
          cases hm : mapOf gs _ with
          | none => rw [hm] at hr; cases hr
          | some m =>
            rw [hm] at hr
            refine hmap ⟨d, fd, h1, h2, h3⟩ m hm ?_
            intro d' hd'
            rw [h1] at hd'; cases hd'
            exact hr

end Bf
