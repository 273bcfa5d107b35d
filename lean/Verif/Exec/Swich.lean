import Verif.Exec.Facts
/-!
# Fragments of `bf_swich` with single-instruction options

Nothing here models code of the repository.
-/
namespace Bf

/-- Fragment of a two-option switch. -/
def swich2F (reg : Reg) (a b : BitVec 32) (xa xb xd : Insn) : List Item :=
  [it (.jmp true .eq reg (.k a) 2), it (.jmp true .eq reg (.k b) 3), it (.ja 4),
   it xa, it (.ja 3), it xb, it (.ja 1), it xd]

/-- Fragment of a four-option switch. -/
def swich4F (reg : Reg) (a b c d : BitVec 32) (xa xb xc xd xe : Insn) : List Item :=
  [it (.jmp true .eq reg (.k a) 4), it (.jmp true .eq reg (.k b) 5), it (.jmp true .eq reg (.k c) 6),
   it (.jmp true .eq reg (.k d) 7), it (.ja 8),
   it xa, it (.ja 7), it xb, it (.ja 5), it xc, it (.ja 3), it xd, it (.ja 1), it xe]

theorem jmpClean_lit {p : Prog} {f f' : List Item} {k : Nat} (hk : k < f.length)
    (hf : patch f k (f.length - k - 1) = f') :
    jmpClean (p.img.length + k) (p.app f) = .ok ((), p.app f') := by
  rw [jmpClean_app p f k hk, hf]

theorem emits_swich2 (reg : Reg) (a b : BitVec 32) (xa xb xd : Insn) :
    Emits (swich reg [(a, [xa]), (b, [xb])] [xd]) (.ok (swich2F reg a b xa xb xd)) := by
  intro p
  have h0 : p = p.app [] := by simp
  conv => lhs; rw [h0]
  simp only [swich, swichCmps, swichBodies, cleanAll, emits, bind_run, pure_run, jmpGet_app,
    Res.ok_bind', List.nil_append, List.cons_append, List.length_nil, List.length_cons,
    List.zip_cons_cons, List.map_cons, List.map_nil, List.zip_nil_right, Nat.reduceAdd]
  rw [jmpClean_lit (by simp) rfl]
  simp only [Res.ok_bind', (emits_emit _).app, jmpGet_app, pure_run, patch, Insn.setOff,
    List.modify_succ_cons, List.modify_zero_cons, List.cons_append, List.nil_append,
    List.length_nil, List.length_cons, Nat.reduceAdd]
  rw [jmpClean_lit (by simp) rfl]
  simp only [Res.ok_bind', (emits_emit _).app, jmpGet_app, pure_run, patch, Insn.setOff,
    List.modify_succ_cons, List.modify_zero_cons, List.cons_append, List.nil_append,
    List.length_nil, List.length_cons, Nat.reduceAdd]
  rw [jmpClean_lit (by simp) rfl]
  simp only [Res.ok_bind', (emits_emit _).app, jmpGet_app, pure_run, patch, Insn.setOff,
    List.modify_succ_cons, List.modify_zero_cons, List.cons_append, List.nil_append,
    List.length_nil, List.length_cons, Nat.reduceAdd, cleanAll, bind_run]
  rw [jmpClean_lit (by simp) rfl]
  simp only [Res.ok_bind', pure_run, patch, Insn.setOff,
    List.modify_succ_cons, List.modify_zero_cons, 
    List.length_nil, List.length_cons, Nat.reduceAdd]
  rw [jmpClean_lit (by simp) rfl]
  rfl

theorem emits_swich4 (reg : Reg) (a b c d : BitVec 32) (xa xb xc xd xe : Insn) :
    Emits (swich reg [(a, [xa]), (b, [xb]), (c, [xc]), (d, [xd])] [xe])
      (.ok (swich4F reg a b c d xa xb xc xd xe)) := by
  intro p
  have h0 : p = p.app [] := by simp
  conv => lhs; rw [h0]
  simp only [swich, swichCmps, swichBodies, cleanAll, emits, bind_run, pure_run, jmpGet_app,
    Res.ok_bind', List.nil_append, List.cons_append, List.length_nil, List.length_cons,
    List.zip_cons_cons, List.map_cons, List.map_nil, List.zip_nil_right, Nat.reduceAdd]
  iterate 5
    rw [jmpClean_lit (by simp) rfl]
    simp only [Res.ok_bind', (emits_emit _).app, jmpGet_app, pure_run, patch, Insn.setOff,
      List.modify_succ_cons, List.modify_zero_cons, List.cons_append, List.nil_append,
      List.length_nil, List.length_cons, Nat.reduceAdd]
  simp only [cleanAll, bind_run]
  iterate 3
    rw [jmpClean_lit (by simp) rfl]
    simp only [Res.ok_bind', pure_run, patch, Insn.setOff,
      List.modify_succ_cons, List.modify_zero_cons,
      List.length_nil, List.length_cons, Nat.reduceAdd]
  rw [jmpClean_lit (by simp) rfl]
  rfl

variable {E : Env} {gs : Groups}

/-- Execution of a two-option switch on a scalar. -/
theorem wp_swich2 {reg : Reg} {a b : BitVec 32} {xa xb xd : Insn} {z : List Item} {Q : Post} {s : St}
    {n : BitVec 64} (hr : s.r reg = .sc n)
    (ha : n = a.signExtend 64 → ∃ s', effect E s xa = .seq s' ∧ wp E gs z 0 Q s')
    (hb : n ≠ a.signExtend 64 → n = b.signExtend 64 → ∃ s', effect E s xb = .seq s' ∧ wp E gs z 0 Q s')
    (hd : n ≠ a.signExtend 64 → n ≠ b.signExtend 64 → ∃ s', effect E s xd = .seq s' ∧ wp E gs z 0 Q s') :
    wp E gs (swich2F reg a b xa xb xd ++ z) 0 Q s := by
  simp only [swich2F, List.cons_append, List.nil_append]
  have cnd : ∀ k : BitVec 32, condVal true .eq (s.r reg) (srcVal s (.k k)) =
      some (decide (n = k.signExtend 64)) := by
    intro k; rw [hr]; simp [srcVal, condVal, Cond.holds, BitVec.toNat_inj]
  refine wp_jmp (cnd a) (by decide) ?_ ?_
  · intro h
    obtain ⟨s', h1, h2⟩ := ha (by simpa using h)
    refine wp_seq h1 (wp_ja (by decide) ?_)
    exact h2
  · intro h
    have hna : n ≠ a.signExtend 64 := by simpa using h
    refine wp_jmp (cnd b) (by decide) ?_ ?_
    · intro h
      obtain ⟨s', h1, h2⟩ := hb hna (by simpa using h)
      refine wp_seq h1 (wp_ja (by decide) ?_)
      exact h2
    · intro h
      obtain ⟨s', h1, h2⟩ := hd hna (by simpa using h)
      refine wp_ja (by decide) ?_
      exact wp_seq h1 h2

/-- Execution of a four-option switch on a scalar. -/
theorem wp_swich4 {reg : Reg} {a b c d : BitVec 32} {xa xb xc xd xe : Insn} {z : List Item} {Q : Post}
    {s : St} {n : BitVec 64} (hr : s.r reg = .sc n)
    (ha : n = a.signExtend 64 → ∃ s', effect E s xa = .seq s' ∧ wp E gs z 0 Q s')
    (hb : n ≠ a.signExtend 64 → n = b.signExtend 64 → ∃ s', effect E s xb = .seq s' ∧ wp E gs z 0 Q s')
    (hc : n ≠ a.signExtend 64 → n ≠ b.signExtend 64 → n = c.signExtend 64 →
      ∃ s', effect E s xc = .seq s' ∧ wp E gs z 0 Q s')
    (hd : n ≠ a.signExtend 64 → n ≠ b.signExtend 64 → n ≠ c.signExtend 64 → n = d.signExtend 64 →
      ∃ s', effect E s xd = .seq s' ∧ wp E gs z 0 Q s')
    (he : n ≠ a.signExtend 64 → n ≠ b.signExtend 64 → n ≠ c.signExtend 64 → n ≠ d.signExtend 64 →
      ∃ s', effect E s xe = .seq s' ∧ wp E gs z 0 Q s') :
    wp E gs (swich4F reg a b c d xa xb xc xd xe ++ z) 0 Q s := by
  simp only [swich4F, List.cons_append, List.nil_append]
  have cnd : ∀ k : BitVec 32, condVal true .eq (s.r reg) (srcVal s (.k k)) =
      some (decide (n = k.signExtend 64)) := by
    intro k; rw [hr]; simp [srcVal, condVal, Cond.holds, BitVec.toNat_inj]
  refine wp_jmp (cnd a) (by decide) ?_ ?_
  · intro h
    obtain ⟨s', h1, h2⟩ := ha (by simpa using h)
    exact wp_seq h1 (wp_ja (by decide) h2)
  intro h
  have hna : n ≠ a.signExtend 64 := by simpa using h
  refine wp_jmp (cnd b) (by decide) ?_ ?_
  · intro h
    obtain ⟨s', h1, h2⟩ := hb hna (by simpa using h)
    exact wp_seq h1 (wp_ja (by decide) h2)
  intro h
  have hnb : n ≠ b.signExtend 64 := by simpa using h
  refine wp_jmp (cnd c) (by decide) ?_ ?_
  · intro h
    obtain ⟨s', h1, h2⟩ := hc hna hnb (by simpa using h)
    exact wp_seq h1 (wp_ja (by decide) h2)
  intro h
  have hnc : n ≠ c.signExtend 64 := by simpa using h
  refine wp_jmp (cnd d) (by decide) ?_ ?_
  · intro h
    obtain ⟨s', h1, h2⟩ := hd hna hnb hnc (by simpa using h)
    exact wp_seq h1 (wp_ja (by decide) h2)
  intro h
  obtain ⟨s', h1, h2⟩ := he hna hnb hnc (by simpa using h)
  refine wp_ja (by decide) ?_
  exact wp_seq h1 h2

end Bf
