import Verif.Exec.Shape
/-!
# Entry of the program and access to the rate-limit state

Nothing here models code of the repository.
-/
namespace Bf

variable {E : Env} {gs : Groups} {C : Cfg} {r7 r8 : BitVec 64} {s : St} {i : Spec.Input} {m : Stack}

/-- program.c:822-846: entry of the program. -/
def entryG (C : Cfg) : Gen Unit := do
  let _ ← emits [.stx .dw .r10 (ctx oArg) .r1, movi .r7 0, movi .r8 0]
  let _ ← (if C.chain.flagLog then do
      emitMap .lmap .r2
      emit (.stx .dw .r10 (ctx oLogMap) .r2)
    else pure ())
  if C.chain.flagNexthdr then emit (.stx .dw .r10 (ctx oEh) .r7) else pure ()

/-- program.c:850-859: access to the rate-limit state. -/
def stateG (C : Cfg) : Gen Unit :=
  if C.chain.flagRate then do
    let _ ← emit (.st .w .r10 (scr 0) 0)
    let _ ← emitMap .smap .r1
    emits [mov .r2 .r10, addi .r2 (scr 0), .call .mapLookup, .stx .dw .r10 (ctx oStateMap) .r0]
  else pure ()

theorem gen_assoc {α β γ : Type} (x : Gen α) (f : α → Gen β) (g : β → Gen γ) :
    (x >>= f) >>= g = x >>= fun a => f a >>= g := by
  funext p
  simp only [bind_run, Res.bind_assoc]

/-- The pieces of a program. -/
theorem genMain_eq (C : Cfg) : genMain C = (do
    let _ ← entryG C
    let _ ← prologue C
    let _ ← stateG C
    let _ ← genRules C C.chain.rules
    let _ ← emitCounter C.chain.rules.length
    emitVerdict C.chain.hook.flavor C.chain.policy) := by
  unfold genMain entryG stateG
  simp only [gen_assoc]
  cases C.chain.flagLog <;> cases C.chain.flagNexthdr <;> cases C.chain.flagRate <;> rfl

/-- What the entry establishes. -/
def EntryT (E : Env) (gs : Groups) (C : Cfg) (x : List Item) : Prop :=
  ∀ w z Q, (∀ s, Pr 0 0 s → Pre C s.stk → s.r .r1 = .ptr .ctx 0 → s.w = w → wp E gs z 0 Q s) →
    wp E gs (x ++ z) 0 Q (initSt E w)

theorem entry_ok : GenN (FixOk C) (entryG C) (fun _ x => EntryT E gs C x ∧ 0 < x.length) := by
  unfold entryG
  have h1 : GenN (FixOk C) (emits [.stx .dw .r10 (ctx oArg) .r1, movi .r7 0, movi .r8 0])
      (fun _ x => (∀ w z Q, (∀ s, Pr 0 0 s → s.stk = (initSt E w).stk.put (ctx oArg) (ptrCells (.ptr .ctx 0)) →
        s.r .r1 = .ptr .ctx 0 → s.w = w → wp E gs z 0 Q s) → wp E gs (x ++ z) 0 Q (initSt E w)) ∧ 0 < x.length) := by
    refine GenT.inRule (.lastEmits ⟨?_, by simp⟩) (GL.emits _ (by sta)).toGS (GN.emits _)
    intro w z Q h
    simp only [List.map_cons, List.map_nil, List.cons_append, List.nil_append]
    refine wp_stx (s' := { initSt E w with stk := (initSt E w).stk.put (ctx oArg) (ptrCells (.ptr .ctx 0)) }) ?_ ?_
    · exact store_stack (s := initSt E w) (.ptr .ctx 0) (ptrCells (.ptr .ctx 0)) (by simp [ctx, oArg])
        (by simp [ctx, oArg, Size.bytes]) rfl
    refine wp_movi (by simp) (wp_movi (by simp) ?_)
    refine h _ ?_ rfl ?_ rfl
    · refine ⟨?_, ?_, ?_, ?_⟩
      · rw [St.set_other _ _ _ _ (by simp), St.set_other _ _ _ _ (by simp)]; rfl
      · rw [St.set_other _ _ _ _ (by simp), St.set_same]; rfl
      · rw [St.set_same]; rfl
      · intro o h1 h2
        show ∃ b, (initSt E w).stk.put (ctx oArg) (ptrCells (.ptr .ctx 0)) o = .byte b
        rw [Stack.put_out _ _ _ _ (by simp [ctx, oArg, ptrCells]; omega)]
        exact ⟨_, rfl⟩
    · rw [St.set_other _ _ _ _ (by simp), St.set_other _ _ _ _ (by simp)]; rfl
  refine h1.then FixOk.noNext fun _ x1 ⟨hx1, hl1⟩ _ => ?_
  have h2 : GenN (FixOk C) (if C.chain.flagLog then do
      emitMap .lmap .r2
      emit (.stx .dw .r10 (ctx oLogMap) .r2)
    else pure ()) (fun _ x => ∀ s, Pr 0 0 s → (∀ x, ctx oLogMap ≤ x → ∃ b, s.stk x = .byte b) →
      valOf (s.stk.get (ctx oArg) 8) = some (.ptr .ctx 0) → s.r .r1 = .ptr .ctx 0 → ∀ z Q,
      (∀ s', Pr 0 0 s' → (∀ x, ctx oPktSize ≤ x → ∃ b, s'.stk x = .byte b) →
        valOf (s'.stk.get (ctx oArg) 8) = some (.ptr .ctx 0) →
        (C.chain.flagLog = true → valOf (s'.stk.get (ctx oLogMap) 8) = some (.map .log)) →
        s'.r .r1 = .ptr .ctx 0 → s'.w = s.w → wp E gs z 0 Q s') → wp E gs (x ++ z) 0 Q s) := by
    cases hf : C.chain.flagLog with
    | false =>
      simp only [Bool.false_eq_true, if_false]
      refine GenT.toN (.lastPure ?_) (.lastPure trivial)
      intro s hs hb ha h1 z Q h
      exact h s hs (fun x hx => hb x (by simp only [ctx, oPktSize, oLogMap] at *; omega)) ha (by simp) h1 rfl
    | true =>
      simp only [if_true]
      refine GenT.toN (.thenMap (.lastEmit ?_)) (.thenMap (.lastEmit ?_))
      · intro s hs hb ha h1 z Q h
        simp only [List.cons_append, List.nil_append]
        refine wp_ldMap (m := .log) rfl ?_
        refine wp_stCtx (v := .map .log) (cs := ptrCells (.map .log)) (k := oLogMap) (hs.set (d := .r2) _ trivial)
          (St.set_same ..) rfl (by simp [oLogMap, Size.bytes]) ?_
        refine h _ ((hs.set (d := .r2) _ trivial).put _ (by simp [ctx, oLogMap, ptrCells])) ?_ ?_ ?_ ?_ rfl
        · intro x hx
          show ∃ b, s.stk.put (ctx oLogMap) (ptrCells (.map .log)) x = .byte b
          rw [Stack.put_out _ _ _ _ (by simp only [ctx, oLogMap, oPktSize, ptrCells_length] at *; omega)]
          exact hb x (by simp only [ctx, oPktSize, oLogMap] at *; omega)
        · show valOf ((s.stk.put (ctx oLogMap) (ptrCells (.map .log))).get (ctx oArg) 8) = _
          rw [Stack.get_put_other _ _ _ _ _ (by simp [ctx, oArg, oLogMap, ptrCells])]
          exact ha
        · intro _
          exact get_ptrCells _ _ _
        · show (s.set .r2 (.map .log)).r .r1 = _
          rw [St.set_other _ _ _ _ (by simp)]; exact h1
      · refine ⟨⟨.r2, rfl⟩, ?_, by simp [Item.fits, itF], ?_⟩
        · intro ty e; cases e; exact ⟨by simp, fun _ => hf, by simp⟩
        · simp [Sta, TyOk, Item.fits, it]
  refine h2.then FixOk.noNext fun _ x2 hx2 _ => ?_
  have h3 : GenN (FixOk C) (if C.chain.flagNexthdr then emit (.stx .dw .r10 (ctx oEh) .r7) else pure ())
      (fun _ x => ∀ s, Pr 0 0 s → (∀ x, ctx oPktSize ≤ x → ∃ b, s.stk x = .byte b) →
        valOf (s.stk.get (ctx oArg) 8) = some (.ptr .ctx 0) →
        (C.chain.flagLog = true → valOf (s.stk.get (ctx oLogMap) 8) = some (.map .log)) →
        s.r .r1 = .ptr .ctx 0 → ∀ z Q,
        (∀ s', Pr 0 0 s' → Pre C s'.stk → s'.r .r1 = .ptr .ctx 0 → s'.w = s.w → wp E gs z 0 Q s') →
        wp E gs (x ++ z) 0 Q s) := by
    cases hf : C.chain.flagNexthdr with
    | false =>
      simp only [Bool.false_eq_true, if_false]
      refine GenT.toN (.lastPure ?_) (.lastPure trivial)
      intro s hs hb ha hl h1 z Q h
      exact h s hs ⟨ha, hl, by simp [hf], hb⟩ h1 rfl
    | true =>
      simp only [if_true]
      refine GenT.inRule (.lastEmit ?_) (GL.emit _ (by sta)).toGS (GN.emit _)
      intro s hs hb ha hl h1 z Q h
      simp only [List.cons_append, List.nil_append]
      refine wp_stCtx (v := .sc 0) (cs := (leBytes 8 0).map .byte) (k := oEh) hs hs.r7 rfl (by simp [oEh, Size.bytes]) ?_
      refine h _ (hs.put _ (by simp [ctx, oEh])) ⟨?_, ?_, ?_, ?_⟩ h1 rfl
      · show valOf ((s.stk.put (ctx oEh) _).get (ctx oArg) 8) = _
        rw [Stack.get_put_other _ _ _ _ _ (by simp [ctx, oArg, oEh])]
        exact ha
      · intro hfl
        show valOf ((s.stk.put (ctx oEh) _).get (ctx oLogMap) 8) = _
        rw [Stack.get_put_other _ _ _ _ _ (by simp [ctx, oLogMap, oEh])]
        exact hl hfl
      · intro _
        have := Stack.put_in s.stk (ctx oEh) ((leBytes 8 0).map .byte) 0 (by simp)
        simpa [leBytes] using this
      · intro x hx
        exact put_bytes (hb x hx)
  refine h3.mono (fun _ h => h) fun _ x3 hx3 => ⟨?_, by simp; omega⟩
  intro w z Q h
  rw [List.append_assoc]
  refine hx1 w _ Q fun s hs e1 hr1 hw => ?_
  rw [List.append_assoc]
  refine hx2 s hs ?_ ?_ hr1 _ Q ?_
  · intro x hx
    rw [e1, Stack.put_out _ _ _ _ (by simp only [ctx, oArg, oLogMap, ptrCells_length] at *; omega)]
    exact ⟨_, rfl⟩
  · rw [e1]; exact get_ptrCells _ _ _
  · intro s' hs' hb ha hl h1 hw'
    refine hx3 s' hs' hb ha hl h1 _ Q fun t ht hp h1 hwt => h t ht hp h1 ?_
    rw [hwt, hw', hw]

/-- Access to the rate-limit state. -/
theorem state_ok : GenN (FixOk C) (stateG C) (fun _ x => ∀ r7 r8 s, Pr r7 r8 s → ∀ z Q,
    (∀ s', Pr r7 r8 s' → (∀ o, (o < ctx oStateMap ∨ ctx oPktSize ≤ o) → o < -64 → s'.stk o = s.stk o) →
      (C.chain.flagRate = true → valOf (s'.stk.get (ctx oStateMap) 8) = some (.ptr .state 0)) →
      s'.w = s.w → s'.r .r6 = s.r .r6 → wp E gs z 0 Q s') → wp E gs (x ++ z) 0 Q s) := by
  unfold stateG
  cases hf : C.chain.flagRate with
  | false =>
    simp only [Bool.false_eq_true, if_false]
    refine GenT.toN (.lastPure ?_) (.lastPure trivial)
    intro r7 r8 s hs z Q h
    exact h s hs (fun _ _ _ => rfl) (by simp) rfl rfl
  | true =>
    simp only [if_true]
    refine GenT.toN (.thenEmit (.thenMap (.lastEmits ?_))) (.thenEmit (.thenMap (.lastEmits ?_)))
    · intro r7 r8 s hs z Q h
      simp only [List.map_cons, List.map_nil, List.cons_append, List.nil_append]
      refine wp_st (s' := { s with stk := s.stk.put (scr 0) ((leBytes 4 0).map .byte) }) ?_ ?_
      · rw [hs.r10]
        exact store_stack _ _ (by simp [scr]) (by simp [scr, Size.bytes]) rfl
      have hp : Pr r7 r8 { s with stk := s.stk.put (scr 0) ((leBytes 4 0).map .byte) } :=
        ⟨hs.r10, hs.r7, hs.r8, fun o h1 h2 => put_bytes (hs.scr o h1 h2)⟩
      refine wp_ldMap (m := .state) rfl ?_
      have hp1 := hp.set (d := .r1) (.map .state) trivial
      refine Pr.ptr (k := 184) hp1 (d := .r2) trivial (by omega) fun s2 p2 e2 w2 r2 o2 => ?_
      have k2 : stackBytes s2 (scr 0) 4 = some (leBytes 4 0) := by
        unfold stackBytes
        rw [if_pos (by simp [scr, stackSize]), e2]
        show cellBytes ((s.stk.put (scr 0) ((leBytes 4 0).map .byte)).get (scr 0) 4) = _
        rw [Stack.get_put_same _ _ _ _ (by simp)]
        rfl
      refine wp_call (s' := s2.ret (.ptr .state 0)) ?_ ?_
      · unfold helper
        have e1 : s2.r .r1 = .map .state := by rw [o2 _ (by simp), St.set_same]
        have e3 : s2.r .r2 = .ptr .stack (scr 0) := r2
        simp only [e1, e3, k2, Option.map_some]
        rfl
      refine wp_stCtx (v := .ptr .state 0) (cs := ptrCells (.ptr .state 0)) (k := oStateMap) (p2.ret _) (St.ret_r0 ..) rfl
        (by simp [oStateMap, Size.bytes]) ?_
      refine h _ ((p2.ret _).put _ (by simp [ctx, oStateMap, ptrCells])) ?_ ?_ ?_ ?_
      · intro o ho h64
        show s2.stk.put (ctx oStateMap) (ptrCells (.ptr .state 0)) o = s.stk o
        rw [Stack.put_out _ _ _ _ (by simp only [ctx, oStateMap, oPktSize, ptrCells_length] at *; omega), e2]
        show s.stk.put (scr 0) _ o = s.stk o
        rw [Stack.put_out _ _ _ _ (by simp only [scr]; omega)]
      · intro _
        exact get_ptrCells _ _ _
      · rw [St.ret_w, w2]; rfl
      · show (s2.ret (.ptr .state 0)).r .r6 = _
        rw [St.ret_r6, o2 _ (by simp), St.set_other _ _ _ _ (by simp)]
    · refine ⟨trivial, by simp [it], by simp [Item.fits, it], ⟨.r1, rfl⟩, ?_, by simp [Item.fits, itF], ?_⟩
      · intro ty e; cases e; exact ⟨by simp, by simp, fun _ => hf⟩
      · simp [Sta, TyOk, Item.fits, it, mov, addi]

end Bf
