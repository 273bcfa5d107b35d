import Verif.Cgen.Crash
/-!
# What is left in the directory of a chain that could not be loaded
-/
namespace Bf.Pin

variable {I : K → Prop} {v v0 : K} {dir : String} {T : Target}

theorem Safe.and {α : Type} {I I' : K → Prop} {Q Q' : α → K → Prop} {p : P α} {v : K} (h : Safe I Q p v) (h' : Safe I' Q' p v) :
    Safe (fun v => I v ∧ I' v) (fun a v => Q a v ∧ Q' a v) p v := by
  induction p generalizing v with
  | ret a => exact ⟨⟨h.1, h'.1⟩, h.2, h'.2⟩
  | call c k ih => exact ⟨⟨h.1, h'.1⟩, fun a v' hs => ih a (h.2 a v' hs) (h'.2 a v' hs)⟩

/-- What every call keeps holds at every instant. -/
theorem Safe.step {α : Type} {J : K → Prop} {p : P α} {v : K} (hJ : ∀ v c a v', J v → AStep v c a v' → J v') (h : J v) :
    Safe J (fun _ => J) p v := by
  induction p generalizing v with
  | ret a => exact ⟨h, h⟩
  | call c k ih => exact ⟨h, fun a v' hs => ih a (hJ _ _ _ _ h hs)⟩

theorem AStep.hist {v v' : K} {c : Call} {a : Ans} (h : AStep v c a v') : v'.hist = (c, a) :: v.hist := by
  cases h with
  | fail => rfl
  | ctrRead => rfl
  | ctrWrite => rfl
  | mapCreate => rfl
  | ok _ _ _ h =>
    have : ∀ {w w1 : K} {c : Call} {a : Ans}, w.ok c = some (a, w1) → w1.hist = w.hist := by
      intro w w1 c a h
      cases c <;> simp only [K.ok] at h <;> first
        | (cases h; rfl)
        | (split at h <;> first | (cases h; rfl) | (cases h) | (split at h <;> first | (cases h; rfl) | (cases h)))
    show _ :: _ = _
    rw [this h]

theorem Bad.earlier {v1 : K} (h : Bad v1 v) (hh : ∃ g, v1.hist = g ++ v0.hist) : Bad v0 v := by
  obtain ⟨c, e, h0, h1, h2⟩ := h
  exact ⟨c, e, h0, h1, h2.earlier hh⟩

theorem Bad.now {c : Call} {e : Errno} (hh : ∃ g, v.hist = g ++ v0.hist) (hc : c.cleanup = true) (he : e ≠ .ENOENT) : Bad v0 (v.log c (.fail e)) :=
  ⟨c, e, hc, he, Since.now hh _ _⟩


/-- From `v0` to `v`, a call that removes something failed, or what is pinned in `dir` has a name of `S`. -/
structure Left (dir : String) (S : String → Prop) (v0 v : K) : Prop where
  hist : ∃ g, v.hist = g ++ v0.hist
  pins : Bad v0 v ∨ ∀ n o, v.pinned dir n = some o → S n

theorem Left.mono {S S' : String → Prop} (h : Left dir S v0 v) (hs : ∀ n, S n → S' n) : Left dir S' v0 v :=
  ⟨h.hist, h.pins.imp id fun h n o e => hs n (h n o e)⟩

/-- No new pin. -/
theorem Left.same {S : String → Prop} {v' : K} (h : Left dir S v0 v) (hh : ∃ g, v'.hist = g ++ v.hist)
    (hp : ∀ n o, v'.pinned dir n = some o → v.pinned dir n = some o) : Left dir S v0 v' :=
  ⟨hist_trans h.hist hh, h.pins.imp (fun h => h.later hh) fun h n o e => h n o (hp n o e)⟩

theorem Left.log {S : String → Prop} (h : Left dir S v0 v) (c : Call) (a : Ans) : Left dir S v0 (v.log c a) := h.same ⟨[_], rfl⟩ fun _ _ e => e

theorem Left.pin {S : String → Prop} {v' : K} {n : String} {o : Nat} {a : Ans} (h : Left dir S v0 v) (hs : AStep v (.pin dir n o) a v') (hn : S n) :
    Left dir S v0 v' := by
  rcases hs.pin with ⟨e, rfl, rfl⟩ | ⟨rfl, _, rfl⟩
  · exact h.log _ _
  · refine Left.log (v := { v with pins := ((dir, n), o) :: v.pins }) ⟨h.hist, h.pins.imp id fun h m o' e => ?_⟩ _ _
    rw [pinned_pin] at e
    split at e
    · next e' => rw [e'.2]; exact hn
    · exact h m o' e

theorem Left.unlink {S : String → Prop} {v' : K} {n : String} {a : Ans} (h : Left dir S v0 v) (hs : AStep v (.unlink dir n) a v') :
    Left dir (fun m => S m ∧ m ≠ n) v0 v' := by
  rcases hs.unlink with ⟨e, rfl, rfl⟩ | ⟨rfl, rfl⟩
  · by_cases he : e = .ENOENT
    · have hn := hs.unlink_fail he
      refine ⟨(h.log _ _).hist, (h.log _ _).pins.imp id fun h m o e => ⟨h m o e, ?_⟩⟩
      rintro rfl
      rw [K.log_pinned, hn] at e
      cases e
    · exact ⟨(h.log _ _).hist, .inl (Bad.now h.hist rfl he)⟩
  · refine ⟨(h.log (.unlink dir n) .done).hist, h.pins.imp (fun h => h.later ⟨[_], rfl⟩) fun h m o e => ?_⟩
    rw [K.log_pinned, pinned_unlink] at e
    split at e
    · cases e
    · next hne => exact ⟨h m o e, fun e => hne ⟨rfl, e⟩⟩

theorem Left.close {S : String → Prop} {v' : K} {o : Nat} {a : Ans} (h : Left dir S v0 v) (hs : AStep v (.close o) a v') : Left dir S v0 v' := by
  rw [hs.close]
  exact h.same ⟨[_], rfl⟩ fun _ _ e => e

abbrev Any : K → Prop := fun _ => True

theorem unlinks_left {S : String → Prop} {L : List Call} (hL : ∀ c ∈ L, ∃ n, c = .unlink dir n) (h : Left dir S v0 v) :
    Safe Any (fun _ v' => Left dir (fun m => S m ∧ .unlink dir m ∉ L) v0 v') (voids L) v := by
  induction L generalizing v S with
  | nil => exact ⟨trivial, h.mono fun n hn => ⟨hn, by simp⟩⟩
  | cons c L ih =>
    obtain ⟨n, rfl⟩ := hL c (by simp)
    refine ⟨trivial, fun a v1 hs => ?_⟩
    refine Safe.mono (ih (fun c hc => hL c (by simp [hc])) (h.unlink hs)) (fun _ h => h) fun _ v' _ h => h.mono fun m hm => ?_
    refine ⟨hm.1.1, fun hmem => ?_⟩
    rcases List.mem_cons.mp hmem with e | e
    · cases e; exact hm.1.2 rfl
    · exact hm.2 e

theorem handleUnpin_left {S : String → Prop} {h : Handle} (hl : Left dir S v0 v) :
    Safe Any (fun _ v' => Left dir (fun m => S m ∧ ¬ h.names m) v0 v') (handleUnpin h dir) v := by
  rw [handleUnpin_voids]
  refine Safe.mono (unlinks_left ?_ hl) (fun _ h => h) fun _ v' _ hv => hv.mono fun m hm => ⟨hm.1, fun hn => hm.2 ?_⟩
  · intro c hc
    simp only [List.mem_append, List.mem_map, List.mem_singleton] at hc
    rcases hc with (⟨m, _, rfl⟩ | hc) | rfl
    · exact ⟨_, rfl⟩
    · split at hc
      · simp only [List.mem_cons, List.not_mem_nil, or_false] at hc
        rcases hc with rfl | rfl <;> exact ⟨_, rfl⟩
      · cases hc
    · exact ⟨_, rfl⟩
  · rcases hn with rfl | ⟨x, hx, rfl⟩ | ⟨hk, rfl | rfl⟩
    · simp
    · simp only [List.mem_append, List.mem_map]
      exact .inl (.inl ⟨x, hx, rfl⟩)
    · simp [hk]
    · simp [hk]

theorem linkUnpin_left {S : String → Prop} (hl : Left dir S v0 v) : Safe Any (fun _ v' => Left dir S v0 v') (linkUnpin dir) v := by
  refine ⟨trivial, fun a v1 hs => ?_⟩
  have h1 := (hl.unlink hs).mono fun n hn => hn.1
  exact ⟨trivial, fun a v2 hs2 => ⟨trivial, (h1.unlink hs2).mono fun n hn => hn.1⟩⟩

theorem pinAll_left {S : String → Prop} {ms : List BMap} (hn : ∀ m ∈ ms, S m.d.name) (hl : Left dir S v0 v) :
    Safe Any (fun _ v' => Left dir S v0 v') (pinAll dir ms) v := by
  induction ms generalizing v with
  | nil => exact ⟨trivial, hl⟩
  | cons m ms ih =>
    refine safe_try trivial (fun e v1 hs => ⟨trivial, hl.pin hs (hn m (by simp))⟩) fun a v1 hs _ => ?_
    exact ih (fun m hm => hn m (by simp [hm])) (hl.pin hs (hn m (by simp)))

theorem handlePins_left {S : String → Prop} {h : Handle} (hn : ∀ n, h.names n → S n) (hl : Left dir S v0 v) :
    Safe Any (fun _ v' => Left dir S v0 v') (handlePins h dir) v := by
  unfold handlePins
  cases hp : h.prog with
  | none => exact ⟨trivial, hl⟩
  | some p =>
    refine safe_try trivial (fun e v1 hs => ⟨trivial, hl.pin hs (hn _ (.inl rfl))⟩) fun a v1 hs _ => ?_
    have h1 := hl.pin hs (hn _ (.inl rfl))
    refine Safe.bind (Safe.mono (pinAll_left (fun m hm => hn _ (.inr (.inl ⟨m, hm, rfl⟩))) h1) (fun _ h => h) fun r v2 _ h2 => ?_)
    cases r with
    | err e => exact ⟨trivial, h2⟩
    | ub => exact ⟨trivial, h2⟩
    | ok u =>
      dsimp only
      cases hlk : h.link with
      | none => exact ⟨trivial, h2⟩
      | some l =>
        have n1 := hn "bf_link" (.inr (.inr ⟨by rw [hlk]; rfl, .inl rfl⟩))
        have n2 := hn "bf_link_extra" (.inr (.inr ⟨by rw [hlk]; rfl, .inr rfl⟩))
        dsimp only
        unfold linkPin
        refine safe_try trivial (fun e v3 hs3 => ⟨trivial, h2.pin hs3 n1⟩) fun a v3 hs3 _ => ?_
        have h3 := h2.pin hs3 n1
        dsimp only
        cases hx : l.extra with
        | none => exact ⟨trivial, h3⟩
        | some x =>
          refine safe_try trivial (fun e v4 hs4 => ?_) fun a v4 hs4 _ => ⟨trivial, h3.pin hs4 n2⟩
          exact Safe.bind (Safe.mono (linkUnpin_left (h3.pin hs4 n2)) (fun _ h => h) fun _ v5 _ h5 => ⟨trivial, h5⟩)

theorem handlePin_left {S : String → Prop} {h : Handle} (hl : Left dir S v0 v) (hS : ∀ n, S n → ¬ h.names n) :
    Safe Any (fun r v' => Left dir (fun n => S n ∨ h.names n) v0 v' ∧ (r ≠ .ok () → Left dir S v0 v')) (handlePin h dir) v := by
  unfold handlePin
  refine Safe.bind (Safe.mono (handlePins_left (S := fun n => S n ∨ h.names n) (fun n hn => .inr hn) (hl.mono fun n hn => .inl hn)) (fun _ h => h) fun r v1 _ h1 => ?_)
  have err : ∀ e : Res Unit, Safe Any (fun r v' => Left dir (fun n => S n ∨ h.names n) v0 v' ∧ (r ≠ .ok () → Left dir S v0 v')) (do handleUnpin h dir; pure e) v1 := fun e => by
    refine Safe.bind (Safe.mono (handleUnpin_left h1) (fun _ h => h) fun _ v2 _ h2 => ?_)
    have h3 : Left dir S v0 v2 := h2.mono fun n hn => hn.1.resolve_right hn.2
    exact ⟨trivial, h3.mono fun n hn => .inl hn, fun _ => h3⟩
  cases r with
  | ok u => exact ⟨trivial, h1, fun e => absurd rfl e⟩
  | err e => exact err _
  | ub => exact err _

theorem persist_left {S : String → Prop} {c : Cgen} (hl : Left dir S v0 v) (hS : ¬ S "bf_ctx_tmp") :
    Safe Any (fun r v' => (r ≠ .ok () → Left dir S v0 v') ∧ (r = .ok () → Left dir (fun n => S n ∨ n = "bf_ctx") v0 v')) (persist c dir) v := by
  unfold persist
  refine safe_quiet trivial trivial (fun e a => ⟨trivial, fun _ => hl.log _ _, fun e => by cases e⟩) fun a => ?_
  have h1 := hl.log .alloc a
  generalize v.log .alloc a = v1 at *
  dsimp only
  refine Safe.bind (mapNew_ctx (by simpa using cgenBytes_ne _ _) (fun _ _ => trivial) (fun e v2 hk _ => ⟨trivial, fun _ => h1.same hk.hist (fun n o e => by
    rw [hk.grew.pinned] at e; exact e), fun e => by cases e⟩) fun m v2 hk _ _ => ?_)
  have h2 : Left dir S v0 v2 := h1.same hk.hist fun n o e => by rw [hk.grew.pinned] at e; exact e
  have fin : ∀ (r : Res Unit) v', Left dir S v0 v' → Safe Any (fun r v' => (r ≠ .ok () → Left dir S v0 v') ∧
      (r = .ok () → Left dir (fun n => S n ∨ n = "bf_ctx") v0 v')) (do void (.close m.id); pure r) v' :=
    fun r v' h => safe_void trivial fun a v'' hs => ⟨trivial, fun _ => h.close hs, fun _ => (h.close hs).mono fun _ hn => .inl hn⟩
  have wr : ∀ {a v'}, AStep v2 (.mapWrite m.id (cgenBytes c.chain c.handle.d)) a v' → Left dir S v0 v' := by
    intro a v' hs
    refine h2.same ⟨[_], hs.hist⟩ fun n o e => ?_
    cases hs with
    | fail => exact e
    | ok _ _ _ h =>
      simp only [K.ok] at h
      split at h
      · cases h; exact e
      · cases h; exact e
      · cases h
  refine safe_try trivial (fun e v3 hs3 => fin _ _ (wr hs3)) fun a v3 hs3 _ => ?_
  have h3 := wr hs3
  refine safe_void trivial fun b v4 hs4 => ?_
  have h4 : Left dir S v0 v4 := (h3.unlink hs4).mono fun n hn => hn.1
  refine safe_try trivial (fun e v5 hs5 => ?_) fun a v5 hs5 _ => ?_
  · rcases hs5.pin with ⟨e', _, rfl⟩ | ⟨h, _⟩
    · exact fin _ _ (h4.log _ _)
    · cases h
  have h5 : Left dir (fun n => S n ∨ n = "bf_ctx_tmp") v0 v5 := (h4.mono fun n hn => .inl hn).pin hs5 (.inr rfl)
  refine safe_try trivial (fun e v6 hs6 => ?_) fun a v6 hs6 hne6 => ?_
  · rcases hs6.rename with ⟨e', _, rfl⟩ | ⟨h, _⟩
    · refine safe_void trivial fun b v7 hs7 => ?_
      exact fin _ _ (((h5.log _ _).unlink hs7).mono fun n hn => hn.1.resolve_right hn.2)
    · cases h
  · rcases hs6.rename with ⟨e', rfl, _⟩ | ⟨rfl, o, ho, rfl⟩
    · exact absurd rfl (hne6 _)
    have h6 : Left dir (fun n => S n ∨ n = "bf_ctx") v0 (({ v5 with pins := ((dir, "bf_ctx"), o) :: v5.pins.filter fun p =>
        p.1 ≠ (dir, "bf_ctx_tmp") ∧ p.1 ≠ (dir, "bf_ctx") } : K).log (.rename dir "bf_ctx_tmp" "bf_ctx") .done) := by
      refine Left.log (v := { v5 with pins := ((dir, "bf_ctx"), o) :: v5.pins.filter fun p =>
        p.1 ≠ (dir, "bf_ctx_tmp") ∧ p.1 ≠ (dir, "bf_ctx") }) ⟨h5.hist, h5.pins.imp id fun h n o' e => ?_⟩ _ _
      rw [pinned_rename] at e
      split at e
      · next e' => exact .inr e'.2
      · split at e
        · cases e
        · next e2 => exact .inl ((h n o' e).resolve_right fun e' => e2 ⟨rfl, e'⟩)
    exact safe_void trivial fun b v7 hs7 => ⟨trivial, fun e => absurd rfl e, fun _ => h6.close hs7⟩

/-- `bf_cgen_set` in an empty directory: if it fails, the directory is empty, unless some call that removes a pin failed; if it succeeds
the directory has the pins of the chain, no other. -/
theorem cgenSet_left {c : Chain} {o : Option HookOpts} (hf : ∀ n, v.pinned dir n = none) :
    Safe Any (fun x v' => (x.2 ≠ .ok () → Left dir (fun _ => False) v v') ∧ (x.2 = .ok () → Left dir (fun n => n = "bf_ctx" ∨ x.1.handle.names n) v v')) (cgenSet T ⟨c, Handle.new⟩ o dir) v := by
  have l0 : Left dir (fun _ => False) v v := ⟨⟨[], rfl⟩, .inr fun n o e => by rw [hf] at e; cases e⟩
  have lg : ∀ {v'}, Grew v v' → Left dir (fun _ => False) v v' := fun hg => l0.same hg.hist fun n o e => by rw [hg.pinned] at e; exact e
  unfold cgenSet
  refine Safe.bind (makeProgram_safe (fun _ _ => trivial) fun h r v1 hk hm hr => ?_)
  have g1 := hk.grew
  cases r with
  | err e => exact ⟨trivial, fun _ => lg g1, fun e => by cases e⟩
  | ub => exact ⟨trivial, fun _ => lg g1, fun e => by cases e⟩
  | ok u =>
    obtain ⟨hready, _⟩ := hr rfl
    have finish : ∀ h' v2, Grew v v2 → NamesOk h' → Safe Any (fun x v' => (x.2 ≠ .ok () → Left dir (fun _ => False) v v') ∧ (x.2 = .ok () → Left dir (fun n => n = "bf_ctx" ∨ x.1.handle.names n) v v')) (do
          match ← handlePin h' dir with
          | .ok _ =>
            match ← persist ⟨c, h'⟩ dir with
            | .ok _ => pure (⟨c, h'⟩, .ok ())
            | e => do handleUnpin h' dir; pure (⟨c, h'⟩, e)
          | e => pure (⟨c, h'⟩, e) : P (Cgen × Res Unit)) v2 := by
      intro h' v2 g2 hn
      refine Safe.bind (Safe.mono (handlePin_left (lg g2) (by simp)) (fun _ h => h) fun r v3 _ h3 => ?_)
      cases r with
      | err e => exact ⟨trivial, fun _ => h3.2 (by simp), fun e => by cases e⟩
      | ub => exact ⟨trivial, fun _ => h3.2 (by simp), fun e => by cases e⟩
      | ok u =>
        refine Safe.bind (Safe.mono (persist_left (c := ⟨c, h'⟩) h3.1 fun e => ?_) (fun _ h => h) fun r v4 _ h4 => ?_)
        · exact (hn.names (e.resolve_left id)).2 rfl
        · have err : ∀ e : Res Unit, e ≠ .ok () → Left dir (fun n => False ∨ h'.names n) v v4 → Safe Any (fun x v' => (x.2 ≠ .ok () → Left dir (fun _ => False) v v') ∧ (x.2 = .ok () → Left dir (fun n => n = "bf_ctx" ∨ x.1.handle.names n) v v')) (do
              handleUnpin h' dir; pure (⟨c, h'⟩, e) : P (Cgen × Res Unit)) v4 := fun e he h4 =>
            Safe.bind (Safe.mono (handleUnpin_left h4) (fun _ h => h) fun _ v5 _ h5 => ⟨trivial, fun _ => h5.mono (fun n hn => hn.1.elim id hn.2), fun e' => absurd e' he⟩)
          cases r with
          | ok u => exact ⟨trivial, fun e => absurd rfl e, fun _ => (h4.2 rfl).mono fun n hn => hn.elim (fun h => .inr (h.resolve_left id)) .inl⟩
          | err e => exact err _ (by simp) (h4.1 (by simp))
          | ub => exact err _ (by simp) (h4.1 (by simp))
    cases o with
    | none => exact Safe.bind ⟨trivial, finish h v1 g1 hready.namesOk⟩
    | some x =>
      obtain ⟨p, img, m, e1, e2, e3, e4⟩ := hready.prog
      dsimp only
      unfold handleAttach
      rw [hready.link, e1]
      dsimp only
      refine Safe.bind (Safe.bind (linkNew_safe (fun v2 g2 => trivial) (fun e v2 g2 => ⟨trivial, trivial, fun _ => lg (g1.trans g2), fun e => by cases e⟩) fun l v2 g2 hd ha hfd => ?_))
      refine ⟨trivial, ?_⟩
      refine finish _ v2 (g1.trans g2) ⟨hready.namesOk.prog, fun m hm => hready.namesOk.maps m ?_⟩
      exact hm

end Bf.Pin
