import Verif.Cgen.View
import Verif.Cgen.Ops
/-!
# Which counters a program writes

`Wr C W Q p`: if the maps it creates satisfy `C`, program `p` writes counters of maps that satisfy `W` only, and its result satisfies `Q`.
-/
namespace Bf.Pin

def Wr {α : Type} (C W : Nat → Prop) (Q : α → Prop) : P α → Prop
  | .ret a => Q a
  | .call c k => (∀ m i l, c = .ctrWrite m i l → W m) ∧ ∀ a, (∀ d o, c = .mapCreate d → a = .id o → C o) → Wr C W Q (k a)

variable {α β : Type} {C W : Nat → Prop}

theorem Wr.mono {Q Q' : α → Prop} {p : P α} (h : Wr C W Q p) (hq : ∀ a, Q a → Q' a) : Wr C W Q' p := by
  induction p with
  | ret a => exact hq a h
  | call c k ih => exact ⟨h.1, fun a ha => ih a (h.2 a ha)⟩

theorem Wr.bind {Q : β → Prop} {p : P α} {f : α → P β} (h : Wr C W (fun a => Wr C W Q (f a)) p) : Wr C W Q (p >>= f) := by
  induction p with
  | ret a => exact h
  | call c k ih => exact ⟨h.1, fun a ha => ih a (h.2 a ha)⟩

theorem Step.counters {w w' : K} {c : Call} {a : Ans} (h : Step w c a w') : w.objs.length ≤ w'.objs.length ∧
    ∀ (i : Nat) f, w.objs[i]? = some (.map (.counters f)) → w'.objs[i]? = some (.map (.counters f)) ∨ ∃ j l, c = .ctrWrite i j l := by
  cases h
  case fail => exact ⟨Nat.le_refl _, fun i f hi => .inl hi⟩
  case ok w1 h =>
    have same : w1.objs = w.objs → w.objs.length ≤ (w1.log c a).objs.length ∧ ∀ (i : Nat) f, w.objs[i]? = some (.map (.counters f)) →
        (w1.log c a).objs[i]? = some (.map (.counters f)) ∨ ∃ j l, c = .ctrWrite i j l := by
      intro e
      exact ⟨by show _ ≤ w1.objs.length; rw [e]; exact Nat.le_refl _, fun i f hi => .inl (by show w1.objs[i]? = _; rw [e]; exact hi)⟩
    have new : ∀ o, w1 = w.new o → w.objs.length ≤ (w1.log c a).objs.length ∧ ∀ (i : Nat) f, w.objs[i]? = some (.map (.counters f)) →
        (w1.log c a).objs[i]? = some (.map (.counters f)) ∨ ∃ j l, c = .ctrWrite i j l := by
      rintro o rfl
      refine ⟨by show _ ≤ (w.objs ++ [o]).length; simp, fun i f hi => .inl ?_⟩
      show (w.objs ++ [o])[i]? = _
      rw [List.getElem?_append_left (List.getElem?_eq_some_iff.mp hi).1]
      exact hi
    have put : ∀ m o o', w.objs[m]? = some o' → (∀ f, o' ≠ .map (.counters f)) → w1 = w.put m o → w.objs.length ≤ (w1.log c a).objs.length ∧
        ∀ (i : Nat) f, w.objs[i]? = some (.map (.counters f)) → (w1.log c a).objs[i]? = some (.map (.counters f)) ∨ ∃ j l, c = .ctrWrite i j l := by
      rintro m o o' hm hne rfl
      refine ⟨by show _ ≤ (w.objs.set m o).length; simp, fun i f hi => .inl ?_⟩
      show (w.objs.set m o)[i]? = _
      rw [List.getElem?_set]
      split
      · subst_vars
        rw [hm] at hi
        cases hi
        exact absurd rfl (hne f)
      · exact hi
    cases c with
    | mapCreate d => cases h; exact new _ rfl
    | progLoad => cases h; exact new _ rfl
    | linkCreate p pt =>
      simp only [K.ok] at h
      split at h
      · cases h; exact new _ rfl
      · cases h
    | mapWrite m b =>
      simp only [K.ok] at h
      split at h
      · next hm => cases h; exact put _ _ _ hm (by simp) rfl
      · cases h; exact same rfl
      · cases h
    | mapFill m b =>
      simp only [K.ok] at h
      split at h
      · next hm => cases h; exact put _ _ _ hm (by simp) rfl
      · cases h; exact same rfl
      · cases h
    | ctrWrite m j l =>
      simp only [K.ok] at h
      split at h
      · cases h
        refine ⟨by show _ ≤ (List.set _ _ _).length; simp, fun i f hi => ?_⟩
        by_cases e : m = i
        · subst e; exact .inr ⟨_, _, rfl⟩
        · left
          show (List.set _ _ _)[i]? = _
          rw [List.getElem?_set_ne e]; exact hi
      · cases h
    | linkUpdate l p =>
      simp only [K.ok] at h
      split at h
      · next hm _ => cases h; exact put _ _ _ hm (by simp) rfl
      · cases h
    | linkDetach l =>
      simp only [K.ok] at h
      split at h
      · next hm => cases h; exact put _ _ _ hm (by simp) rfl
      · cases h
    | _ =>
      simp only [K.ok] at h
      first
        | (cases h; exact same rfl)
        | (split at h <;> first | (cases h; exact same rfl) | (cases h) | (split at h <;> first | (cases h; exact same rfl) | (cases h)))

/-- Where counters come from. -/
theorem Step.counters_rev {w w' : K} {c : Call} {a : Ans} (h : Step w c a w') {i : Nat} {f : Nat → List Ctr} (hi : w'.objs[i]? = some (.map (.counters f))) :
    w.objs[i]? = some (.map (.counters f)) ∨ (∃ j l, c = .ctrWrite i j l) ∨ (i = w.objs.length ∧ f = fun _ => List.replicate w.ncpu (0, 0)) := by
  cases h
  case fail => exact .inl hi
  case ok w1 h =>
    have hi : w1.objs[i]? = some (.map (.counters f)) := hi
    have same : w1.objs = w.objs → w.objs[i]? = some (.map (.counters f)) := fun e => by rw [← e]; exact hi
    have new : ∀ o, w1 = w.new o → w.objs[i]? = some (.map (.counters f)) ∨ (i = w.objs.length ∧ o = .map (.counters f)) := by
      rintro o rfl
      have hi : (w.objs ++ [o])[i]? = _ := hi
      by_cases e : i < w.objs.length
      · rw [List.getElem?_append_left e] at hi; exact .inl hi
      · have hl := (List.getElem?_eq_some_iff.mp hi).1
        simp at hl
        have : i = w.objs.length := by omega
        subst this
        simp at hi
        exact .inr ⟨rfl, hi⟩
    have put : ∀ m o, (∀ f, o ≠ .map (.counters f)) → w1 = w.put m o → w.objs[i]? = some (.map (.counters f)) := by
      rintro m o hne rfl
      have hi : (w.objs.set m o)[i]? = _ := hi
      rw [List.getElem?_set] at hi
      split at hi
      · split at hi
        · cases hi; exact absurd rfl (hne f)
        · cases hi
      · exact hi
    cases c with
    | mapCreate d =>
      cases h
      rcases new _ rfl with h | ⟨h1, h2⟩
      · exact .inl h
      · refine .inr (.inr ⟨h1, ?_⟩)
        unfold initial at h2
        split at h2
        · cases h2
        · cases h2; rfl
        · cases h2
        · cases h2
    | progLoad =>
      cases h
      rcases new _ rfl with h | ⟨h1, h2⟩
      · exact .inl h
      · cases h2
    | linkCreate p pt =>
      simp only [K.ok] at h
      split at h
      · cases h
        rcases new _ rfl with h | ⟨h1, h2⟩
        · exact .inl h
        · cases h2
      · cases h
    | mapWrite m b =>
      simp only [K.ok] at h
      split at h
      · cases h; exact .inl (put _ _ (by simp) rfl)
      · cases h; exact .inl (same rfl)
      · cases h
    | mapFill m b =>
      simp only [K.ok] at h
      split at h
      · cases h; exact .inl (put _ _ (by simp) rfl)
      · cases h; exact .inl (same rfl)
      · cases h
    | ctrWrite m j l =>
      by_cases e : m = i
      · subst e; exact .inr (.inl ⟨j, l, rfl⟩)
      · simp only [K.ok] at h
        split at h
        · cases h
          have hi : (List.set _ _ _)[i]? = _ := hi
          rw [List.getElem?_set_ne e] at hi
          exact .inl hi
        · cases h
    | linkUpdate l p =>
      simp only [K.ok] at h
      split at h
      · cases h; exact .inl (put _ _ (by simp) rfl)
      · cases h
    | linkDetach l =>
      simp only [K.ok] at h
      split at h
      · cases h; exact .inl (put _ _ (by simp) rfl)
      · cases h
    | _ =>
      simp only [K.ok] at h
      first
        | (cases h; exact .inl (same rfl))
        | (split at h <;> first | (cases h; exact .inl (same rfl)) | (cases h) | (split at h <;> first | (cases h; exact .inl (same rfl)) | (cases h)))

theorem Step.mapId {w w' : K} {d : MapD} {a : Ans} {o : Nat} (h : Step w (.mapCreate d) a w') (ha : a = .id o) : o = w.objs.length := by
  cases h
  case fail => cases ha
  case ok w1 h => cases h; cases ha; rfl

theorem Wr.run {Q : α → Prop} {w w1 : K} {p p' : P α} (hr : Run w p w1 p') (h : Wr C W Q p) (hc : ∀ o, w.objs.length ≤ o → C o) :
    w.objs.length ≤ w1.objs.length ∧ Wr C W Q p' := by
  induction hr with
  | refl => exact ⟨Nat.le_refl _, h⟩
  | packets hp _ ih =>
    have := ih h (fun o ho => hc o (by rw [← hp.len]; exact ho))
    rw [hp.len] at this
    exact this
  | step hs _ ih =>
    have hl := hs.counters.1
    have := ih (h.2 _ (by
      rintro d o rfl ha
      rw [hs.mapId ha]; exact hc _ (Nat.le_refl _))) fun o ho => hc o (Nat.le_trans hl ho)
    exact ⟨Nat.le_trans hl this.1, this.2⟩

/-- A call of a program changes the counters of maps that satisfy `W` only. -/
theorem Wr.step {Q : α → Prop} {w w1 w2 : K} {p : P α} {c : Call} {k : Ans → P α} {a : Ans} (h : Wr C W Q p) (hc : ∀ o, w.objs.length ≤ o → C o)
    (hr : Run w p w1 (.call c k)) (hs : Step w1 c a w2) {i : Nat} (hi : ¬ W i) {f : Nat → List Ctr}
    (ho : w1.objs[i]? = some (.map (.counters f))) : w2.objs[i]? = some (.map (.counters f)) := by
  obtain ⟨_, hw⟩ := Wr.run hr h hc
  rcases hs.counters.2 i f ho with h1 | ⟨j, l, rfl⟩
  · exact h1
  · exact absurd (hw.1 i j l rfl) hi

theorem wr_bind {Q : β → Prop} {p : P α} {f : α → P β} (h : Wr C W (fun _ => True) p) (hf : ∀ a, Wr C W Q (f a)) : Wr C W Q (p >>= f) :=
  Wr.bind (h.mono fun a _ => hf a)

theorem wr_call {Q : α → Prop} {c : Call} {k : Ans → P α} (hc : ∀ m i l, c ≠ .ctrWrite m i l) (h : ∀ a, Wr C W Q (k a)) : Wr C W Q (.call c k) :=
  ⟨fun m i l e => absurd e (hc m i l), fun a _ => h a⟩

theorem wr_pure {Q : α → Prop} {a : α} (h : Q a) : Wr C W Q (pure a : P α) := h
theorem wr_ret {Q : α → Prop} {a : α} (h : Q a) : Wr C W Q (.ret a : P α) := h
theorem wr_try {c : Call} (hc : ∀ m i l, c ≠ .ctrWrite m i l) : Wr C W (fun _ => True) (try_ c) := wr_call hc fun _ => trivial
theorem wr_tryId {c : Call} (hc : ∀ m i l, c ≠ .ctrWrite m i l) : Wr C W (fun _ => True) (tryId c) := wr_call hc fun _ => trivial
theorem wr_void {c : Call} (hc : ∀ m i l, c ≠ .ctrWrite m i l) : Wr C W (fun _ => True) (void c) := wr_call hc fun _ => trivial

/-- Lemmas about functions that write no counter. -/
syntax "wr_fn" : tactic
macro_rules | `(tactic| wr_fn) => `(tactic| exact wr_try (by simp))
macro_rules | `(tactic| wr_fn) => `(tactic| exact wr_tryId (by simp))
macro_rules | `(tactic| wr_fn) => `(tactic| exact wr_void (by simp))

/-- Functions that write no counter. -/
macro "wr" : tactic => `(tactic| repeat (first
  | exact wr_pure trivial
  | exact wr_ret trivial
  | wr_fn
  | refine wr_bind (by wr_fn) fun _ => ?_
  | refine wr_call (by simp) fun _ => ?_
  | split))

theorem wr_closeAll (os : List Nat) : Wr C W (fun _ => True) (closeAll os) := by
  induction os with
  | nil => exact wr_pure trivial
  | cons o os ih => exact wr_bind (by wr_fn) fun _ => ih
macro_rules | `(tactic| wr_fn) => `(tactic| exact wr_closeAll _)

theorem wr_handleFree (h : Handle) : Wr C W (fun _ => True) (handleFree h) := wr_closeAll _
macro_rules | `(tactic| wr_fn) => `(tactic| exact wr_handleFree _)
theorem wr_cgenFree (c : Cgen) : Wr C W (fun _ => True) (cgenFree c) := wr_closeAll _
macro_rules | `(tactic| wr_fn) => `(tactic| exact wr_cgenFree _)

theorem wr_linkNew (hook : Hook) (o : HookOpts) (p : Nat) : Wr C W (fun _ => True) (linkNew hook o p) := by
  have : ∀ pt, Wr C W (fun _ => True) (tryAttachXdp p pt) := by
    intro pt
    unfold tryAttachXdp
    wr
  unfold linkNew
  refine wr_bind (by wr_fn) fun _ => ?_
  split
  · dsimp only
    split
    · refine wr_bind (this _) fun _ => ?_
      wr
    all_goals wr
  · wr
  · wr
macro_rules | `(tactic| wr_fn) => `(tactic| exact wr_linkNew _ _ _)

theorem wr_linkUnpin (dir : String) : Wr C W (fun _ => True) (linkUnpin dir) := by unfold linkUnpin; wr
macro_rules | `(tactic| wr_fn) => `(tactic| exact wr_linkUnpin _)

theorem wr_linkPin (l : Link) (dir : String) : Wr C W (fun _ => True) (linkPin l dir) := by unfold linkPin; wr
macro_rules | `(tactic| wr_fn) => `(tactic| exact wr_linkPin _ _)

theorem wr_unpinAll (dir : String) (ms : List BMap) : Wr C W (fun _ => True) (unpinAll dir ms) := by
  induction ms with
  | nil => exact wr_pure trivial
  | cons o os ih => exact wr_bind (by wr_fn) fun _ => ih
macro_rules | `(tactic| wr_fn) => `(tactic| exact wr_unpinAll _ _)

theorem wr_pinAll (dir : String) (ms : List BMap) : Wr C W (fun _ => True) (pinAll dir ms) := by
  induction ms with
  | nil => exact wr_pure trivial
  | cons o os ih => unfold pinAll; refine wr_bind (by wr_fn) fun _ => ?_; split; exact ih; wr
macro_rules | `(tactic| wr_fn) => `(tactic| exact wr_pinAll _ _)

theorem wr_handleUnpin (h : Handle) (dir : String) : Wr C W (fun _ => True) (handleUnpin h dir) := by unfold handleUnpin; wr
macro_rules | `(tactic| wr_fn) => `(tactic| exact wr_handleUnpin _ _)

theorem wr_handlePins (h : Handle) (dir : String) : Wr C W (fun _ => True) (handlePins h dir) := by unfold handlePins; wr
macro_rules | `(tactic| wr_fn) => `(tactic| exact wr_handlePins _ _)

theorem wr_handlePin (h : Handle) (dir : String) : Wr C W (fun _ => True) (handlePin h dir) := by unfold handlePin; wr
macro_rules | `(tactic| wr_fn) => `(tactic| exact wr_handlePin _ _)

/-- What a new map is. -/
theorem wr_mapNew {name : String} {type : MapType} {bt ks vs ne : Nat} : Wr C W (fun r => ∀ m, r = .ok m → C m.id) (mapNew name type bt ks vs ne) := by
  unfold mapNew
  repeat (split; exact wr_pure (by simp))
  refine wr_bind (by wr_fn) fun _ => ?_
  split
  · refine Wr.bind ?_
    refine ⟨by simp, fun a ha => ?_⟩
    refine wr_ret ?_
    split
    · next o e =>
      refine wr_pure fun m hm => ?_
      cases hm
      cases a with
      | id o' => cases e; exact ha _ _ rfl rfl
      | _ => cases e
    · exact wr_pure (by simp)
    · exact wr_pure (by simp)
  · exact wr_pure (by simp)
  · exact wr_pure (by simp)

theorem wr_mapNew' {name : String} {type : MapType} {bt ks vs ne : Nat} : Wr C W (fun _ => True) (mapNew name type bt ks vs ne) :=
  wr_mapNew.mono fun _ _ => trivial
macro_rules | `(tactic| wr_fn) => `(tactic| exact wr_mapNew')

theorem wr_persist (c : Cgen) (dir : String) : Wr C W (fun _ => True) (persist c dir) := by unfold persist; wr
macro_rules | `(tactic| wr_fn) => `(tactic| exact wr_persist _ _)

theorem wr_getMap (dir : String) (d : Option MapD) : Wr C W (fun _ => True) (getMap dir d) := by unfold getMap; wr
macro_rules | `(tactic| wr_fn) => `(tactic| exact wr_getMap _ _)

theorem wr_getMaps (dir : String) (ds : List (Option MapD)) : Wr C W (fun _ => True) (getMaps dir ds) := by
  induction ds with
  | nil => exact wr_pure trivial
  | cons o os ih =>
    unfold getMaps
    refine wr_bind (by wr_fn) fun _ => ?_
    split
    · exact wr_bind ih fun _ => wr_pure trivial
    · wr
    · wr
macro_rules | `(tactic| wr_fn) => `(tactic| exact wr_getMaps _ _)

theorem wr_getLink (dir : String) (d : Option LinkD) : Wr C W (fun _ => True) (getLink dir d) := by unfold getLink; wr
macro_rules | `(tactic| wr_fn) => `(tactic| exact wr_getLink _ _)

theorem wr_getHandle (dir : String) (d : HandleD) : Wr C W (fun _ => True) (getHandle dir d) := by unfold getHandle; dsimp only; wr
macro_rules | `(tactic| wr_fn) => `(tactic| exact wr_getHandle _ _)

theorem wr_newFromDir (dir : String) : Wr C W (fun _ => True) (newFromDir dir) := by unfold newFromDir; wr
macro_rules | `(tactic| wr_fn) => `(tactic| exact wr_newFromDir _)

theorem wr_handleAttach (h : Handle) (hook : Hook) (o : HookOpts) : Wr C W (fun _ => True) (handleAttach h hook o) := by unfold handleAttach; wr
macro_rules | `(tactic| wr_fn) => `(tactic| exact wr_handleAttach _ _ _)

theorem wr_handleDetach (h : Handle) : Wr C W (fun _ => True) (handleDetach h) := by unfold handleDetach; wr
macro_rules | `(tactic| wr_fn) => `(tactic| exact wr_handleDetach _)

theorem wr_handleUnload (h : Handle) : Wr C W (fun _ => True) (handleUnload h) := by unfold handleUnload; wr
macro_rules | `(tactic| wr_fn) => `(tactic| exact wr_handleUnload _)

theorem wr_loadSets {chain : Chain} {gs : Groups} {i : Nat} {h : Handle} : Wr C W (fun x => x.1.cmap = h.cmap) (loadSets chain gs i h) := by
  induction gs generalizing i h with
  | nil => exact wr_pure rfl
  | cons g gs ih =>
    unfold loadSets
    split
    · exact wr_pure rfl
    · refine wr_bind (by wr_fn) fun _ => ?_
      split
      · refine wr_bind (by wr_fn) fun _ => ?_
        split
        · refine wr_bind (by wr_fn) fun _ => ?_
          split
          · exact ih.mono fun x hx => hx
          · exact wr_bind (by wr_fn) fun _ => wr_pure rfl
        · exact wr_pure rfl
        · exact wr_pure rfl
      · exact wr_pure rfl

theorem wr_andThen {Q : Handle × Res Unit → Prop} {x : Handle × Res Unit} {f : Handle → P (Handle × Res Unit)} (h1 : Wr C W Q (f x.1)) (h2 : Q x) :
    Wr C W Q (andThen x f) := by
  unfold andThen
  split
  · exact h1
  · exact wr_pure (by obtain ⟨a, b⟩ := x; simp_all)

/-- The counters map of a handle is new. -/
def NewCmap (C : Nat → Prop) (h : Handle) : Prop := ∀ m, h.cmap = some m → C m.id

theorem wr_makeProgram {T : Target} {chain : Chain} {h : Handle} (hh : NewCmap C h) : Wr C W (fun x => NewCmap C x.1) (makeProgram T chain h) := by
  have same : ∀ {h h' : Handle}, h'.cmap = h.cmap → NewCmap C h → NewCmap C h' := by
    intro h h' e hn m hm
    exact hn m (by rw [← e]; exact hm)
  unfold makeProgram
  refine wr_bind (by wr_fn) fun _ => ?_
  split
  · split
    · unfold programLoad
      refine Wr.bind (wr_loadSets.mono fun x hx => wr_andThen ?_ (same hx hh))
      refine Wr.bind ?_
      unfold loadCounters
      refine Wr.bind (wr_mapNew.mono fun r hr => ?_)
      have hx1 := same hx hh
      generalize x.1 = h1 at *
      have fin : ∀ y : Handle × Res Unit, NewCmap C y.1 → Wr C W (fun x => NewCmap C x.1) (andThen y fun h => do
          andThen (← loadPrinter T h) fun h => do
          andThen (← loadLog chain h) fun h => do
          andThen (← loadState chain h) fun h =>
          match loadFixups ⟨chain, buildGroups chain.sets, T.thr⟩ h.mapFds ‹_›, h.cmap with
          | .ok img, some m => do
            match ← tryId (.progLoad chain img m.id) with
            | .ok o => pure ({ h with prog := some o }, .ok ())
            | .err e => pure (h, .err e)
            | .ub => pure (h, .ub)
          | .err e, _ => pure (h, .err e)
          | _, _ => pure (h, .ub)) := by
        intro y hy
        refine wr_andThen ?_ hy
        refine Wr.bind (Wr.mono (Q := fun x => NewCmap C x.1) ?_ fun z hz => wr_andThen ?_ hz)
        · unfold loadPrinter
          refine wr_bind (by wr_fn) fun _ => ?_
          split
          · refine wr_bind (by wr_fn) fun _ => ?_
            split
            · exact wr_bind (by wr_fn) fun _ => wr_pure (same rfl hy)
            · exact wr_pure hy
            · exact wr_pure hy
          · exact wr_pure hy
        refine Wr.bind (Wr.mono (Q := fun x => NewCmap C x.1) ?_ fun z' hz' => wr_andThen ?_ hz')
        · unfold loadLog
          split
          · exact wr_pure hz
          · refine wr_bind (by wr_fn) fun _ => ?_
            split <;> exact wr_pure (same rfl hz)
        refine Wr.bind (Wr.mono (Q := fun x => NewCmap C x.1) ?_ fun z'' hz'' => wr_andThen ?_ hz'')
        · unfold loadState
          split
          · exact wr_pure hz'
          · refine wr_bind (by wr_fn) fun _ => ?_
            split <;> exact wr_pure (same rfl hz')
        split
        · refine wr_bind (by wr_fn) fun _ => ?_
          split <;> exact wr_pure (same rfl hz'')
        · exact wr_pure hz''
        · exact wr_pure hz''
      split
      · next m => exact wr_pure (fin _ fun m' hm' => by cases hm'; exact hr m rfl)
      · exact wr_pure (fin _ hx1)
      · exact wr_pure (fin _ hx1)
    · exact wr_pure hh
    · exact wr_pure hh
  · exact wr_pure hh

theorem wr_setCounter {ncpu : Nat} {h : Handle} {i : Nat} {c : Ctr} (hh : NewCmap W h) : Wr C W (fun _ => True) (setCounter ncpu h i c) := by
  unfold setCounter
  split
  · exact wr_pure trivial
  · next m hm =>
    refine wr_bind (by wr_fn) fun _ => ?_
    split
    · refine ⟨fun m' i' l' e => ?_, fun _ _ => trivial⟩
      cases e
      exact hh m hm
    · exact wr_pure trivial

theorem wr_getCounter {h : Handle} {i : Nat} : Wr C W (fun _ => True) (getCounter h i) := by
  unfold getCounter
  split
  · wr
  · refine wr_bind (by wr_fn) fun _ => ?_
    split
    · refine wr_call (by simp) fun _ => ?_
      split <;> exact wr_ret trivial
    · wr
    · wr
macro_rules | `(tactic| wr_fn) => `(tactic| exact wr_getCounter)

theorem wr_transfer {ncpu nr : Nat} {old new : Handle} (hh : NewCmap W new) : Wr C W (fun _ => True) (transfer ncpu old new nr) := by
  have loop : ∀ i k, Wr C W (fun _ => True) (transferLoop ncpu old new i k) := by
    intro i k
    induction k generalizing i with
    | zero => exact wr_pure trivial
    | succ k ih =>
      unfold transferLoop
      refine wr_bind (by wr_fn) fun _ => ?_
      split
      · split
        · exact ih _
        · refine wr_bind (wr_setCounter hh) fun _ => ?_
          split
          · exact ih _
          · wr
      · wr
      · wr
  unfold transfer
  split
  · wr
  · exact loop _ _

theorem wr_linkUpdate (l : Link) (p : Nat) : Wr C W (fun _ => True) (linkUpdate l p) := by unfold linkUpdate linkUpdateNf; wr
macro_rules | `(tactic| wr_fn) => `(tactic| exact wr_linkUpdate _ _)

theorem wr_updateFinish (c : Cgen) (chain : Chain) (h : Handle) (dir : String) : Wr C W (fun _ => True) (updateFinish c chain h dir) := by
  unfold updateFinish; dsimp only; wr
macro_rules | `(tactic| wr_fn) => `(tactic| exact wr_updateFinish _ _ _ _)

theorem wr_updateSwitch (c : Cgen) (chain : Chain) (h : Handle) (dir : String) : Wr C W (fun _ => True) (updateSwitch c chain h dir) := by
  unfold updateSwitch; dsimp only; wr

/-- An update writes counters of the new program only. -/
theorem wr_cgenUpdate (hcw : ∀ o, C o → W o) {T : Target} {ncpu : Nat} {c : Cgen} {chain : Chain} {keep : Bool} {dir : String} :
    Wr C W (fun _ => True) (cgenUpdate T ncpu c chain keep dir) := by
  unfold cgenUpdate
  refine wr_bind (by wr_fn) fun _ => ?_
  split
  · refine Wr.bind ((wr_makeProgram (h := Handle.new) (fun m hm => by cases hm)).mono fun x hx => ?_)
    split
    · split
      · split
        · wr
        · refine wr_bind (wr_transfer fun m hm => hcw _ (hx m hm)) fun _ => ?_
          split
          · exact wr_updateSwitch _ _ _ _
          · wr
      · exact wr_updateSwitch _ _ _ _
    · wr
  · wr
macro_rules | `(tactic| wr_fn) => `(tactic| exact wr_cgenUpdate ‹_›)

theorem wr_copyChain (c : Chain) : Wr C W (fun _ => True) (copyChain c) := by unfold copyChain; wr
macro_rules | `(tactic| wr_fn) => `(tactic| exact wr_copyChain _)

theorem wr_withCgen {dir : String} {f : Cgen → P (Cgen × Res α)} (hf : ∀ c, Wr C W (fun _ => True) (f c)) : Wr C W (fun _ => True) (withChain dir true (withCgen dir f)) := by
  have : Wr C W (fun _ => True) (withCgen dir f) := by
    unfold withCgen
    refine wr_bind (by wr_fn) fun _ => ?_
    split
    · exact wr_bind (hf _) fun _ => by wr
    · wr
    · wr
  unfold withChain
  refine wr_bind (by wr_fn) fun _ => ?_
  split
  · refine wr_bind (by wr_fn) fun _ => ?_
    split
    · exact wr_bind this fun _ => by wr
    · wr
    · wr
  · wr
  · wr

theorem wr_chainUpdate (hcw : ∀ o, C o → W o) {T : Target} {ncpu : Nat} {chain : Chain} : Wr C W (fun _ => True) (chainUpdate T ncpu chain) :=
  wr_withCgen fun c => by wr

theorem wr_chainUpdateSet (hcw : ∀ o, C o → W o) {T : Target} {ncpu : Nat} {dir : String} {a r : BSet} : Wr C W (fun _ => True) (chainUpdateSet T ncpu dir a r) :=
  wr_withCgen fun c => by wr

end Bf.Pin
