import Verif.Cgen.Get
/-!
# Counters that are carried over to a new program
-/
namespace Bf.Pin

variable {α β : Type} {w w' : K} {m : Nat}

theorem Run.trans {p p' p'' : P α} {w w' w'' : K} (h : Run w p w' p') (h' : Run w' p' w'' p'') : Run w p w'' p'' := by
  induction h with
  | refl => exact h'
  | packets hp _ ih => exact .packets hp (ih h')
  | step hs _ ih => exact .step hs (ih h')

/-- Executions of a part are executions of the whole. -/
theorem Run.bind {p p' : P α} {f : α → P β} (h : Run w p w' p') : Run w (p >>= f) w' (p' >>= f) := by
  induction h with
  | refl => exact .refl
  | packets hp _ ih => exact .packets hp ih
  | step hs _ ih => exact .step hs ih

/-- An execution of a sequence that ends. -/
theorem Run.bind_inv {p : P α} {f : α → P β} {b : β} (h : Run w (p >>= f) w' (.ret b)) :
    ∃ a w1, Run w p w1 (.ret a) ∧ Run w1 (f a) w' (.ret b) := by
  induction p generalizing w w' with
  | ret a => exact ⟨a, w, .refl, h⟩
  | call c k ih =>
    have : ∀ {q : P β} {w w' : K} {q' : P β}, Run w q w' q' → q = (.call c k >>= f) → q' = .ret b →
        ∃ a w1, Run w (.call c k) w1 (.ret a) ∧ Run w1 (f a) w' (.ret b) := by
      intro q w w' q' h
      induction h with
      | refl => intro e e'; rw [e'] at e; cases e
      | packets hp _ ih2 =>
        intro e e'
        obtain ⟨a, w1, h1, h2⟩ := ih2 e e'
        exact ⟨a, w1, .packets hp h1, h2⟩
      | step hs hr _ =>
        intro e e'
        cases e
        cases e'
        obtain ⟨a, w1, h1, h2⟩ := ih _ (show Run _ (k _ >>= f) _ _ from hr)
        exact ⟨a, w1, .step hs h1, h2⟩
    exact this h rfl rfl

/-- Packets are processed, several times. -/
inductive Pk : K → K → Prop
  | refl {w : K} : Pk w w
  | step {w w1 w2 : K} : Packets w w1 → Pk w1 w2 → Pk w w2

theorem Run.call_inv {c : Call} {k : Ans → P α} {a : α} (h : Run w (.call c k) w' (.ret a)) :
    ∃ w1 b w2, Pk w w1 ∧ Step w1 c b w2 ∧ Run w2 (k b) w' (.ret a) := by
  have : ∀ {q : P α} {w w' : K} {q' : P α}, Run w q w' q' → q = .call c k → q' = .ret a →
      ∃ w1 b w2, Pk w w1 ∧ Step w1 c b w2 ∧ Run w2 (k b) w' (.ret a) := by
    intro q w w' q' h
    induction h with
    | refl => intro e e'; rw [e'] at e; cases e
    | packets hp _ ih =>
      intro e e'
      obtain ⟨w1, b, w2, h1, h2⟩ := ih e e'
      exact ⟨w1, b, w2, .step hp h1, h2⟩
    | step hs hr _ => intro e e'; cases e; cases e'; exact ⟨_, _, _, .refl, hs, hr⟩
  exact this h rfl rfl

theorem Run.ret_inv {a b : α} (h : Run w (.ret a) w' (.ret b)) : a = b ∧ Pk w w' := by
  have : ∀ {q : P α} {w w' : K} {q' : P α}, Run w q w' q' → q = .ret a → q' = .ret b → a = b ∧ Pk w w' := by
    intro q w w' q' h
    induction h with
    | refl => intro e e'; rw [e'] at e; cases e; exact ⟨rfl, .refl⟩
    | packets hp _ ih =>
      intro e e'
      obtain ⟨h1, h2⟩ := ih e e'
      exact ⟨h1, .step hp h2⟩
    | step => intro e; cases e
  exact this h rfl rfl

/-- No program that runs counts in map `m`. -/
def Unused (m : Nat) (w : K) : Prop := ∀ pt q c img, w.runs pt q → w.objs[q]? ≠ some (.prog c img m)

/-- What matters of the world for `Unused`. -/
theorem Unused.erase {w w' : K} (h : Unused m w) (e : w'.erase.objs = w.erase.objs) (e2 : w'.pins = w.pins) (e3 : w'.fds = w.fds) : Unused m w' := by
  intro pt q c img hr hq
  have hl : ∀ (l : Nat) (pt : Point) (q : Nat) (d : Bool), w'.objs[l]? = some (Obj.link pt q d) → w.objs[l]? = some (Obj.link pt q d) := fun l pt q d h =>
    K.erase_link.mp (by rw [← e]; exact K.erase_link.mpr h)
  refine h pt q c img ?_ (K.erase_prog.mp (by rw [← e]; exact K.erase_prog.mpr hq))
  obtain ⟨l, h1, h2⟩ := hr
  exact ⟨l, hl _ _ _ _ h1, by unfold K.held K.pinned at h2 ⊢; rw [← e2, ← e3]; exact h2⟩

theorem Packets.keep {f : Nat → List Ctr} (h : Packets w w') (hu : Unused m w) (ho : w.objs[m]? = some (.map (.counters f))) :
    w'.objs[m]? = some (.map (.counters f)) := by
  rcases h.objs m _ ho with h1 | ⟨_, pt, p, c, img, h1, h2⟩
  · exact h1
  · exact absurd h2 (hu pt p c img h1)

theorem Packets.unused (h : Packets w w') (hu : Unused m w) : Unused m w' :=
  hu.erase (by rw [h.erase]) (by rw [h.same]) (by rw [h.same])

theorem Pk.keep {f : Nat → List Ctr} (h : Pk w w') (hu : Unused m w) (ho : w.objs[m]? = some (.map (.counters f))) :
    w'.objs[m]? = some (.map (.counters f)) ∧ Unused m w' ∧ w'.hist = w.hist := by
  induction h with
  | refl => exact ⟨ho, hu, rfl⟩
  | step hp _ ih =>
    obtain ⟨h1, h2, h3⟩ := ih (hp.unused hu) (hp.keep hu ho)
    exact ⟨h1, h2, h3.trans hp.hist⟩

/-- Calls that change counters only. -/
theorem Step.unused {c : Call} {a : Ans} (hc : c = .alloc ∨ (∃ x i, c = .ctrRead x i) ∨ ∃ x i l, c = .ctrWrite x i l) (h : Step w c a w')
    (hu : Unused m w) : Unused m w' := by
  have hq : AStep w.erase c a w'.erase := h.erase
  have e : w'.erase = w.erase.log c a := by
    apply hq.quiet
    rcases hc with rfl | ⟨x, i, rfl⟩ | ⟨x, i, l, rfl⟩ <;> trivial
  refine hu.erase (by rw [e]; rfl) ?_ ?_
  · show w'.erase.pins = _; rw [e]; rfl
  · show w'.erase.fds = _; rw [e]; rfl

/-- The content of map `m`, which no program uses. -/
structure Ct (m : Nat) (f : Nat → List Ctr) (w : K) : Prop where
  obj : w.objs[m]? = some (.map (.counters f))
  unused : Unused m w

theorem Ct.pk {f : Nat → List Ctr} (h : Ct m f w) (hp : Pk w w') : Ct m f w' ∧ w'.hist = w.hist := by
  obtain ⟨h1, h2, h3⟩ := hp.keep h.unused h.obj
  exact ⟨⟨h1, h2⟩, h3⟩

theorem Run.try_inv {c : Call} {r : Res Unit} (h : Run w (try_ c) w' (.ret r)) : ∃ w1 b w2, Pk w w1 ∧ Step w1 c b w2 ∧ b.toRes = r ∧ Pk w2 w' := by
  obtain ⟨w1, b, w2, h1, h2, h3⟩ := h.call_inv
  obtain ⟨h4, h5⟩ := h3.ret_inv
  exact ⟨w1, b, w2, h1, h2, h4, h5⟩

theorem Ct.alloc {f : Nat → List Ctr} {r : Res Unit} (hc : Ct m f w) (h : Run w (try_ .alloc) w' (.ret r)) : Ct m f w' ∧ ∃ g, w'.hist = g ++ w.hist := by
  refine ⟨?_, h.hist⟩
  obtain ⟨w1, b, w2, h1, h2, _, h4⟩ := h.try_inv
  obtain ⟨c1, _⟩ := hc.pk h1
  refine (Ct.pk ⟨?_, h2.unused (.inl rfl) c1.unused⟩ h4).1
  rcases h2.counters.2 m f c1.obj with h | ⟨j, l, e⟩
  · exact h
  · cases e

theorem getCounter_run {f : Nat → List Ctr} {h : Handle} {mo : BMap} {i : Nat} {c : Ctr} (hm : h.cmap = some mo) (hc : Ct m f w)
    (hr : Run w (getCounter h i) w' (.ret (.ok c))) : Ct m f w' ∧ ∃ l, Since w w' (.ctrRead mo.id i, .ctrs l) ∧ c = sumCtrs l := by
  unfold getCounter at hr
  rw [hm] at hr
  obtain ⟨r, w1, h1, h2⟩ := Run.bind_inv hr
  obtain ⟨c1, g1⟩ := hc.alloc h1
  cases r with
  | ok _ =>
    obtain ⟨w2, b, w3, h3, h4, h5⟩ := h2.call_inv
    obtain ⟨c2, e2⟩ := c1.pk h3
    have c3 : Ct m f w3 := ⟨(by
      rcases h4.counters.2 m f c2.obj with h | ⟨j, l, e⟩
      · exact h
      · cases e), h4.unused (.inr (.inl ⟨_, _, rfl⟩)) c2.unused⟩
    cases b with
    | ctrs l =>
      obtain ⟨e, h6⟩ := h5.ret_inv
      cases e
      obtain ⟨c4, e4⟩ := c3.pk h6
      obtain ⟨g, eg⟩ := g1
      exact ⟨c4, l, ⟨[], g, by rw [e4, h4.hist, e2, eg]; rfl⟩, rfl⟩
    | fail e => cases h5.ret_inv.1
    | done => cases h5.ret_inv.1
    | id => cases h5.ret_inv.1
    | bytes => cases h5.ret_inv.1
    | names => cases h5.ret_inv.1
  | err e => cases h2.ret_inv.1
  | ub => cases h2.ret_inv.1

theorem setCounter_run {f : Nat → List Ctr} {h : Handle} {mn : BMap} {ncpu i : Nat} {c : Ctr} (hm : h.cmap = some mn) (hc : Ct mn.id f w)
    (hr : Run w (setCounter ncpu h i c) w' (.ret (.ok ()))) :
    Ct mn.id (fun j => if j = i then (List.replicate ncpu (0, 0)).set 0 c else f j) w' := by
  unfold setCounter at hr
  rw [hm] at hr
  obtain ⟨r, w1, h1, h2⟩ := Run.bind_inv hr
  obtain ⟨c1, _⟩ := hc.alloc h1
  cases r with
  | ok _ =>
    obtain ⟨w2, b, w3, h3, h4, h5, h6⟩ := Run.try_inv h2
    obtain ⟨c2, e2⟩ := c1.pk h3
    refine (Ct.pk ⟨?_, h4.unused (.inr (.inr ⟨_, _, _, rfl⟩)) c2.unused⟩ h6).1
    cases h4 with
    | fail => cases h5
    | ok h =>
      simp only [K.ok, c2.obj] at h
      cases h
      show (w2.objs.set mn.id _)[mn.id]? = _
      rw [List.getElem?_set_self (List.getElem?_eq_some_iff.mp c2.obj).1]
  | err e => cases h2.ret_inv.1
  | ub => cases h2.ret_inv.1

theorem sumCtrs_fold (l : List Ctr) (s : Ctr) : (l.foldl (fun s c => (s.1 + c.1, s.2 + c.2)) s) = (s.1 + (sumCtrs l).1, s.2 + (sumCtrs l).2) := by
  unfold sumCtrs
  induction l generalizing s with
  | nil => simp
  | cons c l ih =>
    rw [List.foldl_cons, List.foldl_cons, ih, ih (_ + c.1, _)]
    simp [BitVec.add_assoc]

theorem sumCtrs_cons (c : Ctr) (l : List Ctr) : sumCtrs (c :: l) = (c.1 + (sumCtrs l).1, c.2 + (sumCtrs l).2) := by
  show l.foldl _ _ = _
  rw [sumCtrs_fold]
  simp

/-- The sum of counters, as numbers. -/
theorem sumCtrs_nat (l : List Ctr) : (sumCtrs l).1.toNat = (l.map (·.1.toNat)).sum % 2 ^ 64 ∧ (sumCtrs l).2.toNat = (l.map (·.2.toNat)).sum % 2 ^ 64 := by
  induction l with
  | nil => exact ⟨rfl, rfl⟩
  | cons c l ih =>
    rw [sumCtrs_cons]
    simp only [BitVec.toNat_add, List.map_cons, List.sum_cons, ih.1, ih.2]
    omega

theorem sumCtrs_zero (n : Nat) : sumCtrs (List.replicate n (0, 0)) = (0, 0) := by
  induction n with
  | zero => rfl
  | succ n ih => rw [List.replicate_succ, sumCtrs_cons, ih]; rfl

theorem sumCtrs_set {n : Nat} (hn : 0 < n) (c : Ctr) : sumCtrs ((List.replicate n (0, 0)).set 0 c) = c := by
  cases n with
  | zero => omega
  | succ n => rw [List.replicate_succ, List.set_cons_zero, sumCtrs_cons, sumCtrs_zero]; simp

theorem transferLoop_run {f : Nat → List Ctr} {old new : Handle} {mo mn : BMap} {ncpu i n : Nat} (ho : old.cmap = some mo) (hn : new.cmap = some mn)
    (hc : Ct mn.id f w) (hcpu : 0 < ncpu) (hz : ∀ j, i ≤ j → f j = List.replicate ncpu (0, 0))
    (hr : Run w (transferLoop ncpu old new i n) w' (.ret (.ok ()))) :
    ∃ f', Ct mn.id f' w' ∧ (∀ j, j < i → f' j = f j) ∧ ∀ j, i ≤ j → j < i + n → ∃ l, Since w w' (.ctrRead mo.id j, .ctrs l) ∧ sumCtrs (f' j) = sumCtrs l := by
  induction n generalizing i w f with
  | zero =>
    obtain ⟨_, h⟩ := hr.ret_inv
    exact ⟨f, (hc.pk h).1, fun _ _ => rfl, fun j h1 h2 => by omega⟩
  | succ n ih =>
    unfold transferLoop at hr
    obtain ⟨r, w1, h1, h2⟩ := Run.bind_inv hr
    cases r with
    | err e => cases h2.ret_inv.1
    | ub => cases h2.ret_inv.1
    | ok c =>
      obtain ⟨c1, l, hs, rfl⟩ := getCounter_run ho hc h1
      have next : ∀ (w2 : K) (f2 : Nat → List Ctr), Ct mn.id f2 w2 → (∃ g, w2.hist = g ++ w1.hist) → (∀ j, j ≠ i → f2 j = f j) → sumCtrs (f2 i) = sumCtrs l →
          Run w2 (transferLoop ncpu old new (i + 1) n) w' (.ret (.ok ())) →
          ∃ f', Ct mn.id f' w' ∧ (∀ j, j < i → f' j = f j) ∧ ∀ j, i ≤ j → j < i + (n + 1) → ∃ l, Since w w' (.ctrRead mo.id j, .ctrs l) ∧ sumCtrs (f' j) = sumCtrs l := by
        intro w2 f2 c2 hh e1 e2 hr2
        obtain ⟨f', k1, k2, k3⟩ := ih c2 (fun j hj => by rw [e1 j (by omega)]; exact hz j (by omega)) hr2
        refine ⟨f', k1, fun j hj => by rw [k2 j (by omega), e1 j (by omega)], fun j h1' h2' => ?_⟩
        by_cases e : j = i
        · subst e
          exact ⟨l, (hs.later hh).later hr2.hist, by rw [k2 j (by omega)]; exact e2⟩
        · obtain ⟨l', a, b⟩ := k3 j (by omega) (by omega)
          exact ⟨l', a.earlier (hist_trans h1.hist hh), b⟩
      dsimp only at h2
      split at h2
      · next hzero =>
        refine next w1 f c1 ⟨[], rfl⟩ (fun _ _ => rfl) ?_ h2
        rw [hz i (Nat.le_refl _), sumCtrs_zero]
        exact (Prod.ext hzero.1 hzero.2).symm
      · obtain ⟨r, w2, h3, h4⟩ := Run.bind_inv h2
        cases r with
        | err e => cases h4.ret_inv.1
        | ub => cases h4.ret_inv.1
        | ok _ =>
          refine next w2 _ (setCounter_run hn c1 h3) h3.hist (fun j hj => by simp [hj]) ?_ h4
          show sumCtrs (if i = i then _ else _) = _
          rw [if_pos rfl, sumCtrs_set hcpu]

/-- Objects refer to objects. -/
def K.Refs (w : K) : Prop := ∀ (i : Nat) (o : Obj), w.objs[i]? = some o → match o with
  | .prog _ _ m => m < w.objs.length
  | .link _ q _ => q < w.objs.length
  | .map _ => True

/-- Nothing that is new is used, as long as nothing runs that did not. -/
theorem K.Refs.unused {w0 w : K} {i : Nat} (href : w0.Refs) (hk : Keep w0.erase w.erase) (hi : w0.objs.length ≤ i) : Unused i w := by
  intro pt q c img hrun hq
  have hr0 : w0.runs pt q := K.erase_runs.mp (hk.runs.mp (K.erase_runs.mpr hrun))
  obtain ⟨l, h1, _⟩ := hr0
  have hq0 : q < w0.objs.length := href l _ h1
  have e : w0.objs[q]? = some (.prog c img i) := by
    obtain ⟨g, eg⟩ := hk.objs
    have h2 := K.erase_prog.mpr hq
    rw [eg, List.getElem?_append_left (by simpa [K.erase] using hq0)] at h2
    exact K.erase_prog.mp h2
  have := href q _ e
  dsimp only at this
  omega

theorem Step.ncpu {c : Call} {a : Ans} (h : Step w c a w') : w'.ncpu = w.ncpu := by
  cases h with
  | fail => rfl
  | ok h =>
    rename_i wd
    have : ∀ {w w1 : K} {c : Call} {a : Ans}, w.ok c = some (a, w1) → w1.ncpu = w.ncpu := by
      intro w w1 c a h
      cases c <;> simp only [K.ok] at h <;> first
        | (cases h; rfl)
        | (split at h <;> first | (cases h; rfl) | (cases h) | (split at h <;> first | (cases h; rfl) | (cases h)))
    show wd.ncpu = _
    exact this h

theorem Run.ncpu {p p' : P α} (h : Run w p w' p') : w'.ncpu = w.ncpu := by
  induction h with
  | refl => rfl
  | packets hp _ ih => rw [ih, hp.same]
  | step hs _ ih => rw [ih, hs.ncpu]

/-- Programs never change. -/
theorem Step.prog {c : Call} {a : Ans} {q : Nat} {ch : Chain} {img : List Insn} (h : Step w c a w') (hq : w.objs[q]? = some (.prog ch img m)) :
    w'.objs[q]? = some (.prog ch img m) := by
  cases h
  case fail => exact hq
  case ok w1 h =>
    show w1.objs[q]? = _
    have same : w1.objs = w.objs → w1.objs[q]? = some (.prog ch img m) := fun e => by rw [e]; exact hq
    have new : ∀ o, w1 = w.new o → w1.objs[q]? = some (.prog ch img m) := by
      rintro o rfl
      show (w.objs ++ [o])[q]? = _
      rw [List.getElem?_append_left (List.getElem?_eq_some_iff.mp hq).1]
      exact hq
    have put : ∀ i o o', w.objs[i]? = some o' → (∀ c img m, o' ≠ .prog c img m) → w1 = w.put i o → w1.objs[q]? = some (.prog ch img m) := by
      rintro i o o' hi hne rfl
      show (w.objs.set i o)[q]? = _
      rw [List.getElem?_set]
      split
      · subst_vars
        rw [hi] at hq
        cases hq
        exact absurd rfl (hne _ _ _)
      · exact hq
    cases c with
    | mapCreate d => cases h; exact new _ rfl
    | progLoad => cases h; exact new _ rfl
    | linkCreate p pt =>
      simp only [K.ok] at h
      split at h
      · cases h; exact new _ rfl
      · cases h
    | mapWrite i b =>
      simp only [K.ok] at h
      split at h
      · next hm => cases h; exact put _ _ _ hm (by simp) rfl
      · cases h; exact same rfl
      · cases h
    | mapFill i b =>
      simp only [K.ok] at h
      split at h
      · next hm => cases h; exact put _ _ _ hm (by simp) rfl
      · cases h; exact same rfl
      · cases h
    | ctrWrite i j l =>
      simp only [K.ok] at h
      split at h
      · next hm => cases h; exact put _ _ _ hm (by simp) rfl
      · cases h
    | linkUpdate l p =>
      simp only [K.ok] at h
      split at h
      · next hm _ => cases h; exact put _ _ _ hm (by simp) rfl
      · cases h
    | linkDetach l =>
      simp only [K.ok] at h
      split at h
      · next hm => cases h; exact put _ _ _ hm (by simp) rfl
      · cases h
    | _ =>
      simp only [K.ok] at h
      first
        | (cases h; exact same rfl)
        | (split at h <;> first | (cases h; exact same rfl) | (cases h) | (split at h <;> first | (cases h; exact same rfl) | (cases h)))

theorem Run.prog {p p' : P α} {q : Nat} {ch : Chain} {img : List Insn} (h : Run w p w' p') (hq : w.objs[q]? = some (.prog ch img m)) :
    w'.objs[q]? = some (.prog ch img m) := by
  induction h with
  | refl => exact hq
  | packets hp _ ih =>
    refine ih ?_
    rcases hp.objs q _ hq with h | ⟨⟨f, f', e, _⟩, _⟩
    · exact h
    · cases e
  | step hs _ ih => exact ih (hs.prog hq)

/-- The maps that are new hold nothing, as long as nothing runs that did not, and nobody writes. -/
theorem fresh_zero {I : K → Prop} {Q : α → K → Prop} {Q' : α → Prop} {C : Nat → Prop} {w0 w w' : K} {p p' : P α} (hr : Run w p w' p') (hsafe : Safe I Q p w.erase)
    (hI : ∀ v, I v → Keep w0.erase v) (href : w0.Refs) (hw : Wr C (fun _ => False) Q' p) (hc : ∀ o, w0.objs.length ≤ o → C o)
    (hl : w0.objs.length ≤ w.objs.length) (h0 : ∀ (i : Nat) f, w0.objs.length ≤ i → w.objs[i]? = some (.map (.counters f)) → f = fun _ => List.replicate w0.ncpu (0, 0))
    (hn : w.ncpu = w0.ncpu) :
    (∀ (i : Nat) f, w0.objs.length ≤ i → w'.objs[i]? = some (.map (.counters f)) → f = fun _ => List.replicate w0.ncpu (0, 0)) ∧ w'.ncpu = w0.ncpu := by
  induction hr with
  | refl => exact ⟨h0, hn⟩
  | packets hp hr' ih =>
    rename_i wa wb wc pa pb
    have hkeep := hI _ hsafe.inv
    refine ih (by rw [hp.erase]; exact hsafe) hw (by rw [hp.len]; exact hl) (fun i f hi hf => ?_) (by rw [hp.same]; exact hn)
    have hlt : i < wa.objs.length := by
      have := (List.getElem?_eq_some_iff.mp hf).1
      rw [hp.len] at this
      exact this
    obtain ⟨o, ho⟩ : ∃ o, wa.objs[i]? = some o := ⟨_, List.getElem?_eq_getElem hlt⟩
    rcases hp.objs i o ho with h1 | ⟨⟨f1, f2, e1, h1⟩, pt, q, c, img, h2, h3⟩
    · rw [h1] at hf; cases hf; exact h0 i f hi ho
    · exact absurd h3 (href.unused hkeep hi pt q c img h2)
  | step hs hr' ih =>
    rename_i wa wb wc c k a p'
    have hlen := hs.counters.1
    have hnc := hs.ncpu
    refine ih (hsafe.2 _ _ hs.erase) (hw.2 _ (by
      rintro d o rfl ha
      rw [hs.mapId ha]; exact hc _ hl)) (Nat.le_trans hl hlen) (fun i f hi hf => ?_) (hnc.trans hn)
    rcases hs.counters_rev hf with h1 | ⟨j, l, rfl⟩ | ⟨_, h1⟩
    · exact h0 i f hi h1
    · exact absurd (hw.1 i j l rfl) id
    · rw [h1, hn]

end Bf.Pin
