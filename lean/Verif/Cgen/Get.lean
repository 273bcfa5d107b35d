import Verif.Cgen.Lift
/-!
# Reading a chain and its counters

cgen/cgen.c:254-309, cli.c:275-315.
-/
namespace Bf.Pin

/-- cgen.h:189-193 `enum bf_counter_type`: the counters of the policy, of errors, of a rule. -/
inductive CtrOf
  | policy
  | errors
  | rule (i : Nat)

/-- cgen.c:290-309 `bf_cgen_get_counter`. -/
def cgenGetCounter (c : Cgen) : CtrOf → P (Res Ctr)
  | .policy => getCounter c.handle c.chain.rules.length
  | .errors => getCounter c.handle (c.chain.rules.length + 1)
  | .rule i => if i < c.chain.rules.length then getCounter c.handle i else pure (.err .EINVAL)

/-- cgen.c:260-272: the loop of `bf_cgen_load_counters`: the counters of the rules that have some. -/
def loadRuleCounters (c : Cgen) : List Rule → P (Res (List (Option Ctr)))
  | [] => pure (.ok [])
  | r :: rs =>
    if r.hasCounters then do
      match ← cgenGetCounter c (.rule r.index) with
      | .ok x => do
        match ← loadRuleCounters c rs with
        | .ok xs => pure (.ok (some x :: xs))
        | e => pure e
      | .err e => pure (.err e)
      | .ub => pure .ub
    else do
      match ← loadRuleCounters c rs with
      | .ok xs => pure (.ok (none :: xs))
      | e => pure e

/-- What `bf_chain_get` gives: the chain and the options of its link, if it is attached; the counters of its rules (in the code,
fields of the chain). -/
structure Got where
  chain : Chain
  opts : Option HookOpts
  rules : List (Option Ctr)
  policy : Ctr
  errors : Ctr

/-- cgen.c:254-288 `bf_cgen_load_counters`, and cli.c:298-311, the end of `bf_chain_get`. -/
def chainGetOpen (c : Cgen) : P (Res Got) := do
  match ← loadRuleCounters c c.chain.rules with
  | .ok xs =>
    match ← cgenGetCounter c .policy with
    | .ok p =>
      match ← cgenGetCounter c .errors with
      | .ok e =>
        match ← copyOpts (c.handle.link.map (·.d.opts)) with
        | .ok _ => pure (.ok ⟨c.chain, c.handle.link.map (·.d.opts), xs, p, e⟩)
        | .err e => pure (.err e)
        | .ub => pure .ub
      | .err e => pure (.err e)
      | .ub => pure .ub
    | .err e => pure (.err e)
    | .ub => pure .ub
  | .err e => pure (.err e)
  | .ub => pure .ub

/-- cli.c:275-315 `bf_chain_get`. -/
def chainGet (dir : String) : P (Res Got) :=
  withChain dir false <| withCgen dir fun c => do
    let r ← chainGetOpen c
    pure (c, r)

variable {I : K → Prop} {v v0 : K} {dir : String}

/-- Only calls were logged. -/
structure Lg (v0 v : K) : Prop where
  objs : v.objs = v0.objs
  dirs : v.dirs = v0.dirs
  pins : v.pins = v0.pins
  fds : v.fds = v0.fds
  hist : ∃ g, v.hist = g ++ v0.hist

theorem Lg.refl (v : K) : Lg v v := ⟨rfl, rfl, rfl, rfl, ⟨[], rfl⟩⟩

theorem Lg.trans {a b c : K} (h : Lg a b) (h' : Lg b c) : Lg a c :=
  ⟨h'.objs.trans h.objs, h'.dirs.trans h.dirs, h'.pins.trans h.pins, h'.fds.trans h.fds, hist_trans h.hist h'.hist⟩

theorem Lg.one (v : K) (c : Call) (a : Ans) : Lg v (v.log c a) := ⟨rfl, rfl, rfl, rfl, ⟨[_], rfl⟩⟩

theorem Lg.open {ids : List Nat} {v0 v v' : K} (h : Open dir ids v0 v) (hl : Lg v v') : Open dir ids v0 v' :=
  ⟨hl.objs.trans h.objs, hl.dirs.trans h.dirs, hl.pins.trans h.pins, hist_trans h.hist hl.hist, (fun o => by rw [hl.fds]; exact h.fds o), h.pinned⟩

theorem Since.one (v : K) (c : Call) (a : Ans) : Since v (v.log c a) (c, a) := ⟨[], [], rfl⟩

theorem getCounter_safe {Q : Res Ctr → K → Prop} {h : Handle} {m : BMap} {idx : Nat} (hm : h.cmap = some m) (hI : ∀ v', Lg v v' → I v')
    (he : ∀ r v', (∀ c, r ≠ .ok c) → Lg v v' → Q r v')
    (hk : ∀ l v', Lg v v' → Since v v' (.ctrRead m.id idx, .ctrs l) → Q (.ok (sumCtrs l)) v') : Safe I Q (getCounter h idx) v := by
  unfold getCounter
  rw [hm]
  have fin : ∀ r v', (∀ c, r ≠ .ok c) → Lg v v' → I v' ∧ Q r v' := fun r v' hr hl => ⟨hI v' hl, he r v' hr hl⟩
  refine safe_quiet trivial (hI v (.refl v)) (fun e a => fin _ _ (by simp) (.one _ _ _)) fun a => ?_
  have l1 := Lg.one v .alloc a
  refine ⟨hI _ l1, fun b v' hs => ?_⟩
  have e := hs.quiet (by trivial)
  subst e
  have l2 := l1.trans (Lg.one _ (.ctrRead m.id idx) b)
  cases b with
  | ctrs l => exact ⟨hI _ l2, hk l _ l2 ((Since.one _ _ _).earlier l1.hist)⟩
  | _ => exact fin _ _ (by simp) l2

/-- The counters that were read, of rules `rs`. -/
def Loaded (m : Nat) (v0 v : K) (rs : List Rule) (xs : List (Option Ctr)) : Prop :=
  xs.length = rs.length ∧ ∀ (k : Nat) (r : Rule), rs[k]? = some r →
    if r.hasCounters then ∃ l, Since v0 v (.ctrRead m r.index, .ctrs l) ∧ xs[k]? = some (some (sumCtrs l)) else xs[k]? = some none

theorem loadRuleCounters_safe {Q : Res (List (Option Ctr)) → K → Prop} {c : Cgen} {m : BMap} {rs : List Rule} (hm : c.handle.cmap = some m)
    (hI : ∀ v', Lg v v' → I v') (he : ∀ r v', (∀ c, r ≠ .ok c) → Lg v v' → Q r v')
    (hk : ∀ xs v', Lg v v' → Loaded m.id v v' rs xs → Q (.ok xs) v') : Safe I Q (loadRuleCounters c rs) v := by
  induction rs generalizing v Q with
  | nil => exact ⟨hI v (.refl v), hk [] v (.refl v) ⟨rfl, fun k r h => by cases h⟩⟩
  | cons r rs ih =>
    have fin : ∀ r v', (∀ c, r ≠ .ok c) → Lg v v' → I v' ∧ Q r v' := fun r v' hr hl => ⟨hI v' hl, he r v' hr hl⟩
    unfold loadRuleCounters
    split
    · next hc =>
      unfold cgenGetCounter
      dsimp only
      split
      · refine Safe.bind (getCounter_safe hm hI (fun x v' hx hl => ?_) fun l v1 hl1 hs1 => ?_)
        · cases x with
          | ok x => exact absurd rfl (hx x)
          | err e => exact fin _ _ (by simp) hl
          | ub => exact fin _ _ (by simp) hl
        · refine Safe.bind (ih (fun v' hl => hI v' (hl1.trans hl)) (fun x v' hx hl => ?_) fun xs v2 hl2 hx2 => ?_)
          · cases x with
            | ok x => exact absurd rfl (hx x)
            | err e => exact fin _ _ (by simp) (hl1.trans hl)
            | ub => exact fin _ _ (by simp) (hl1.trans hl)
          · refine ⟨hI _ (hl1.trans hl2), hk _ _ (hl1.trans hl2) ⟨by simp [hx2.1], fun k r' hr' => ?_⟩⟩
            cases k with
            | zero => cases hr'; rw [if_pos hc]; exact ⟨l, hs1.later hl2.hist, rfl⟩
            | succ k =>
              have := hx2.2 k r' hr'
              split at this
              · next hc' =>
                obtain ⟨l', a, b⟩ := this
                rw [if_pos hc']
                exact ⟨l', a.earlier hl1.hist, b⟩
              · next hc' => rw [if_neg hc']; exact this
      · exact fin _ _ (by simp) (.refl v)
    · next hc =>
      refine Safe.bind (ih hI (fun x v' hx hl => ?_) fun xs v2 hl2 hx2 => ?_)
      · cases x with
        | ok x => exact absurd rfl (hx x)
        | err e => exact fin _ _ (by simp) hl
        | ub => exact fin _ _ (by simp) hl
      · refine ⟨hI _ hl2, hk _ _ hl2 ⟨by simp [hx2.1], fun k r' hr' => ?_⟩⟩
        cases k with
        | zero => cases hr'; rw [if_neg hc]; rfl
        | succ k => exact hx2.2 k r' hr'

/-- What `bf_chain_get` read, of the counters map `m`. -/
structure GotOk (c : Chain) (h : Handle) (m : Nat) (v0 v : K) (g : Got) : Prop where
  chain : g.chain = c
  opts : g.opts = h.link.map (·.d.opts)
  rules : Loaded m v0 v c.rules g.rules
  policy : ∃ l, Since v0 v (.ctrRead m c.rules.length, .ctrs l) ∧ g.policy = sumCtrs l
  errors : ∃ l, Since v0 v (.ctrRead m (c.rules.length + 1), .ctrs l) ∧ g.errors = sumCtrs l

theorem Loaded.later {m : Nat} {v0 v v' : K} {rs : List Rule} {xs : List (Option Ctr)} (h : Loaded m v0 v rs xs) (hh : ∃ g, v'.hist = g ++ v.hist) :
    Loaded m v0 v' rs xs := by
  refine ⟨h.1, fun k r hr => ?_⟩
  have := h.2 k r hr
  split at this
  · next hc =>
    obtain ⟨l, a, b⟩ := this
    rw [if_pos hc]
    exact ⟨l, a.later hh, b⟩
  · next hc => rw [if_neg hc]; exact this

theorem Loaded.earlier {m : Nat} {v0 v v' : K} {rs : List Rule} {xs : List (Option Ctr)} (h : Loaded m v v' rs xs) (hh : ∃ g, v.hist = g ++ v0.hist) :
    Loaded m v0 v' rs xs := by
  refine ⟨h.1, fun k r hr => ?_⟩
  have := h.2 k r hr
  split at this
  · next hc =>
    obtain ⟨l, a, b⟩ := this
    rw [if_pos hc]
    exact ⟨l, a.earlier hh, b⟩
  · next hc => rw [if_neg hc]; exact this

theorem GotOk.later {c : Chain} {h : Handle} {m : Nat} {v0 v v' : K} {g : Got} (hg : GotOk c h m v0 v g) (hh : ∃ g, v'.hist = g ++ v.hist) :
    GotOk c h m v0 v' g := by
  obtain ⟨l1, a1, b1⟩ := hg.policy
  obtain ⟨l2, a2, b2⟩ := hg.errors
  exact ⟨hg.chain, hg.opts, hg.rules.later hh, ⟨l1, a1.later hh, b1⟩, ⟨l2, a2.later hh, b2⟩⟩

theorem GotOk.earlier {c : Chain} {h : Handle} {m : Nat} {v0 v v' : K} {g : Got} (hg : GotOk c h m v v' g) (hh : ∃ g, v.hist = g ++ v0.hist) :
    GotOk c h m v0 v' g := by
  obtain ⟨l1, a1, b1⟩ := hg.policy
  obtain ⟨l2, a2, b2⟩ := hg.errors
  exact ⟨hg.chain, hg.opts, hg.rules.earlier hh, ⟨l1, a1.earlier hh, b1⟩, ⟨l2, a2.earlier hh, b2⟩⟩

theorem chainGetOpen_safe {Q : Res Got → K → Prop} {c : Chain} {h : Handle} {m : BMap} (hm : h.cmap = some m)
    (hI : ∀ v', Lg v v' → I v') (he : ∀ r v', (∀ c, r ≠ .ok c) → Lg v v' → Q r v')
    (hk : ∀ g v', Lg v v' → GotOk c h m.id v v' g → Q (.ok g) v') : Safe I Q (chainGetOpen ⟨c, h⟩) v := by
  have fin : ∀ r v', (∀ c, r ≠ .ok c) → Lg v v' → I v' ∧ Q r v' := fun r v' hr hl => ⟨hI v' hl, he r v' hr hl⟩
  unfold chainGetOpen
  refine Safe.bind (loadRuleCounters_safe (c := ⟨c, h⟩) hm hI (fun x v' hx hl => ?_) fun xs v1 hl1 hx1 => ?_)
  · cases x with
    | ok x => exact absurd rfl (hx x)
    | err e => exact fin _ _ (by simp) hl
    | ub => exact fin _ _ (by simp) hl
  refine Safe.bind (getCounter_safe (h := h) hm (fun v' hl => hI v' (hl1.trans hl)) (fun x v' hx hl => ?_) fun l v2 hl2 hs2 => ?_)
  · cases x with
    | ok x => exact absurd rfl (hx x)
    | err e => exact fin _ _ (by simp) (hl1.trans hl)
    | ub => exact fin _ _ (by simp) (hl1.trans hl)
  have hl2' := hl1.trans hl2
  refine Safe.bind (getCounter_safe (h := h) hm (fun v' hl => hI v' (hl2'.trans hl)) (fun x v' hx hl => ?_) fun l' v3 hl3 hs3 => ?_)
  · cases x with
    | ok x => exact absurd rfl (hx x)
    | err e => exact fin _ _ (by simp) (hl2'.trans hl)
    | ub => exact fin _ _ (by simp) (hl2'.trans hl)
  have hl3' := hl2'.trans hl3
  have done : ∀ v', Lg v3 v' → I v' ∧ Q (.ok ⟨c, h.link.map (·.d.opts), xs, sumCtrs l, sumCtrs l'⟩) v' := by
    intro v' hl
    refine ⟨hI _ (hl3'.trans hl), hk _ _ (hl3'.trans hl) ⟨rfl, rfl, hx1.later (hl2.trans (hl3.trans hl)).hist,
      ⟨l, (hs2.later (hl3.trans hl).hist).earlier hl1.hist, rfl⟩, ⟨l', (hs3.later hl.hist).earlier hl2'.hist, rfl⟩⟩⟩
  dsimp only
  cases hlk : h.link with
  | none => rw [hlk] at done; exact done v3 (.refl _)
  | some lk =>
    rw [hlk] at done
    refine safe_quiet trivial (hI _ hl3') (fun e a => fin _ _ (by simp) (hl3'.trans (.one _ _ _))) fun a => ?_
    exact done _ (.one _ _ _)

theorem chainGet_safe {Q : Res Got → K → Prop} {c : Chain} {h : Handle} {m : BMap} (hw : v.Wf) (hs : Stored v dir c h) (hm : h.cmap = some m)
    (hI : ∀ v' ids, Open dir ids v v' → I v') (he : ∀ r v', (∀ g, r ≠ .ok g) → Open dir [] v v' → Q r v')
    (hk : ∀ g v', Open dir [] v v' → GotOk c h m.id v v' g → Q (.ok g) v') : Safe I Q (chainGet dir) v := by
  refine withStored_safe hw hs hI he fun v1 ho1 _ => ?_
  have tail : ∀ (r : Res Got) v', Open dir h.ids v v' → (∀ v'', Open dir [] v v'' → (∃ g, v''.hist = g ++ v'.hist) → Q r v'') →
      Safe I (fun _ v'' => Safe I Q (do void (.release dir false); pure r) v'') (cgenFree ⟨c, h⟩) v' := by
    intro r v' ho hq
    refine closeAll_open (ids := []) (by rw [List.append_nil]; exact ho) hI fun v2 ho2 hh2 => ?_
    refine safe_void (hI _ _ ho2) fun a v3 hs3 => ?_
    obtain ⟨x, b, c1, _⟩ := (ho2.stored hs).ctx
    rw [hs3.release_some c1]
    refine ⟨hI _ _ (ho2.log _ _), hq _ (ho2.log _ _) ?_⟩
    obtain ⟨g, e⟩ := hh2
    exact ⟨_ :: g, by simp [e]; rfl⟩
  refine Safe.bind (chainGetOpen_safe hm (fun v' hl => hI v' _ (hl.open ho1)) (fun r v' hr hl => ?_) fun g v' hl hg => ?_)
  · exact ⟨hI _ _ (hl.open ho1), tail r v' (hl.open ho1) fun v'' ho _ => he r v'' hr ho⟩
  · exact ⟨hI _ _ (hl.open ho1), tail (.ok g) v' (hl.open ho1) fun v'' ho hh => hk g v'' ho ((hg.later hh).earlier ho1.hist)⟩

theorem Step.hist {w w' : K} {c : Call} {a : Ans} (h : Step w c a w') : w'.hist = (c, a) :: w.hist := by
  cases h with
  | fail => rfl
  | ok h =>
    have : ∀ {w w1 : K} {c : Call} {a : Ans}, w.ok c = some (a, w1) → w1.hist = w.hist := by
      intro w w1 c a h
      cases c <;> simp only [K.ok] at h <;> first
        | (cases h; rfl)
        | (split at h <;> first | (cases h; rfl) | (cases h) | (split at h <;> first | (cases h; rfl) | (cases h)))
    show _ :: _ = _
    rw [this h]

theorem Packets.hist {w w' : K} (h : Packets w w') : w'.hist = w.hist := by rw [h.same]

theorem Run.hist {α : Type} {w w' : K} {p p' : P α} (h : Run w p w' p') : ∃ g, w'.hist = g ++ w.hist := by
  induction h with
  | refl => exact ⟨[], rfl⟩
  | packets hp _ ih =>
    obtain ⟨g, e⟩ := ih
    exact ⟨g, by rw [e, hp.hist]⟩
  | step hs _ ih =>
    obtain ⟨g, e⟩ := ih
    exact ⟨g ++ [_], by rw [e, hs.hist, List.append_assoc]; rfl⟩

/-- A read of a counter, in the history, was made at some instant, and gave what the map held then. -/
theorem Run.read {α : Type} {w w' : K} {p p' : P α} {m i : Nat} {l : List Ctr} (h : Run w p w' p') (hs : Since w w' (.ctrRead m i, .ctrs l)) :
    ∃ w1 p1 f, Run w p w1 p1 ∧ Run w1 p1 w' p' ∧ w1.objs[m]? = some (.map (.counters f)) ∧ f i = l := by
  induction h with
  | refl =>
    obtain ⟨g1, g2, e⟩ := hs
    have := congrArg List.length e
    simp at this
    omega
  | packets hp _ ih =>
    obtain ⟨w1, p1, f, h1, h2, h3, h4⟩ := ih (by obtain ⟨g1, g2, e⟩ := hs; exact ⟨g1, g2, by rw [e, hp.hist]⟩)
    exact ⟨w1, p1, f, .packets hp h1, h2, h3, h4⟩
  | step hst hr ih =>
    rename_i wa wb wc c k a p'
    by_cases hsi : Since wb wc (.ctrRead m i, .ctrs l)
    · obtain ⟨w1, p1, f, h1, h2, h3, h4⟩ := ih hsi
      exact ⟨w1, p1, f, .step hst h1, h2, h3, h4⟩
    · obtain ⟨g1, g2, e⟩ := hs
      obtain ⟨g, e'⟩ := hr.hist
      rw [hst.hist, e] at e'
      have e2 : g1 ++ (.ctrRead m i, .ctrs l) :: g2 = g ++ [(c, a)] := by
        have : (g1 ++ (.ctrRead m i, .ctrs l) :: g2) ++ wa.hist = (g ++ [(c, a)]) ++ wa.hist := by simpa using e'
        exact List.append_cancel_right this
      have hlast : (c, a) = (.ctrRead m i, .ctrs l) := by
        rcases List.eq_nil_or_concat g2 with rfl | ⟨g3, x, rfl⟩
        · have := congrArg List.getLast? e2
          simp at this
          exact Prod.ext this.1.symm this.2.symm
        · exfalso
          apply hsi
          have e3 : x = (c, a) := by
            have := congrArg List.getLast? e2
            simp [List.getLast?_cons, List.getLast?_append] at this
            exact this
          subst e3
          refine ⟨g1, g3, ?_⟩
          rw [e, hst.hist]
          simp
      cases hlast
      cases hst with
      | ok h =>
        simp only [K.ok] at h
        split at h
        · next f hf => cases h; exact ⟨wa, _, f, .refl, .step (.ok (by simp only [K.ok, hf])) hr, hf, rfl⟩
        · cases h

end Bf.Pin
