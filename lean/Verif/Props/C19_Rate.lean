import Verif.Props.C20_Log
import Verif.Machine.Smp
/-!
# C19: log rate limiting
-/
namespace Bf
open Spec

variable {E : Env} {chain : Chain} {thr : Nat → BitVec 32} {img : List Insn} {w w' wk : World} {r : BitVec 64}
  {c : Sem} {rules : List Rule} {k m : Nat} {clk : Nat → BitVec 64}

/-- Entries of rule `k` among log entries. -/
def entriesOf (k : Nat) (l : List LogRec) : List LogRec := l.filter fun e => e.ruleId = BitVec.ofNat 32 k

/-- What happened to rule `k` between two states: nothing, or it decided to log at clock read `n`; the entry, if there
was room for it, is dated by the next clock read. -/
def Rated (clk : Nat → BitVec 64) (T k : Nat) (w w' : World) : Prop :=
  ∃ new, w'.logs = w.logs ++ new ∧ w.clk ≤ w'.clk ∧
    ((w'.state k = w.state k ∧ entriesOf k new = []) ∨
     ∃ n, w.clk ≤ n ∧ n < w'.clk ∧ w'.state k = clk n ∧ T ≤ (clk n - w.state k).toNat ∧
      (entriesOf k new = [] ∨ ∃ e, entriesOf k new = [e] ∧ e.ts = clk (n + 1)))

/-- Entries name the rule they come from and when. -/
def Dated (c : Sem) : Prop := ∀ q t, (c.entry q t).ruleId = BitVec.ofNat 32 q.index ∧ (c.entry q t).ts = t

theorem Sees.dated (h : Sees E chain thr c) : Dated c := by
  cases h <;> exact fun q t => ⟨rfl, rfl⟩

theorem ofNat_ne {a b : Nat} (h : a ≠ b) (ha : a < 2 ^ 32) (hb : b < 2 ^ 32) : BitVec.ofNat 32 a ≠ BitVec.ofNat 32 b := by
  intro e
  have := congrArg BitVec.toNat e
  simp only [BitVec.toNat_ofNat] at this
  omega

/-- A rule's actions, seen from the log: a possible new entry, the state of the rule, the clock. -/
theorem actions_log (c : Sem) (q : Rule) (w : World) :
    (Wants c q w → (actions c q w).logs = w.logs ++ (if c.kernel.ringOk w.ring then [c.entry q (logTime c q w)] else []) ∧
      (q.rate ≠ 0 → (actions c q w).state q.index = c.kernel.clk w.clk) ∧
      (actions c q w).clk = w.clk + (if q.rate = 0 then 0 else 1) + (if c.kernel.ringOk w.ring then 1 else 0)) ∧
    (¬ Wants c q w → (actions c q w).logs = w.logs ∧ (actions c q w).state = w.state ∧ w.clk ≤ (actions c q w).clk) ∧
    (∀ j, j ≠ q.index → (actions c q w).state j = w.state j) := by
  rw [actions_logs, actions_state, actions_clk]
  generalize hw1 : (if q.mark >>> 32 ≠ 0 then { w with mark := q.mark.setWidth 32 } else w : World) = w1
  have e1 : w1.logs = w.logs ∧ w1.ring = w.ring ∧ w1.clk = w.clk ∧ w1.state = w.state := by
    rw [← hw1]; split <;> exact ⟨rfl, rfl, rfl, rfl⟩
  obtain ⟨a, b, d, e⟩ := e1
  refine ⟨fun h => ?_, fun h => ?_, fun j hj => ?_⟩
  · obtain ⟨_, h2, h3, h4⟩ := logAction_wants ((wants_congr d e).mpr h)
    rw [a, b, show logTime c q w1 = logTime c q w by unfold logTime; rw [d]] at h2
    rw [d] at h3
    rw [d, b] at h4
    exact ⟨h2, h3, h4⟩
  · obtain ⟨_, h2, h3, h4⟩ := logAction_not (fun h' => h ((wants_congr d e).mp h'))
    rw [a] at h2
    rw [e] at h3
    rw [d] at h4
    exact ⟨h2, h3, by rw [h4]; omega⟩
  · rw [(logAction_keeps c q w1).2.2.2.2 j hj, e]

theorem Rated.refl (clk : Nat → BitVec 64) (T k : Nat) (w : World) : Rated clk T k w w :=
  ⟨[], by simp, Nat.le_refl _, Or.inl ⟨rfl, rfl⟩⟩

/-- A step that does not concern rule `k`. -/
theorem Rated.other {T : Nat} {w1 : World} (h : Rated clk T k w wk) {new : List LogRec} (h1 : w1.logs = wk.logs ++ new)
    (h2 : wk.clk ≤ w1.clk) (h3 : w1.state k = wk.state k) (h4 : entriesOf k new = []) : Rated clk T k w w1 := by
  obtain ⟨old, a, b, d⟩ := h
  refine ⟨old ++ new, by rw [h1, a, List.append_assoc], by omega, ?_⟩
  have e : entriesOf k (old ++ new) = entriesOf k old := by
    unfold entriesOf at h4 ⊢; rw [List.filter_append, h4, List.append_nil]
  rw [e, h3]
  rcases d with d | ⟨n, d1, d2, d⟩
  · exact Or.inl d
  · exact Or.inr ⟨n, d1, by omega, d⟩

/-- Rule `k` acts, after nothing happened to it. -/
theorem Rated.here {T : Nat} {q : Rule} {w1 : World} (hd : Dated c) (hclk : c.kernel.clk = clk) (hq : q.index = k) (hlog : q.log ≠ 0)
    (hT : q.rate.toNat = T) (hT0 : T ≠ 0) {old : List LogRec}
    (h1 : w1.logs = w.logs ++ old) (h2 : w.clk ≤ w1.clk) (h3 : w1.state k = w.state k) (h4 : entriesOf k old = []) :
    Rated clk T k w (actions c q w1) := by
  have hr0 : q.rate ≠ 0 := by intro e; rw [e] at hT; simp at hT; omega
  obtain ⟨a1, a2, _⟩ := actions_log c q w1
  by_cases hw : Wants c q w1
  · obtain ⟨b1, b2, b3⟩ := a1 hw
    have b2 := b2 hr0
    rw [if_neg hr0] at b3
    refine ⟨old ++ (if c.kernel.ringOk w1.ring then [c.entry q (logTime c q w1)] else []), ?_, by omega, Or.inr ⟨w1.clk, h2, by omega, ?_, ?_, ?_⟩⟩
    · rw [b1, h1, List.append_assoc]
    · rw [← hq, b2, hclk]
    · have := hw.2.resolve_left hr0
      rw [hclk, hq, h3, hT] at this
      exact this
    · unfold entriesOf at h4 ⊢
      rw [List.filter_append, h4, List.nil_append]
      split
      · right
        refine ⟨c.entry q (logTime c q w1), ?_, (hd q (logTime c q w1)).2.trans ?_⟩
        · rw [List.filter_cons, if_pos (by simp [(hd q _).1, hq])]; rfl
        · unfold logTime; rw [if_neg hr0, hclk]
      · left; rfl
  · obtain ⟨b1, b2, b3⟩ := a2 hw
    refine ⟨old, by rw [b1, h1], by omega, Or.inl ⟨by rw [b2, h3], h4⟩⟩

/-- Rule `k`, up to rule `m`: nothing happens to it before it is evaluated. -/
theorem reaches_rated {T : Nat} {q : Rule} (hd : Dated c) (hclk : c.kernel.clk = clk)
    (hidx : ∀ (i : Nat) (r : Rule), rules[i]? = some r → r.index = i) (hlen : rules.length ≤ 2 ^ 32)
    (hq : rules[k]? = some q) (hlog : q.log ≠ 0) (hT : q.rate.toNat = T) (hT0 : T ≠ 0) (h : Reaches c rules w m wk) :
    Rated clk T k w wk ∧ (m ≤ k → wk.state k = w.state k ∧ ∃ old, wk.logs = w.logs ++ old ∧ entriesOf k old = []) ∧ w.clk ≤ wk.clk := by
  induction h with
  | first => exact ⟨.refl .., fun _ => ⟨rfl, [], by simp, rfl⟩, Nat.le_refl _⟩
  | skip h1 h2 h3 ih =>
    rename_i m n q' wm
    obtain ⟨i1, i2, i3⟩ := ih
    refine ⟨i1.other (new := []) (by simp) (Nat.le_refl _) rfl rfl, fun hm => i2 (by omega), i3⟩
  | goOn h1 h2 h3 h4 ih =>
    rename_i m q' wm
    obtain ⟨i1, i2, i3⟩ := ih
    have hm := (List.getElem?_eq_some_iff.mp h2).1
    have hk := (List.getElem?_eq_some_iff.mp hq).1
    by_cases e : m = k
    · subst e
      rw [hq] at h2; cases h2
      obtain ⟨j1, old, j2, j3⟩ := i2 (Nat.le_refl _)
      have := Rated.here (w := w) (w1 := World.drew wm (draws q.matchers)) hd hclk (hidx _ _ hq) hlog hT hT0 (old := old) j2 i3 j1 j3
      refine ⟨this, fun h => by omega, ?_⟩
      obtain ⟨_, _, h, _⟩ := this
      exact h
    · have hne := ofNat_ne e (by omega) (by omega)
      have hi := hidx _ _ h2
      obtain ⟨a1, a2, a3⟩ := actions_log c q' (World.drew wm (draws q'.matchers))
      have hst := a3 k (by omega)
      have key : ∃ new, (actions c q' (World.drew wm (draws q'.matchers))).logs = wm.logs ++ new ∧ entriesOf k new = [] ∧
          wm.clk ≤ (actions c q' (World.drew wm (draws q'.matchers))).clk := by
        by_cases hw : Wants c q' (World.drew wm (draws q'.matchers))
        · obtain ⟨b1, _, b3⟩ := a1 hw
          refine ⟨_, b1, ?_, by rw [b3]; simp only [drew_clk]; omega⟩
          split
          · unfold entriesOf
            rw [List.filter_cons, if_neg (by simp only [(hd q' _).1, hi, decide_eq_true_eq]; exact hne)]
            rfl
          · rfl
        · obtain ⟨b1, _, b3⟩ := a2 hw
          exact ⟨[], by rw [b1]; simp, rfl, b3⟩
      obtain ⟨new, n1, n2, n3⟩ := key
      refine ⟨i1.other n1 n3 hst n2, fun hmk => ?_, by omega⟩
      obtain ⟨j1, old, j2, j3⟩ := i2 (by omega)
      refine ⟨by rw [hst]; exact j1, old ++ new, by rw [n1, j2, List.append_assoc], ?_⟩
      unfold entriesOf at n2 j3 ⊢
      rw [List.filter_append, n2, j3]; rfl

/-- A whole evaluation. -/
theorem decides_rated {T : Nat} {q : Rule} {policy : Verdict} (hd : Dated c) (hclk : c.kernel.clk = clk)
    (hidx : ∀ (i : Nat) (r : Rule), rules[i]? = some r → r.index = i) (hlen : rules.length ≤ 2 ^ 32)
    (hq : rules[k]? = some q) (hlog : q.log ≠ 0) (hT : q.rate.toNat = T) (hT0 : T ≠ 0)
    (h : Decides c policy rules w r w') : Rated clk T k w w' := by
  cases h with
  | policy h1 => exact ((reaches_rated hd hclk hidx hlen hq hlog hT hT0 h1).1).other (new := []) (by simp) (Nat.le_refl _) rfl rfl
  | rule h1 h2 h3 h4 =>
    rename_i m q' wm
    -- as if the rule had verdict CONTINUE
    have e : ∀ w0 : World, (ruleEnd q' w0).logs = w0.logs ∧ (ruleEnd q' w0).clk = w0.clk ∧ (ruleEnd q' w0).state = w0.state := by
      intro w0; unfold ruleEnd; split <;> exact ⟨rfl, rfl, rfl⟩
    obtain ⟨i1, i2, i3⟩ := reaches_rated hd hclk hidx hlen hq hlog hT hT0 h1
    have hact : Rated clk T k w (actions c q' (World.drew wm (draws q'.matchers))) := by
      have hm := (List.getElem?_eq_some_iff.mp h2).1
      have hk := (List.getElem?_eq_some_iff.mp hq).1
      by_cases e : m = k
      · subst e
        rw [hq] at h2; cases h2
        obtain ⟨j1, old, j2, j3⟩ := i2 (Nat.le_refl _)
        exact Rated.here (w := w) (w1 := World.drew wm (draws q.matchers)) hd hclk (hidx _ _ hq) hlog hT hT0 (old := old) j2 i3 j1 j3
      · have hne := ofNat_ne e (by omega) (by omega)
        have hi := hidx _ _ h2
        obtain ⟨a1, a2, a3⟩ := actions_log c q' (World.drew wm (draws q'.matchers))
        have hst := a3 k (by omega)
        by_cases hw : Wants c q' (World.drew wm (draws q'.matchers))
        · obtain ⟨b1, _, b3⟩ := a1 hw
          refine i1.other b1 (by rw [b3]; simp only [drew_clk]; omega) hst ?_
          split
          · unfold entriesOf
            rw [List.filter_cons, if_neg (by simp only [(hd q' _).1, hi, decide_eq_true_eq]; exact hne)]
            rfl
          · rfl
        · obtain ⟨b1, _, b3⟩ := a2 hw
          exact i1.other (new := []) (by rw [b1]; simp) b3 hst rfl
    obtain ⟨e1, e2, e3⟩ := e (actions c q' (World.drew wm (draws q'.matchers)))
    exact hact.other (new := []) (by rw [e1]; simp) (by rw [e2]; exact Nat.le_refl _) (by rw [e3]) rfl

/-- A history of packets, one after the other, through the program of a chain.  Between two packets, time passes, counters
and packet attributes change; the log and the rate-limit state of the chain don't. -/
inductive Traffic (chain : Chain) (thr : Nat → BitVec 32) (clk : Nat → BitVec 64) (w : World) : World → Prop
  | start : Traffic chain thr clk w w
  | packet {w1 w2 w3 : World} {E : Env} {img : List Insn} {r : BitVec 64} : Traffic chain thr clk w w1 →
      w2.logs = w1.logs → w2.state = w1.state → w1.clk ≤ w2.clk →
      IsLoaded E chain thr img → E.clk = clk → Runs E img w2 r w3 → Traffic chain thr clk w w3

/-- **C19**, for packets processed one after the other.  Whatever the packets, the entries a rule with `log every T` adds to the
log are decided at least `T` apart: there are clock reads `d`, at least `T` apart, such that the entries are dated by
the clock read following each.  So an entry is dated at least `T` after the decision to log the previous one. -/
theorem C19_spacing_partial {q : Rule} {T : Nat} (hmono : ∀ i j, i ≤ j → (clk i).toNat ≤ (clk j).toNat)
    (hapi : ApiChain chain) (hlen : chain.rules.length ≤ 2 ^ 32)
    (hq : chain.rules[k]? = some q) (hlog : q.log ≠ 0) (hT : q.rate.toNat = T) (hT0 : T ≠ 0)
    (hw : (w.state k).toNat ≤ (clk w.clk).toNat) (h : Traffic chain thr clk w w') :
    ∃ (new : List LogRec) (ds : List Nat), w'.logs = w.logs ++ new ∧ (entriesOf k new).map (·.ts) = ds.map (fun n => clk (n + 1)) ∧
      ds.Pairwise (fun a b => a < b ∧ (clk a).toNat + T ≤ (clk b).toNat) := by
  have key : ∃ (new : List LogRec) (ds : List Nat), w'.logs = w.logs ++ new ∧ (entriesOf k new).map (·.ts) = ds.map (fun n => clk (n + 1)) ∧
      ds.Pairwise (fun a b => a < b ∧ (clk a).toNat + T ≤ (clk b).toNat) ∧
      (∀ d ∈ (ds : List Nat), d < w'.clk ∧ (clk d).toNat ≤ (w'.state k).toNat) ∧ (w'.state k).toNat ≤ (clk w'.clk).toNat := by
    induction h with
    | start => exact ⟨[], [], by simp, rfl, by simp, by simp, hw⟩
    | packet h1 h2 h3 h4 h5 h6 h7 ih =>
      rename_i w1 w2 w3 E img r
      obtain ⟨new, ds, i1, i2, i3, i4, i5⟩ := ih
      have hrat : Rated clk T k w2 w3 := by
        rcases h5.outcome h7 with ⟨hu, e⟩ | ⟨c, hc, hd⟩
        · have := congrArg Prod.snd e
          simp only at this
          subst this
          exact ⟨[], by simp [evalError], Nat.le_refl _, Or.inl ⟨rfl, rfl⟩⟩
        · refine decides_rated hc.dated ?_ hapi.ok.index hlen hq hlog hT hT0 hd
          rw [hc.kernel, ← h6]; rfl
      obtain ⟨add, j1, j2, j3⟩ := hrat
      have hst : (w2.state k).toNat ≤ (clk w2.clk).toNat := by
        rw [h3]; exact Nat.le_trans i5 (hmono _ _ h4)
      have happ : ∀ l1 l2 : List LogRec, entriesOf k (l1 ++ l2) = entriesOf k l1 ++ entriesOf k l2 := by
        intro l1 l2; unfold entriesOf; rw [List.filter_append]
      refine ⟨new ++ add, ?_⟩
      rcases j3 with ⟨s1, s2⟩ | ⟨n, n1, n2, n3, n4, n5⟩
      · refine ⟨ds, by rw [j1, h2, i1, List.append_assoc], by rw [happ, s2, List.append_nil, i2], i3, ?_, ?_⟩
        · intro d hd
          rw [s1, h3]
          exact ⟨by have := (i4 d hd).1; omega, (i4 d hd).2⟩
        · rw [s1]; exact Nat.le_trans hst (hmono _ _ j2)
      · have hle : (w2.state k).toNat ≤ (clk n).toNat := Nat.le_trans hst (hmono _ _ n1)
        rw [BitVec.toNat_sub_of_le (by rw [BitVec.le_def]; exact hle)] at n4
        have hlast : ∀ d ∈ ds, d < n ∧ (clk d).toNat + T ≤ (clk n).toNat := by
          intro d hd
          have := i4 d hd
          rw [← h3] at this
          exact ⟨by omega, by omega⟩
        have hst' : (w3.state k).toNat ≤ (clk w3.clk).toNat := by rw [n3]; exact hmono _ _ (by omega)
        rcases n5 with n5 | ⟨e, n5, n6⟩
        · refine ⟨ds, by rw [j1, h2, i1, List.append_assoc], by rw [happ, n5, List.append_nil, i2], i3, ?_, hst'⟩
          intro d hd
          have := hlast d hd
          rw [n3]
          exact ⟨by omega, by omega⟩
        · refine ⟨ds ++ [n], by rw [j1, h2, i1, List.append_assoc], ?_, ?_, ?_, hst'⟩
          · rw [happ, n5, List.map_append, List.map_append, i2]
            simp [n6]
          · refine List.pairwise_append.mpr ⟨i3, by simp, ?_⟩
            intro a ha b hb
            simp only [List.mem_singleton] at hb
            subst hb
            exact hlast a ha
          · intro d hd
            rw [n3]
            rcases List.mem_append.mp hd with hd | hd
            · have := hlast d hd
              exact ⟨by omega, by omega⟩
            · simp only [List.mem_singleton] at hd
              subst hd
              exact ⟨n2, Nat.le_refl _⟩
  obtain ⟨new, ds, a, b, d, _⟩ := key
  exact ⟨new, ds, a, b, d⟩

/-- **C19**, exactly, when taking the date of an entry takes no time after deciding to log it: two entries of the rule are
dated at least `T` apart. -/
theorem C19_exact_partial {q : Rule} {T : Nat} (hmono : ∀ i j, i ≤ j → (clk i).toNat ≤ (clk j).toNat)
    (hapi : ApiChain chain) (hlen : chain.rules.length ≤ 2 ^ 32)
    (hq : chain.rules[k]? = some q) (hlog : q.log ≠ 0) (hT : q.rate.toNat = T) (hT0 : T ≠ 0)
    (hw : (w.state k).toNat ≤ (clk w.clk).toNat) (h : Traffic chain thr clk w w') {delay : Nat}
    (hdelay : ∀ i, (clk (i + 1)).toNat ≤ (clk i).toNat + delay) :
    ∃ new, w'.logs = w.logs ++ new ∧ (entriesOf k new).Pairwise (fun a b => a.ts.toNat + T ≤ b.ts.toNat + delay) := by
  obtain ⟨new, ds, h1, h2, h3⟩ := C19_spacing_partial hmono hapi hlen hq hlog hT hT0 hw h
  refine ⟨new, h1, ?_⟩
  have : ((entriesOf k new).map (·.ts)).Pairwise (fun a b => a.toNat + T ≤ b.toNat + delay) := by
    rw [h2, List.pairwise_map]
    refine h3.imp fun {a b} hab => ?_
    have := hdelay a
    have := hmono b (b + 1) (by omega)
    omega
  rw [List.pairwise_map] at this
  exact this

/-! ### Examples -/

example : ∃ img r w', IsLoaded (envOf Sample.base Sample.chain) Sample.chain Sample.thr img ∧
    Runs (envOf Sample.base Sample.chain) img Sample.w0 r w' ∧
    Traffic Sample.chain Sample.thr Sample.base.clk Sample.w0 w' ∧ (entriesOf 0 w'.logs).length = 1 ∧
    (∃ q, Sample.chain.rules[0]? = some q ∧ q.log ≠ 0 ∧ q.rate.toNat = 1000) := by
  obtain ⟨img, r, w', h1, h2, h3⟩ := Sample.runs_result (base := Sample.base) (w := Sample.w0)
    (P := fun _ w' => decide ((entriesOf 0 w'.logs).length = 1)) Sample.api Sample.matchers Sample.sets (by decide) (by decide)
    (by intro h; cases h) (by decide +kernel)
  exact ⟨img, r, w', h1, h2, .packet .start rfl rfl (Nat.le_refl _) h1 rfl h2, by simpa using h3, _, rfl, by decide, by decide⟩

/-- The sample packet on two processors, following a schedule. -/
def Sample.smp (sch : List Bool) : Option World :=
  match compile Sample.chain Sample.thr slen stdFds with
  | .ok img =>
    match interleave (envOf base Sample.chain) (envOf base Sample.chain) img sch w0
      (.running 0 (initSt (envOf base Sample.chain) w0)) (.running 0 (initSt (envOf base Sample.chain) w0)) with
    | (w, .done _, .done _) => some w
    | _ => none
  | _ => none

/-- **C19 fails for packets processed at the same time** (findings 15): the rule logs at most once every 1000 ns, two
processors match it at the same time, and it logs twice within 2 ns: each read the state before the other
wrote it. -/
theorem C19_fails_concurrent : ∃ (sch : List Bool) (w : World) (a b : LogRec),
    Sample.smp sch = some w ∧ entriesOf 0 w.logs = [a, b] ∧ a.ts.toNat ≤ b.ts.toNat ∧ b.ts.toNat < a.ts.toNat + 1000 ∧
    (∃ q, Sample.chain.rules[0]? = some q ∧ q.log ≠ 0 ∧ q.rate.toNat = 1000) := by
  have h : (match Sample.smp (List.replicate 80 true ++ List.replicate 200 false ++ List.replicate 200 true) with
      | some w => match entriesOf 0 w.logs with
        | [a, b] => decide (a.ts.toNat ≤ b.ts.toNat ∧ b.ts.toNat < a.ts.toNat + 1000)
        | _ => false
      | none => false) = true := by decide +kernel
  revert h
  cases h1 : Sample.smp (List.replicate 80 true ++ List.replicate 200 false ++ List.replicate 200 true) with
  | none => intro h; cases h
  | some w =>
    dsimp only
    split
    · rename_i a b h2
      intro h
      obtain ⟨h3, h4⟩ := of_decide_eq_true h
      exact ⟨_, w, a, b, h1, h2, h3, h4, _, rfl, by decide, by decide⟩
    · intro h; cases h

end Bf
