import Verif.User.Names
/-!
# C38: conversions between values and names
-/
namespace Bf

theorem fromTable_ok {α : Type} {eq : String → String → Bool} {strs : List (Option String)} {vals : List α} {s : String} {a : α}
    (hd : ∀ (i j : Nat) (n m : String), strs[i]? = some (some n) → strs[j]? = some (some m) → eq n s = true → eq m s = true → i = j)
    (hl : strs.length = vals.length) :
    fromTable eq strs vals s = .ok a ↔ ∃ (i : Nat) (n : String), strs[i]? = some (some n) ∧ vals[i]? = some a ∧ eq n s = true := by
  unfold fromTable
  cases hf : strs.findIdx? (fun o => match o with | some n => eq n s | none => false) with
  | none =>
    rw [List.findIdx?_eq_none_iff] at hf
    constructor
    · intro h; cases h
    · rintro ⟨i, n, h1, _, h3⟩
      have := hf _ (List.mem_of_getElem? h1)
      simp only [h3] at this
      cases this
  | some i =>
    rw [List.findIdx?_eq_some_iff_getElem] at hf
    obtain ⟨hi, h1, h2⟩ := hf
    have hi' : i < vals.length := hl ▸ hi
    have hv := List.getElem?_eq_getElem hi'
    simp only [hv]
    cases hs : strs[i] with
    | none => rw [hs] at h1; cases h1
    | some n =>
      rw [hs] at h1
      have hn : strs[i]? = some (some n) := by rw [List.getElem?_eq_getElem hi, hs]
      constructor
      · intro h
        cases h
        exact ⟨i, n, hn, hv, h1⟩
      · rintro ⟨j, m, h3, h4, h5⟩
        have := hd i j n m hn h3 h1 h5
        subst this
        rw [hv] at h4
        cases h4
        rfl

theorem fromTable_noub {α : Type} {eq : String → String → Bool} {strs : List (Option String)} {vals : List α} {s : String}
    (hl : strs.length = vals.length) : fromTable eq strs vals s = .err .EINVAL ∨ ∃ a, fromTable eq strs vals s = .ok a := by
  unfold fromTable
  cases hf : strs.findIdx? (fun o => match o with | some n => eq n s | none => false) with
  | none => exact .inl rfl
  | some i =>
    rw [List.findIdx?_eq_some_iff_getElem] at hf
    obtain ⟨hi, _⟩ := hf
    right
    have hi' : i < vals.length := hl ▸ hi
    simp only [List.getElem?_eq_getElem hi']
    exact ⟨_, rfl⟩

theorem toTable_eq {α : Type} [DecidableEq α] {strs : List (Option String)} {vals : List α} {a : α} {n : String} (hn : vals.Nodup) :
    toTable strs vals a = some n ↔ ∃ i : Nat, vals[i]? = some a ∧ strs[i]? = some (some n) ∨ a ∉ vals ∧ strs[vals.length]? = some (some n) := by
  unfold toTable
  by_cases ha : a ∈ vals
  · have hi := List.idxOf_lt_length_of_mem ha
    have he : vals[vals.idxOf a]? = some a := by rw [List.getElem?_eq_getElem hi]; simp
    constructor
    · intro h
      refine ⟨vals.idxOf a, .inl ⟨he, ?_⟩⟩
      split at h
      · next o ho => rw [ho, h]
      · cases h
    · rintro ⟨i, ⟨h1, h2⟩ | ⟨h1, _⟩⟩
      · obtain ⟨h3, h4⟩ := List.getElem?_eq_some_iff.mp h1
        have : vals.idxOf a = i := by
          rw [← h4]
          exact hn.idxOf_getElem i h3
        rw [this, h2]
      · exact absurd ha h1
  · rw [List.idxOf_eq_length ha]
    constructor
    · intro h
      refine ⟨0, .inr ⟨ha, ?_⟩⟩
      split at h
      · next o ho => rw [ho, h]
      · cases h
    · rintro ⟨i, ⟨h1, _⟩ | ⟨_, h2⟩⟩
      · exact absurd (List.mem_of_getElem? h1) ha
      · rw [h2]

/-- What C38 says of a pair of conversions, strings being compared through `norm` (identity, or lower case): the
string of each value is read back as this value, two values have different strings, and a string is read if and
only if it is the string of a value. -/
structure Names {α : Type} (norm : String → List Char) (toStr : α → Option String) (fromStr : String → Res α) : Prop where
  accepts : ∀ (s : String) (a : α), fromStr s = .ok a ↔ ∃ n, toStr a = some n ∧ norm s = norm n
  refuses : ∀ s, (¬ ∃ (a : α) (n : String), toStr a = some n ∧ norm s = norm n) → fromStr s = .err .EINVAL

theorem Names.round {α : Type} {norm : String → List Char} {toStr : α → Option String} {fromStr : String → Res α}
    (h : Names norm toStr fromStr) {a : α} {n : String} (hn : toStr a = some n) : fromStr n = .ok a :=
  (h.accepts n a).mpr ⟨n, hn, rfl⟩

theorem Names.inj {α : Type} {norm : String → List Char} {toStr : α → Option String} {fromStr : String → Res α}
    (h : Names norm toStr fromStr) {a b : α} {n m : String} (hn : toStr a = some n) (hm : toStr b = some m)
    (he : norm n = norm m) : a = b := by
  have h1 := (h.accepts n a).mpr ⟨n, hn, rfl⟩
  have h2 := (h.accepts n b).mpr ⟨m, hm, he⟩
  rw [h1] at h2
  cases h2
  rfl

/-- The entries of a table, in order. -/
def entries (norm : String → List Char) (strs : List (Option String)) : List (List Char) := strs.filterMap fun o => o.map norm

theorem entries_inj {norm : String → List Char} {strs : List (Option String)} (h : (entries norm strs).Nodup) {i j : Nat}
    {n m : String} (hi : strs[i]? = some (some n)) (hj : strs[j]? = some (some m)) (he : norm n = norm m) : i = j := by
  induction strs generalizing i j with
  | nil => cases hi
  | cons o l ih =>
    have key : ∀ {k : Nat} {x : String}, l[k]? = some (some x) → norm x ∈ entries norm l := by
      intro k x hk
      unfold entries
      rw [List.mem_filterMap]
      exact ⟨some x, List.mem_of_getElem? hk, rfl⟩
    have hl : (entries norm l).Nodup := by
      unfold entries at h ⊢
      cases o with
      | none => simpa using h
      | some x => simp only [List.filterMap_cons, Option.map_some, List.nodup_cons] at h; exact h.2
    have hx : ∀ x, o = some x → norm x ∉ entries norm l := by
      rintro x rfl
      unfold entries at h ⊢
      simp only [List.filterMap_cons, Option.map_some, List.nodup_cons] at h
      exact h.1
    cases i with
    | zero =>
      cases j with
      | zero => rfl
      | succ j =>
        simp only [List.getElem?_cons_zero, List.getElem?_cons_succ, Option.some.injEq] at hi hj
        exact absurd (he ▸ key hj) (hx n hi)
    | succ i =>
      cases j with
      | zero =>
        simp only [List.getElem?_cons_zero, List.getElem?_cons_succ, Option.some.injEq] at hi hj
        exact absurd (he ▸ key hi) (hx m hj)
      | succ j =>
        simp only [List.getElem?_cons_succ] at hi hj
        rw [ih hl hi hj]

theorem Names.ofTable {α : Type} [DecidableEq α] {norm : String → List Char} {eq : String → String → Bool}
    {strs : List (Option String)} {vals : List α} (heq : ∀ n s, eq n s = true ↔ norm s = norm n)
    (hl : strs.length = vals.length) (hv : vals.Nodup) (hs : (entries norm strs).Nodup) :
    Names norm (toTable strs vals) (fromTable eq strs vals) := by
  have acc : ∀ (s : String) (a : α), fromTable eq strs vals s = .ok a ↔ ∃ n, toTable strs vals a = some n ∧ norm s = norm n := by
    intro s a
    rw [fromTable_ok _ hl]
    · constructor
      · rintro ⟨i, n, h1, h2, h3⟩
        exact ⟨n, (toTable_eq hv).mpr ⟨i, .inl ⟨h2, h1⟩⟩, (heq n s).mp h3⟩
      · rintro ⟨n, h1, h2⟩
        obtain ⟨i, ⟨h3, h4⟩ | ⟨_, h4⟩⟩ := (toTable_eq hv).mp h1
        · exact ⟨i, n, h4, h3, (heq n s).mpr h2⟩
        · rw [← hl] at h4
          simp at h4
    · intro i j n m h1 h2 h3 h4
      exact entries_inj hs h1 h2 (((heq n s).mp h3).symm.trans ((heq m s).mp h4))
  refine ⟨acc, ?_⟩
  intro s h
  rcases fromTable_noub (eq := eq) (s := s) hl with h1 | ⟨a, h1⟩
  · exact h1
  · exact absurd ⟨a, (acc s a).mp h1⟩ h

theorem streq_iff (n s : String) : streq n s = true ↔ s.toList = n.toList := by
  simp only [streq, decide_eq_true_eq]
  exact ⟨fun h => h ▸ rfl, fun h => (String.toList_injective h).symm⟩

theorem streqI_iff (n s : String) : streqI n s = true ↔ lower s = lower n := by
  simp only [streqI, decide_eq_true_eq]
  exact eq_comm

theorem streqI_iff' (n s : String) : streqI s n = true ↔ lower s = lower n := by
  simp only [streqI, decide_eq_true_eq]

/-- **C38**: the hooks. -/
theorem C38_hook : Names String.toList Hook.toStr Hook.fromStr :=
  .ofTable streq_iff (by decide) (by decide) (by decide)
/-- **C38**: the verdicts. -/
theorem C38_verdict : Names String.toList Verdict.toStr Verdict.fromStr :=
  .ofTable streq_iff (by decide) (by decide) (by decide)
/-- **C38**: the directions of redirections. -/
theorem C38_redirect : Names String.toList RedirDir.toStr RedirDir.fromStr :=
  .ofTable streq_iff (by decide) (by decide) (by decide)
/-- **C38**: the matcher types. -/
theorem C38_type : Names String.toList MType.toStr MType.fromStr :=
  .ofTable streq_iff (by decide) (by decide) (by decide +kernel)
/-- **C38**: the operators. -/
theorem C38_op : Names String.toList MOp.toStr MOp.fromStr :=
  .ofTable streq_iff (by decide) (by decide) (by decide)
/-- **C38**: the options of log actions, whatever the case. -/
theorem C38_log : Names lower logOptToStr logOptFromStr :=
  .ofTable streqI_iff' (by decide) (by decide) (by decide)
/-- **C38**: the TCP flags, whatever the case. -/
theorem C38_tcp : Names lower tcpFlagToStr tcpFlagFromStr :=
  .ofTable streqI_iff (by decide) (by decide) (by decide)
/-- **C38**: the protocols, whatever the case. -/
theorem C38_ipproto : Names lower ipprotoToStr ipprotoFromStr :=
  .ofTable streqI_iff' (by decide +kernel) List.nodup_range (by decide +kernel)
/-- **C38**: the ICMP types, whatever the case. -/
theorem C38_icmp : Names lower icmpTypeToStr icmpTypeFromStr :=
  .ofTable streqI_iff' (by decide +kernel) List.nodup_range (by decide +kernel)
/-- **C38**: the ICMPv6 types, whatever the case. -/
theorem C38_icmpv6 : Names lower icmpv6TypeToStr icmpv6TypeFromStr :=
  .ofTable streqI_iff' (by decide +kernel) List.nodup_range (by decide +kernel)

/-- **C38**: every hook, verdict, direction, matcher type, operator and flavor has a name. -/
theorem C38_named : (∀ h : Hook, ∃ n, h.toStr = some n) ∧ (∀ v : Verdict, ∃ n, v.toStr = some n) ∧
    (∀ d : RedirDir, ∃ n, d.toStr = some n) ∧ (∀ t : MType, ∃ n, t.toStr = some n) ∧ (∀ o : MOp, ∃ n, o.toStr = some n) ∧
    (∀ f : Flavor, ∃ n, f.toStr = some n) := by
  refine ⟨fun h => ?_, fun v => ?_, fun d => ?_, fun t => ?_, fun o => ?_, fun f => ?_⟩
  · cases h <;> exact ⟨_, rfl⟩
  · cases v <;> exact ⟨_, rfl⟩
  · cases d <;> exact ⟨_, rfl⟩
  · cases t <;> exact ⟨_, rfl⟩
  · cases o <;> exact ⟨_, rfl⟩
  · cases f <;> exact ⟨_, rfl⟩

/-- **C38**: two flavors have different names. -/
theorem C38_flavor {f g : Flavor} (h : f.toStr = g.toStr) : f = g := by
  revert h
  cases f <;> cases g <;> decide

/-- **C38**: the DSCP classes: each name of the table, whatever the case, is read as its value, nothing else is read, and
the name shown for a value is read back as this value. -/
theorem C38_dscp : (∀ (s : String) (d : Nat), dscpFromStr s = .ok d ↔ ∃ n, (n, d) ∈ dscpClasses ∧ lower s = lower n) ∧
    (∀ (d : Nat) (n : String), dscpToStr d = some n → dscpFromStr n = .ok d) := by
  have hn : (dscpClasses.map fun e => lower e.1).Nodup := by decide
  have inj : ∀ {l : List (String × Nat)}, (l.map fun e => lower e.1).Nodup → ∀ {a b : String × Nat}, a ∈ l → b ∈ l →
      lower a.1 = lower b.1 → a = b := by
    intro l
    induction l with
    | nil => intro _ a b ha; cases ha
    | cons x l ih =>
      intro h a b ha hb he
      simp only [List.map_cons, List.nodup_cons] at h
      rcases List.mem_cons.mp ha with rfl | ha
      · rcases List.mem_cons.mp hb with rfl | hb
        · rfl
        · exact absurd (List.mem_map.mpr ⟨b, hb, he.symm⟩) h.1
      · rcases List.mem_cons.mp hb with hb | hb
        · rw [hb] at he
          exact absurd (List.mem_map.mpr ⟨a, ha, he⟩) h.1
        · exact ih h.2 ha hb he
  have acc : ∀ (s : String) (d : Nat), dscpFromStr s = .ok d ↔ ∃ n, (n, d) ∈ dscpClasses ∧ lower s = lower n := by
    intro s d
    unfold dscpFromStr
    cases hf : dscpClasses.find? fun e => streqI s e.1 with
    | none =>
      rw [List.find?_eq_none] at hf
      constructor
      · intro h; cases h
      · rintro ⟨n, h1, h2⟩
        exact absurd ((streqI_iff' n s).mpr h2) (hf _ h1)
    | some e =>
      have h1 := List.mem_of_find?_eq_some hf
      have h2 := List.find?_some hf
      rw [streqI_iff'] at h2
      constructor
      · intro h
        cases h
        exact ⟨e.1, h1, h2⟩
      · rintro ⟨n, h3, h4⟩
        have := inj hn h1 h3 (h2.symm.trans h4)
        rw [this]
  refine ⟨acc, ?_⟩
  intro d n h
  rw [acc]
  unfold dscpToStr at h
  cases hf : dscpClasses.find? fun e => e.2 = d with
  | none => rw [hf] at h; cases h
  | some e =>
    rw [hf] at h
    cases h
    have h1 := List.mem_of_find?_eq_some hf
    have h2 := List.find?_some hf
    simp only [decide_eq_true_eq] at h2
    subst h2
    exact ⟨e.1, h1, rfl⟩

/-- **C38**: the two protocols of the internet layer that have a name. -/
theorem C38_ethertype : Names lower ethertypeToStr ethertypeFromStr := by
  have d : lower "ipv4" ≠ lower "ipv6" := by decide
  have acc : ∀ (s : String) (a : Nat), ethertypeFromStr s = .ok a ↔ ∃ n, ethertypeToStr a = some n ∧ lower s = lower n := by
    intro s a
    unfold ethertypeFromStr ethertypeToStr
    by_cases h4 : streqI s "ipv4" = true
    · rw [if_pos h4]
      rw [streqI_iff'] at h4
      constructor
      · intro h; cases h; exact ⟨_, rfl, h4⟩
      · rintro ⟨n, h1, h2⟩
        split at h1
        · next ha => rw [ha]
        · split at h1
          · cases h1; exact absurd (h4.symm.trans h2) d
          · cases h1
    · rw [if_neg h4]
      rw [streqI_iff'] at h4
      by_cases h6 : streqI s "ipv6" = true
      · rw [if_pos h6]
        rw [streqI_iff'] at h6
        constructor
        · intro h; cases h; exact ⟨_, rfl, h6⟩
        · rintro ⟨n, h1, h2⟩
          split at h1
          · cases h1; exact absurd h2 h4
          · split at h1
            · next ha => rw [ha]
            · cases h1
      · rw [if_neg h6]
        rw [streqI_iff'] at h6
        constructor
        · intro h; cases h
        · rintro ⟨n, h1, h2⟩
          split at h1
          · cases h1; exact absurd h2 h4
          · split at h1
            · cases h1; exact absurd h2 h6
            · cases h1
  refine ⟨acc, ?_⟩
  intro s h
  cases hf : ethertypeFromStr s with
  | ok a => exact absurd ⟨a, (acc s a).mp hf⟩ h
  | err e =>
    unfold ethertypeFromStr at hf
    split at hf
    · cases hf
    · split at hf
      · cases hf
      · exact hf.symm
  | ub =>
    unfold ethertypeFromStr at hf
    split at hf
    · cases hf
    · split at hf <;> cases hf

/-- For instance: exact comparison for verdicts, whatever the case for protocols. -/
example : Verdict.fromStr "ACCEPT" = .ok .accept ∧ Verdict.fromStr "accept" = .err .EINVAL ∧
    ipprotoFromStr "ICMPv6" = .ok 58 ∧ dscpFromStr "BE" = .ok 0 ∧ dscpToStr 0 = some "cs0" ∧ Hook.fromStr "" = .err .EINVAL := by
  refine ⟨by decide, by decide, ?_, by decide, by decide, by decide⟩
  exact (C38_ipproto.accepts _ _).mpr ⟨"icmpv6", by decide +kernel, by decide⟩

end Bf
