import Verif.User.HookOpts
/-!
# C34: hook options
-/
namespace Bf

namespace Spec

/-- The option that a chain attached to a hook needs. -/
def needs : Hook → OptType
  | .xdp | .tcIngress | .tcEgress => .ifindex
  | .cgroupSkbIngress | .cgroupSkbEgress | .connect4 | .connect6 | .sendmsg4 | .sendmsg6 => .cgpath
  | .nfPreRouting | .nfLocalIn | .nfForward | .nfLocalOut | .nfPostRouting => .priorities

/-- `raw` is the text `name=v`. -/
def Gives (raw : List Char) (t : OptType) (v : List Char) : Prop := raw = t.name.toList ++ '=' :: v

/-- How many times the option `t` is given. -/
def times (t : OptType) (raws : List (List Char)) : Nat :=
  (raws.filter fun r => (t.name.toList ++ ['=']).isPrefixOf r).length

/-- The text starts with the number `n`, as `strtoul` reads it, of at most `INT_MAX`. -/
def Number (v : List Char) (n : Nat) : Prop := ∃ rest, strtoul v 0 = ⟨n, rest, false⟩ ∧ n ≤ 2147483647

/-- The values that an option can have. -/
def ValueOk : OptType → List Char → Prop
  | .ifindex, v => ∃ n, Number v n
  | .cgpath, _ => True
  | .family, v => v = "inet4".toList ∨ v = "inet6".toList
  | .priorities, v => ∃ (a b : List Char) (m n : Nat), v = a ++ '-' :: b ∧ '-' ∉ a ∧ b ≠ [] ∧ Number a m ∧ Number b n ∧
      m ≠ n ∧ m ≠ 0 ∧ n ≠ 0

/-- The value is what is recorded for the option. -/
def Records (o : HookOpts) : OptType → List Char → Prop
  | .ifindex, v => ∃ n, Number v n ∧ o.ifindex = n
  | .cgpath, v => o.cgpath = some (String.ofList v)
  | .family, _ => True
  | .priorities, v => ∃ (a b : List Char) (m n : Nat), v = a ++ '-' :: b ∧ '-' ∉ a ∧ Number a m ∧ Number b n ∧
      o.prio0 = m ∧ o.prio1 = n

end Spec
open Spec

theorem takeWhile_until {p : Char} {a b : List Char} (h : p ∉ a) :
    (a ++ p :: b).takeWhile (fun c => decide (c ≠ p)) = a ∧ (a ++ p :: b).dropWhile (fun c => decide (c ≠ p)) = p :: b := by
  induction a with
  | nil => simp
  | cons x a ih =>
    have hx : x ≠ p := fun e => h (by simp [e])
    have := ih fun e => h (by simp [e])
    exact ⟨by simpa [hx] using this.1, by simpa [hx] using this.2⟩

theorem until_of_mem {p : Char} {s : List Char} (h : s.contains p = true) :
    s = s.takeWhile (fun c => decide (c ≠ p)) ++ p :: (s.dropWhile (fun c => decide (c ≠ p))).tail ∧
      p ∉ s.takeWhile (fun c => decide (c ≠ p)) := by
  induction s with
  | nil => cases h
  | cons x s ih =>
    by_cases hx : x = p
    · subst hx; simp
    · have : s.contains p = true := by simpa [Ne.symm hx, hx, eq_comm] using h
      obtain ⟨h1, h2⟩ := ih this
      simp only [List.takeWhile_cons, List.dropWhile_cons, hx, decide_true, ne_eq, not_false_eq_true, if_true, List.cons_append,
        List.mem_cons, not_or]
      refine ⟨congrArg _ ?_, fun e => hx e.symm, ?_⟩
      · simpa using h1
      · simpa using h2

theorem name_noeq (t : OptType) : '=' ∉ t.name.toList := by cases t <;> decide

theorem optOfName_name (t : OptType) : optOfName t.name.toList = some t := by cases t <;> decide

theorem optOfName_some {k : List Char} {t : OptType} (h : optOfName k = some t) : k = t.name.toList := by
  have := List.find?_some h
  simpa [eq_comm] using this

theorem Gives.prefix {raw v : List Char} {t u : OptType} (h : Gives raw t v) :
    (u.name.toList ++ ['=']).isPrefixOf raw = decide (u = t) := by
  unfold Gives at h
  subst h
  cases t <;> cases u <;> simp [OptType.name, List.isPrefixOf]

theorem times_cons {raw v : List Char} {raws : List (List Char)} {t u : OptType} (h : Gives raw t v) :
    times u (raw :: raws) = (if u = t then 1 else 0) + times u raws := by
  unfold times
  rw [List.filter_cons, Gives.prefix h]
  split
  · next e => rw [decide_eq_true_eq] at e; rw [if_pos e, List.length_cons]; omega
  · next e => rw [decide_eq_true_eq] at e; rw [if_neg e]; omega

/-- What reading a valid value does. -/
def put (o : HookOpts) : OptType → List Char → Res HookOpts
  | .ifindex, v => parseIfindex o v
  | .cgpath, v => parseCgpath o v
  | .family, v => parseFamily o v
  | .priorities, v => parsePriorities o v

theorem parseOpt_gives {o : HookOpts} {raw v : List Char} {t : OptType} (h : Gives raw t v) : parseOpt o raw = put o t v := by
  unfold Gives at h
  have h1 := takeWhile_until (b := v) (name_noeq t)
  have hc : raw.contains '=' = true := by rw [h]; simp
  unfold parseOpt
  rw [if_neg (fun e => e hc)]
  dsimp only
  rw [h, h1.1, h1.2, optOfName_name]
  cases t <;> rfl

theorem parseOpt_ok {o o' : HookOpts} {raw : List Char} (h : parseOpt o raw = .ok o') :
    ∃ t v, Gives raw t v ∧ put o t v = .ok o' := by
  unfold parseOpt at h
  split at h
  · cases h
  next hc =>
  have hc : raw.contains '=' = true := by simpa using hc
  obtain ⟨h1, _⟩ := until_of_mem hc
  dsimp only at h
  split at h
  · cases h
  all_goals
    next hn =>
    rw [optOfName_some hn] at h1
    exact ⟨_, _, h1, h⟩

/-- What is known after reading an option that is accepted. -/
structure After (o o' : HookOpts) (t : OptType) (v : List Char) : Prop where
  value : ValueOk t v
  fresh : t ≠ .family → o.isUsed t = false
  used : ∀ u, o'.isUsed u = (o.isUsed u || decide (u = t ∧ t ≠ .family))
  records : Records o' t v
  keeps : ∀ u w, u ≠ t → Records o u w → Records o' u w

theorem put_ok {o o' : HookOpts} {t : OptType} {v : List Char} (hf : o.usedFamily = false) (h : put o t v = .ok o') :
    After o o' t v := by
  cases t with
  | ifindex =>
    simp only [put, parseIfindex] at h
    split at h
    · cases h
    next h1 =>
    split at h
    · cases h
    next h2 =>
    split at h
    · cases h
    next h3 =>
    cases h
    have hn : Number v (strtoul v 0).val := ⟨(strtoul v 0).rest, by
      cases hs : strtoul v 0 with
      | mk a b c => rw [hs] at h2; simp only at h2; simp [h2], by omega⟩
    refine ⟨⟨_, hn⟩, fun _ => by simpa using h1, ?_, ⟨_, hn, rfl⟩, ?_⟩
    · intro u; cases u <;> simp [HookOpts.isUsed]
    · intro u w hu hr
      cases u with
      | ifindex => exact absurd rfl hu
      | cgpath => exact hr
      | family => exact hr
      | priorities => exact hr
  | cgpath =>
    simp only [put, parseCgpath] at h
    split at h
    · cases h
    next h1 =>
    cases h
    refine ⟨trivial, fun _ => by simpa using h1, ?_, rfl, ?_⟩
    · intro u; cases u <;> simp [HookOpts.isUsed]
    · intro u w hu hr
      cases u with
      | ifindex => exact hr
      | cgpath => exact absurd rfl hu
      | family => exact hr
      | priorities => exact hr
  | family =>
    simp only [put, parseFamily] at h
    split at h
    · cases h
    split at h
    · next h2 =>
      cases h
      refine ⟨h2, fun h => absurd rfl h, ?_, trivial, fun u w _ h => h⟩
      intro u; simp
    · cases h
  | priorities =>
    simp only [put, parsePriorities] at h
    split at h
    · cases h
    next h1 =>
    split at h
    · cases h
    next h2 =>
    split at h
    · cases h
    next h3 =>
    split at h
    · cases h
    next h4 =>
    split at h
    · cases h
    next h5 =>
    split at h
    · cases h
    next h6 =>
    split at h
    · cases h
    next h7 =>
    split at h
    · cases h
    next h8 =>
    cases h
    have num : ∀ {s : List Char}, ¬ (strtoul s 0).range = true → ¬ 2147483647 < (strtoul s 0).val → Number s (strtoul s 0).val := by
      intro s ha hb
      refine ⟨(strtoul s 0).rest, ?_, by omega⟩
      cases hs : strtoul s 0 with
      | mk a b c => rw [hs] at ha; simp only at ha; simp [ha]
    have hn := num h4 fun h => h6 (.inl h)
    have hm := num h5 fun h => h6 (.inr h)
    obtain ⟨e1, e2⟩ := until_of_mem (p := '-') (s := v) (by simpa using h2)
    refine ⟨⟨_, _, _, _, e1, e2, h3, hn, hm, h7, fun e => h8 (.inl e), fun e => h8 (.inr e)⟩, fun _ => by simpa using h1, ?_,
      ⟨_, _, _, _, e1, e2, hn, hm, rfl, rfl⟩, ?_⟩
    · intro u; cases u <;> simp [HookOpts.isUsed]
    · intro u w hu hr
      cases u with
      | ifindex => exact hr
      | cgpath => exact hr
      | family => exact hr
      | priorities => exact absurd rfl hu

theorem put_accepts {o : HookOpts} {t : OptType} {v : List Char} (hf : o.usedFamily = false) (hu : t ≠ .family → o.isUsed t = false)
    (hv : ValueOk t v) : ∃ o', put o t v = .ok o' := by
  cases t with
  | ifindex =>
    obtain ⟨n, r, h1, h2⟩ := hv
    have := hu (by decide)
    simp only [put, parseIfindex, this, h1]
    rw [if_neg (by decide), if_neg (by decide), if_neg (by omega)]
    exact ⟨_, rfl⟩
  | cgpath =>
    have := hu (by decide)
    simp only [put, parseCgpath, this]
    exact ⟨_, rfl⟩
  | family =>
    have e : o.isUsed .family = false := hf
    simp only [put, parseFamily, e]
    rw [if_neg (by decide), if_pos (show v = "inet4".toList ∨ v = "inet6".toList from hv)]
    exact ⟨_, rfl⟩
  | priorities =>
    obtain ⟨a, b, m, n, rfl, h2, h3, ⟨_, h4, h5⟩, ⟨_, h6, h7⟩, h8, h9, h10⟩ := hv
    have := hu (by decide)
    obtain ⟨t1, t2⟩ := takeWhile_until (b := b) h2
    simp only [put, parsePriorities, this, t1, t2, List.tail_cons, h4, h6]
    rw [if_neg (by decide), if_neg (by simp), if_neg h3, if_neg (by decide), if_neg (by decide), if_neg (by omega), if_neg h8,
      if_neg (by omega)]
    exact ⟨_, rfl⟩

/-- Options read one after the other. -/
theorem parseOpts_iff {o : HookOpts} {raws : List (List Char)} (hf : o.usedFamily = false) :
    (∃ o', parseOpts o raws = .ok o') ↔ (∀ raw ∈ raws, ∃ t v, Gives raw t v ∧ ValueOk t v) ∧
      ∀ t, t ≠ .family → times t raws + (if o.isUsed t = true then 1 else 0) ≤ 1 := by
  induction raws generalizing o with
  | nil =>
    simp only [parseOpts, times, List.filter_nil, List.length_nil, List.not_mem_nil]
    constructor
    · intro _
      refine ⟨fun _ h => h.elim, fun t _ => ?_⟩
      split <;> omega
    · intro _; exact ⟨o, rfl⟩
  | cons raw raws ih =>
    constructor
    · rintro ⟨o', h⟩
      simp only [parseOpts] at h
      obtain ⟨o1, h1, h2⟩ := Res.bind_eq_ok h
      obtain ⟨t, v, h3, h4⟩ := parseOpt_ok h1
      have ha := put_ok hf h4
      have hf1 : o1.usedFamily = false := by
        have := ha.used .family
        simp only [HookOpts.isUsed, hf, Bool.false_or] at this
        rw [this]
        simp
        exact fun h => h.symm
      obtain ⟨h5, h6⟩ := (ih hf1).mp ⟨o', h2⟩
      refine ⟨?_, ?_⟩
      · intro r hr
        rcases List.mem_cons.mp hr with rfl | hr
        · exact ⟨t, v, h3, ha.value⟩
        · exact h5 r hr
      · intro u hu
        have hq := h6 u hu
        rw [times_cons h3]
        rw [ha.used u] at hq
        by_cases he : u = t
        · subst he
          rw [ha.fresh hu]
          simp [hu] at hq ⊢
          omega
        · simp [he] at hq ⊢
          exact hq
    · rintro ⟨h1, h2⟩
      obtain ⟨t, v, h3, h4⟩ := h1 raw (by simp)
      have hu : t ≠ .family → o.isUsed t = false := by
        intro ht
        have := h2 t ht
        rw [times_cons h3, if_pos rfl] at this
        cases hc : o.isUsed t with
        | false => rfl
        | true => rw [hc] at this; simp at this
      obtain ⟨o1, h5⟩ := put_accepts hf hu h4
      have ha := put_ok hf h5
      have hf1 : o1.usedFamily = false := by
        have := ha.used .family
        simp only [HookOpts.isUsed, hf, Bool.false_or] at this
        rw [this]
        simp
        exact fun h => h.symm
      obtain ⟨o', h6⟩ := (ih hf1).mpr ⟨fun r hr => h1 r (by simp [hr]), by
        intro u hu'
        have hq := h2 u hu'
        rw [times_cons h3] at hq
        rw [ha.used u]
        by_cases he : u = t
        · subst he
          rw [ha.fresh hu'] at hq ⊢
          simp [hu'] at hq ⊢
          omega
        · simp [he] at hq ⊢
          exact hq⟩
      refine ⟨o', ?_⟩
      simp only [parseOpts, parseOpt_gives h3, h5, Res.bind]
      exact h6

/-- What was read. -/
theorem parseOpts_records {o o' : HookOpts} {raws : List (List Char)} (hf : o.usedFamily = false) (h : parseOpts o raws = .ok o') :
    (∀ t, o'.isUsed t = (o.isUsed t || decide (t ≠ .family ∧ 0 < times t raws))) ∧
    (∀ raw ∈ raws, ∀ t v, Gives raw t v → Records o' t v) ∧
    (∀ t w, times t raws = 0 → Records o t w → Records o' t w) := by
  induction raws generalizing o with
  | nil =>
    cases h
    refine ⟨fun t => by simp [times], fun _ h => by simp at h, fun _ _ _ h => h⟩
  | cons raw raws ih =>
    have hall := ((parseOpts_iff hf).mp ⟨o', h⟩).2
    simp only [parseOpts] at h
    obtain ⟨o1, h1, h2⟩ := Res.bind_eq_ok h
    obtain ⟨t, v, h3, h4⟩ := parseOpt_ok h1
    have ha := put_ok hf h4
    have hf1 : o1.usedFamily = false := by
      have := ha.used .family
      simp only [HookOpts.isUsed, hf, Bool.false_or] at this
      rw [this]
      simp
      exact fun h => h.symm
    obtain ⟨h5, h6, h7⟩ := ih hf1 h2
    refine ⟨?_, ?_, ?_⟩
    · intro u
      rw [h5 u, ha.used u, times_cons h3]
      by_cases he : u = t
      · subst he
        by_cases hu : u = .family
        · simp [hu]
        · have : 0 < 1 + times u raws := by omega
          simp [hu, this]
      · simp [he]
    · intro r hr u w hg
      rcases List.mem_cons.mp hr with rfl | hr
      · have e := Gives.prefix (u := u) h3
        rw [Gives.prefix (u := u) hg, decide_eq_true (rfl : u = u)] at e
        have e : u = t := by simpa [eq_comm] using e
        subst e
        have hw : w = v := by
          unfold Gives at h3 hg
          rw [h3] at hg
          simpa using hg.symm
        subst hw
        by_cases hu : u = .family
        · subst hu; trivial
        · refine h7 u w ?_ ha.records
          have := hall u hu
          rw [times_cons h3, if_pos rfl] at this
          omega
      · exact h6 r hr u w hg
    · intro u w hz hr
      rw [times_cons h3] at hz
      by_cases he : u = t
      · rw [if_pos he] at hz; omega
      · rw [if_neg he] at hz
        exact h7 u w (by omega) (ha.keeps u w he hr)

theorem validate_iff {o : HookOpts} {h : Hook} : validate o h = .ok () ↔ ∀ t, (o.isUsed t = true ↔ t = needs h) := by
  have cases4 : (∀ t, (o.isUsed t = true ↔ t = needs h)) ↔ (o.usedIfindex = true ↔ OptType.ifindex = needs h) ∧
      (o.usedCgpath = true ↔ OptType.cgpath = needs h) ∧ (o.usedFamily = true ↔ OptType.family = needs h) ∧
      (o.usedPriorities = true ↔ OptType.priorities = needs h) :=
    ⟨fun H => ⟨H .ifindex, H .cgpath, H .family, H .priorities⟩, fun ⟨a, b, c, d⟩ t => by cases t <;> assumption⟩
  rw [cases4]
  obtain ⟨a, b, c, d, i, g, f, p, q⟩ := o
  have e : validate ⟨a, b, c, d, i, g, f, p, q⟩ h = validate ⟨a, b, c, d, 0, none, 0, 0, 0⟩ h := rfl
  rw [e]
  dsimp only
  clear e cases4
  cases h <;> cases a <;> cases b <;> cases c <;> cases d <;> decide

/-- **C34**: a list of options is accepted for a hook exactly when each of them is a known option with a valid value, and
the option that the hook needs is given once and no option of another hook is given.  (The deprecated `family` option
is ignored.) -/
theorem C34_accepts {raws : List (List Char)} {hook : Hook} :
    (∃ o, parseOpts .new raws = .ok o ∧ validate o hook = .ok ()) ↔
      (∀ raw ∈ raws, ∃ t v, Gives raw t v ∧ ValueOk t v) ∧
      ∀ t, t ≠ .family → times t raws = if t = needs hook then 1 else 0 := by
  have hnf : needs hook ≠ .family := by cases hook <;> decide
  have hn : ∀ t, HookOpts.new.isUsed t = false := by intro t; cases t <;> rfl
  constructor
  · rintro ⟨o, h1, h2⟩
    obtain ⟨h3, h4⟩ := (parseOpts_iff rfl).mp ⟨o, h1⟩
    refine ⟨h3, fun t ht => ?_⟩
    have h5 := (parseOpts_records rfl h1).1 t
    have h6 := validate_iff.mp h2 t
    have h7 := h4 t ht
    rw [hn] at h5 h7
    simp only [Bool.false_or, Bool.false_eq_true, if_false] at h5 h7
    rw [h5, decide_eq_true_eq] at h6
    by_cases he : t = needs hook
    · rw [if_pos he]
      have := (h6.mpr he).2
      omega
    · rw [if_neg he]
      have : ¬ 0 < times t raws := fun h => he (h6.mp ⟨ht, h⟩)
      omega
  · rintro ⟨h1, h2⟩
    obtain ⟨o, h3⟩ := (parseOpts_iff (o := .new) rfl).mpr ⟨h1, by
      intro t ht
      rw [h2 t ht, hn]
      split <;> simp⟩
    refine ⟨o, h3, validate_iff.mpr fun t => ?_⟩
    rw [(parseOpts_records rfl h3).1 t, hn]
    simp only [Bool.false_or, decide_eq_true_eq]
    constructor
    · rintro ⟨ht, h4⟩
      rw [h2 t ht] at h4
      by_cases he : t = needs hook
      · exact he
      · rw [if_neg he] at h4; omega
    · rintro rfl
      exact ⟨hnf, by rw [h2 _ hnf, if_pos rfl]; omega⟩

/-- **C34**: what is recorded for each option is the value given. -/
theorem C34_values {raws : List (List Char)} {o : HookOpts} (h : parseOpts .new raws = .ok o) {raw v : List Char} {t : OptType}
    (hr : raw ∈ raws) (hg : Gives raw t v) : Records o t v := (parseOpts_records rfl h).2.1 raw hr t v hg

/-- For instance, with an index in base 16. -/
example : ∃ o, parseOpts .new ["ifindex=0x1f".toList] = .ok o ∧ validate o .xdp = .ok () ∧ o.ifindex = 31 ∧
    validate o .connect4 ≠ .ok () := ⟨_, rfl, by decide, by decide, by decide⟩

/-- The deprecated option can be given twice, and for any hook (finding 31). -/
theorem C34_family_ignored : ∃ o, parseOpts .new ["family=inet4".toList, "ifindex=2".toList, "family=inet6".toList] = .ok o ∧
    validate o .xdp = .ok () := ⟨_, rfl, by decide⟩

end Bf
