import Verif.Props.C18_Mark
/-!
# C36: rules after a catch-all
-/
namespace Bf
open Spec

/-- The same entry, captured header bytes aside. -/
def SameEntry (x y : LogRec) : Prop :=
  { x with headers := 0, l2 := [], l3 := [], l4 := [] } = { y with headers := 0, l2 := [], l3 := [], l4 := [] }

theorem LogSim.refl {L : LogRec → LogRec → Prop} (hL : ∀ x, L x x) (l : List LogRec) : LogSim L l l := by
  suffices ∀ n (l : List LogRec), l.length = n → LogSim L l l from this _ l rfl
  intro n
  induction n with
  | zero => intro l h; cases l with | nil => exact .nil | cons a l => simp at h
  | succ n ih =>
    intro l h
    have hne : l ≠ [] := by intro e; simp [e] at h
    have e := List.dropLast_concat_getLast hne
    rw [← e]
    exact .snoc (ih _ (by simp [h])) (hL _)

/-- Two lists of log entries correspond one to one, in order. -/
theorem LogSim.each {L : LogRec → LogRec → Prop} {a b : List LogRec} (h : LogSim L a b) :
    a.length = b.length ∧ ∀ (i : Nat) (x y : LogRec), a[i]? = some x → b[i]? = some y → L x y := by
  induction h with
  | nil => simp
  | snoc h1 h2 ih =>
    rename_i a b x y
    obtain ⟨i1, i2⟩ := ih
    refine ⟨by simp [i1], ?_⟩
    intro i x' y' hx hy
    rcases Nat.lt_trichotomy i a.length with h | h | h
    · rw [List.getElem?_append_left h] at hx
      rw [List.getElem?_append_left (by omega)] at hy
      exact i2 i x' y' hx hy
    · subst h
      rw [List.getElem?_append_right (Nat.le_refl _)] at hx
      rw [i1, List.getElem?_append_right (Nat.le_refl _)] at hy
      simp at hx hy
      subst hx; subst hy
      exact h2
    · rw [List.getElem?_eq_none (by simp; omega)] at hx
      cases hx

variable {E E' : Env} {chain chain' : Chain} {thr : Nat → BitVec 32} {img img' : List Insn} {w w' u u' : World}
  {r r' : BitVec 64}

theorem SameArrival.sim (h : SameArrival E E') (hh : chain'.hook = chain.hook)
    (hn : chain'.flagNexthdr = chain.flagNexthdr) (hs : chain'.sets = chain.sets) {c c' : Sem}
    (hc : Sees E chain thr c) (hc' : Sees E' chain' thr c') : SemSim id SameEntry c c' := by
  have al := h.alike hh hn hs hc hc'
  refine ⟨al.flavor, al.size, al.kernel, al.sets, al.protoOk, al.holds, ?_⟩
  intro r now
  cases hc with
  | packet h1 h2 _ =>
    cases hc' with
    | packet _ h4 _ =>
      rw [hh, hn, h.input, h2] at h4
      cases h4
      simp only [pktSem, hh, h.input]
      rfl
    | sock h3 => rw [hh] at h3; exact absurd h3 h1
  | sock h1 =>
    cases hc' with
    | packet h3 _ _ => rw [hh] at h3; exact absurd h1 h3
    | sock _ =>
      simp only [sockSem, hh, h.sock]
      rfl

theorem WSim.rfl' (w : World) : WSim id SameEntry w w :=
  ⟨fun _ => rfl, rfl, rfl, rfl, rfl, fun _ => rfl, LogSim.refl (L := SameEntry) (fun _ => Eq.refl _) _, rfl⟩

/-- Evaluation ends at a catch-all. -/
theorem evalRules_catchAll (c : Sem) (a b : List Rule) (t : Rule) (w : World) (hm : t.matchers = []) (hd : t.disabled = false)
    (hv : t.verdict ≠ .continue_) : ∃ ret w1, evalRules c (a ++ t :: b) w = .stop ret w1 ∧ evalRules c (a ++ [t]) w = .stop ret w1 := by
  rw [evalRules_append, evalRules_append]
  cases evalRules c a w with
  | stop ret w1 => exact ⟨ret, w1, rfl, rfl⟩
  | cont w1 =>
    have hf : Fires c t w1 := ⟨hd, by simp [hm], by simp [hm]⟩
    have : ∃ ret w2, evalRule c t w1 = .stop ret w2 := by
      rw [evalRule_fires hf]
      unfold verdictStep
      cases h : t.verdict <;> simp_all
    obtain ⟨ret, w2, e⟩ := this
    refine ⟨ret, w2, ?_, ?_⟩ <;> simp only [evalRules, e]

/-- **C36.**  Appending rules `b` after an enabled catch-all `t` changes nothing: the same value is returned,
and the mark, all counters except those of the added rules, the rate-limit state and the log entries
(their captured header bytes aside) end up the same.

Partial: the added rules must not make the chain record IPv6 extension headers if it did not before
(`hnh`); see `C36_fails_nexthdr`. -/
theorem C36_catch_all_partial {a b : List Rule} {t : Rule}
    (h : IsLoaded E chain thr img) (h' : IsLoaded E' chain' thr img') (hE : SameArrival E E')
    (hook : chain'.hook = chain.hook) (hsets : chain'.sets = chain.sets)
    (hnh : chain'.flagNexthdr = chain.flagNexthdr)
    (hrules : chain.rules = a ++ [t]) (hrules' : chain'.rules = chain.rules ++ b)
    (hm : t.matchers = []) (hd : t.disabled = false) (hv : t.verdict ≠ .continue_)
    (hread : ¬ Unreadable E chain)
    (hr : Runs E img w r w') (hr' : Runs E' img' w r' u') :
    r' = r ∧ u'.mark = w'.mark ∧ u'.counters = w'.counters ∧ u'.state = w'.state ∧ u'.redirect = w'.redirect ∧
    u'.logs.length = w'.logs.length ∧
    ∀ (i : Nat) (x y : LogRec), w'.logs[i]? = some x → u'.logs[i]? = some y → SameEntry x y := by
  rcases h.outcome hr with ⟨hu, _⟩ | ⟨c, hc, hdec⟩
  · exact absurd hu hread
  rcases h'.outcome hr' with ⟨hu, _⟩ | ⟨c', hc', hdec'⟩
  · exact absurd ((hE.unreadable hook hnh).mp hu) hread
  have e := decides_iff.mp hdec
  have e' := decides_iff.mp hdec'
  have hs := evalRules_sim (hE.sim hook hnh hsets hc hc') (fun _ _ e => e) (WSim.rfl' w) (a ++ [t])
  have hmap : ((a ++ [t]).map fun r => { r with index := id r.index }) = a ++ [t] := by simp
  rw [hmap] at hs
  obtain ⟨r1, w1, e1, e2⟩ := evalRules_catchAll c a [] t w hm hd hv
  obtain ⟨r2, w2, e3, e4⟩ := evalRules_catchAll c' a b t w hm hd hv
  unfold evalView at e e'
  rw [hrules', hrules, List.append_assoc] at e'
  simp only [List.singleton_append] at e'
  rw [hrules, e1] at e
  rw [e3] at e'
  rw [e2, e4] at hs
  injection e with e5 e6
  injection e' with e7 e8
  obtain ⟨hs1, hs2⟩ := hs
  rw [← e5, ← e6, ← e7, ← e8]
  obtain ⟨l1, l2⟩ := LogSim.each hs2.logs
  exact ⟨hs1, hs2.mark, funext hs2.counters, funext hs2.state, hs2.redirect, l1.symm, l2⟩

/-- A packet that can't be read is accepted by both. -/
theorem C36_unreadable (h : IsLoaded E chain thr img) (h' : IsLoaded E' chain' thr img') (hE : SameArrival E E')
    (hook : chain'.hook = chain.hook) (hnh : chain'.flagNexthdr = chain.flagNexthdr) (hread : Unreadable E chain)
    (hr : Runs E img w r w') (hr' : Runs E' img' w r' u') :
    r' = r ∧ u'.mark = w'.mark ∧ u'.state = w'.state ∧ u'.logs = w'.logs ∧
    ∀ j < chain.rules.length, j < chain'.rules.length → u'.counters j = w'.counters j := by
  have hread' := (hE.unreadable hook hnh).mpr hread
  obtain ⟨e1, e2⟩ := C04_unreadable h hr hread
  obtain ⟨e3, e4⟩ := C04_unreadable h' hr' hread'
  rw [e1, e2, e3, e4, hook]
  refine ⟨rfl, rfl, rfl, rfl, ?_⟩
  intro j hj hj'
  simp only
  rw [if_neg (by omega), if_neg (by omega)]

namespace Sample

def catchAll : Chain := ⟨"all", .xdp, .drop, [], [rule [] .drop], false, false, false⟩
def catchAll2 : Chain := ⟨"all", .xdp, .drop, [], [rule [] .drop, { rule [mSaddr] .accept with index := 1 }], false, false, false⟩
/-- `ip6.nexthdr eq 0` -/
def mNexthdr : Matcher := ⟨.ip6Nexthdr, .eq, [0], false⟩
def catchAll3 : Chain :=
  ⟨"all", .xdp, .drop, [], [rule [] .drop, { rule [mNexthdr] .accept with index := 1 }], false, false, true⟩

theorem catchAll_new : chainNew "all" .xdp .drop [] [rule [] .drop] = .ok catchAll := by decide
theorem catchAll2_new : chainAddRule catchAll (rule [mSaddr] .accept) = .ok catchAll2 := by decide
theorem catchAll3_new : chainAddRule catchAll (rule [mNexthdr] .accept) = .ok catchAll3 := by decide

theorem catchAll_loaded (base : Env) : ∃ img, IsLoaded (envOf base catchAll) catchAll thr img := by
  obtain ⟨img, h⟩ := compiles_of (chain := catchAll) (thr := Sample.thr) (slen := slen) (by decide +kernel)
  exact ⟨img, .of_compile (.new catchAll_new) (by decide) ⟨by simp [catchAll], by decide⟩ (by decide) (by decide) (by intro h; cases h) h⟩

theorem catchAll2_loaded (base : Env) : ∃ img, IsLoaded (envOf base catchAll2) catchAll2 thr img := by
  obtain ⟨img, h⟩ := compiles_of (chain := catchAll2) (thr := Sample.thr) (slen := slen) (by decide +kernel)
  exact ⟨img, .of_compile (.addRule (.new catchAll_new) catchAll2_new) (by decide) ⟨by simp [catchAll2], by decide⟩ (by decide)
    (by decide) (by intro h; cases h) h⟩

theorem catchAll3_loaded (base : Env) : ∃ img, IsLoaded (envOf base catchAll3) catchAll3 thr img := by
  obtain ⟨img, h⟩ := compiles_of (chain := catchAll3) (thr := Sample.thr) (slen := slen) (by decide +kernel)
  exact ⟨img, .of_compile (.addRule (.new catchAll_new) catchAll3_new) (by decide) ⟨by simp [catchAll3], by decide⟩ (by decide)
    (by decide) (by intro h; cases h) h⟩

/-- An IPv6 packet that ends after a hop-by-hop header announcing TCP. -/
def cut6 : Env := { base with
  pkt := List.replicate 12 0 ++ [0x86, 0xDD] ++ [0x60, 0, 0, 0, 0, 8, 0, 64] ++ List.replicate 32 0 ++ [6, 0, 0, 0, 0, 0, 0, 0] }

end Sample

/-- The hypotheses of `C36_catch_all_partial` are met. -/
example : ∃ img img', IsLoaded (envOf Sample.base Sample.catchAll) Sample.catchAll Sample.thr img ∧
    IsLoaded (envOf Sample.base Sample.catchAll2) Sample.catchAll2 Sample.thr img' ∧
    SameArrival (envOf Sample.base Sample.catchAll) (envOf Sample.base Sample.catchAll2) ∧
    ¬ Unreadable (envOf Sample.base Sample.catchAll) Sample.catchAll := by
  obtain ⟨img, h⟩ := Sample.catchAll_loaded Sample.base
  obtain ⟨img', h'⟩ := Sample.catchAll2_loaded Sample.base
  exact ⟨img, img', h, h', ⟨rfl, rfl, rfl, rfl, rfl, rfl, rfl, rfl, rfl, rfl, rfl, rfl, rfl, rfl, rfl⟩, fun h => absurd h.2 (by decide)⟩

/-- The property fails when the added rule is about `ip6.nexthdr`: there is a packet that a chain whose only
rule drops everything drops (return value 1), and that it accepts (2) once an `ip6.nexthdr` rule is appended
after that rule. -/
theorem C36_fails_nexthdr : ∃ img img' r r' w' u', IsLoaded (envOf Sample.cut6 Sample.catchAll) Sample.catchAll Sample.thr img ∧
    IsLoaded (envOf Sample.cut6 Sample.catchAll3) Sample.catchAll3 Sample.thr img' ∧
    chainAddRule Sample.catchAll (Sample.rule [Sample.mNexthdr] .accept) = .ok Sample.catchAll3 ∧
    Runs (envOf Sample.cut6 Sample.catchAll) img Sample.w0 r w' ∧
    Runs (envOf Sample.cut6 Sample.catchAll3) img' Sample.w0 r' u' ∧ r = 1 ∧ r' = 2 := by
  obtain ⟨img, h⟩ := Sample.catchAll_loaded Sample.cut6
  obtain ⟨img', h'⟩ := Sample.catchAll3_loaded Sample.cut6
  obtain ⟨r, w', hr⟩ := C01_returns h Sample.w0
  obtain ⟨r', u', hr'⟩ := C01_returns h' Sample.w0
  refine ⟨img, img', r, r', w', u', h, h', Sample.catchAll3_new, hr, hr', ?_, ?_⟩
  · rcases unreadable_or_sees (envOf Sample.cut6 Sample.catchAll) Sample.catchAll Sample.thr with ⟨_, hu⟩ | ⟨c, hc⟩
    · exact absurd hu (by decide)
    · rw [C01_rule_decides h hr hc (k := 0) (rule := Sample.rule [] .drop) (wk := Sample.w0) rfl .first
        ⟨rfl, by simp [Sample.rule], by simp [Sample.rule]⟩ (by decide), ruleRet]
      rw [hc.flavor]
      rfl
  · have hu : Unreadable (envOf Sample.cut6 Sample.catchAll3) Sample.catchAll3 := ⟨by decide, by decide⟩
    rw [(C04_unreadable h' hr' hu).1]
    decide

end Bf
