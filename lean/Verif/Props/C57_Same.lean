import Verif.Props.C57_Alike
import Verif.Props.C50_Read
import Verif.Props.C49_Ruleset
/-!
# C57: a chain that is printed and set again filters the same
-/
namespace Bf
open Spec

variable {xs ys : List BSet} {r q : Rule}

theorem refsEmpty_alike (h : Each (MCorr xs ys) r.matchers q.matchers) : RefsEmptySet ys q ↔ RefsEmptySet xs r := by
  unfold RefsEmptySet
  constructor
  · rintro ⟨n, hn, ht, y, hy, he⟩
    obtain ⟨m, hm, hc⟩ := Cli.each_mem h hn
    rw [← hc.alike.type] at ht
    obtain ⟨x, y', h1, h2, h3⟩ := hc.sets ht
    have : some y' = some y := h2.symm.trans hy
    cases this
    refine ⟨m, hm, ht, x, h1, ?_⟩
    cases hx : x.elems with
    | nil => rfl
    | cons a as =>
      obtain ⟨f, hf, _⟩ := h3.left a (by rw [hx]; simp)
      rw [he] at hf; cases hf
  · rintro ⟨m, hm, ht, x, hx, he⟩
    obtain ⟨n, hn, hc⟩ := Cli.each_mem' h hm
    obtain ⟨x', y, h1, h2, h3⟩ := hc.sets ht
    have : some x' = some x := h1.symm.trans hx
    cases this
    refine ⟨n, hn, hc.alike.type ▸ ht, y, h2, ?_⟩
    cases hy : y.elems with
    | nil => rfl
    | cons a as =>
      obtain ⟨f, hf, _⟩ := h3.right a (by rw [hy]; simp)
      rw [he] at hf; cases hf

theorem types_alike {ms ns : List Matcher} (h : Each (MCorr xs ys) ms ns) : ns.flatMap (typesOf ys) = ms.flatMap (typesOf xs) := by
  induction h with
  | nil => rfl
  | cons h1 _ ih => simp only [List.flatMap_cons]; rw [ih, typesOf_alike h1]

theorem inert_alike (h : Each (MCorr xs ys) r.matchers q.matchers) : Inert ys q ↔ Inert xs r := by
  unfold Inert
  rw [refsEmpty_alike h, needsTwo_iff, needsTwo_iff, types_alike h]

theorem each_mem_left {α β : Type} {R : α → β → Prop} {S : α → β → Prop} {as : List α} {bs : List β} (h : Each R as bs) (hs : ∀ a ∈ as, ∀ b ∈ bs, R a b → S a b) :
    Each S as bs := by
  induction h with
  | nil => exact .nil
  | cons h1 _ ih => exact .cons (hs _ (by simp) _ (by simp) h1) (ih fun a ha b hb => hs a (by simp [ha]) b (by simp [hb]))

variable {E E' : Env} {thr : Nat → BitVec 32} {img img' : List Insn} {w w' u' : World} {v v' : BitVec 64}

/-- The rules of loaded chains that are alike correspond. -/
theorem rules_corr {c c' : Chain × Option HookOpts} (hb : BuiltChain c.1) (hb' : BuiltChain c'.1) (ha : ChainAlike c c')
    (hw : ∀ r ∈ c.1.rules, ∀ m ∈ r.matchers, MatcherWf m ∧ NetFits m) : Each (RuleCorr (MCorr c.1.sets c'.1.sets)) c.1.rules c'.1.rules := by
  refine each_mem_left ha.rules fun r hr q hq h => ?_
  have hm : Each (MCorr c.1.sets c'.1.sets) r.matchers q.matchers :=
    each_mem_left h.matchers fun m hm n _ hmn => ⟨hmn, (hw r hr m hm).1, (hw r hr m hm).2⟩
  refine ⟨h.index.symm, hm, h.log.1.symm, h.log.2.symm, h.counters.symm, h.mark.1.symm, fun e => (h.mark.2 e).symm, h.verdict.symm,
    fun e => ⟨(h.redirect e).1.symm, (h.redirect e).2.symm⟩, ?_⟩
  rw [Bool.eq_iff_iff, C15_disabled_iff hb r hr, C15_disabled_iff hb' q hq, inert_alike hm]

theorem nexthdr_alike {c c' : Chain × Option HookOpts} (hb : BuiltChain c.1) (hb' : BuiltChain c'.1)
    (hr : Each (RuleCorr (MCorr c.1.sets c'.1.sets)) c.1.rules c'.1.rules) : c'.1.flagNexthdr = c.1.flagNexthdr := by
  rw [Bool.eq_iff_iff, built_nexthdr hb, built_nexthdr hb']
  constructor
  · rintro ⟨q, hq, hd, n, hn, ht⟩
    obtain ⟨r, hr', hc⟩ := Cli.each_mem hr hq
    obtain ⟨m, hm, hmn⟩ := Cli.each_mem hc.matchers hn
    exact ⟨r, hr', by rw [← hc.disabled]; exact hd, m, hm, hmn.alike.type.trans ht⟩
  · rintro ⟨r, hr', hd, m, hm, ht⟩
    obtain ⟨q, hq, hc⟩ := Cli.each_mem' hr hr'
    obtain ⟨n, hn, hmn⟩ := Cli.each_mem' hc.matchers hm
    exact ⟨q, hq, by rw [hc.disabled]; exact hd, n, hn, hmn.alike.type.symm.trans ht⟩

/-- What the programs of two chains that are alike see. -/
theorem sees_corr {c c' : Chain × Option HookOpts} (hE : SameArrival E E') (hh : c'.1.hook = c.1.hook) (hn : c'.1.flagNexthdr = c.1.flagNexthdr)
    (hs : SetsWf c.1.sets) {s s' : Sem} (hc : Sees E c.1 thr s) (hc' : Sees E' c'.1 thr s') : SemCorr (MCorr c.1.sets c'.1.sets) SameEntry s s' := by
  cases hc with
  | packet h1 h2 _ =>
    cases hc' with
    | packet _ h4 _ =>
      rw [hh, hn, hE.input, h2] at h4
      cases h4
      rw [hh, hE.input, hE.kernel]
      refine ⟨rfl, rfl, rfl, fun m n h => h.alike.type.symm, ?_, ?_, ?_⟩
      · intro m n h mark rnd
        simp only [pktSem, holds]
        rw [core_alike hs h, h.alike.negate]
      · intro m n h
        simp only [pktSem]
        rw [typesOf_alike h]
      · intro r q now h1 h2 h3
        simp only [pktSem, pktEntry, SameEntry, h1, h2, h3]
    | sock h3 => rw [hh] at h3; exact absurd h3 h1
  | sock h1 =>
    cases hc' with
    | packet h3 _ _ => rw [hh] at h3; exact absurd h1 h3
    | sock _ =>
      rw [hh, hE.kernel, hE.sock]
      refine ⟨rfl, rfl, rfl, fun m n h => h.alike.type.symm, ?_, ?_, ?_⟩
      · intro m n h mark rnd
        simp only [sockSem, sockHolds]
        rw [sockCore_alike hs h, h.alike.negate]
      · intro m n h
        simp only [sockSem]
        rw [typesOf_alike h]
      · intro r q now h1 h2 h3
        show SameEntry (sockEntry _ _ r now) (sockEntry _ _ q now)
        unfold SameEntry sockEntry
        rw [h1, h3]

/-- Two programs did the same to a packet: same value returned, same mark, counters, rate-limit state and redirection, and the same log entries, captured
header bytes aside. -/
structure DidSame (v : BitVec 64) (w : World) (v' : BitVec 64) (w' : World) : Prop where
  ret : v' = v
  mark : w'.mark = w.mark
  counters : w'.counters = w.counters
  state : w'.state = w.state
  redirect : w'.redirect = w.redirect
  logs : w'.logs.length = w.logs.length ∧ ∀ (i : Nat) (x y : LogRec), w.logs[i]? = some x → w'.logs[i]? = some y → SameEntry x y

/-- C57: chains that are alike, once loaded, do the same to every packet and every socket operation. -/
theorem C57_alike {c c' : Chain × Option HookOpts} (hb : BuiltChain c.1) (hb' : BuiltChain c'.1) (ha : ChainAlike c c')
    (hfit : ∀ r ∈ c.1.rules, ∀ m ∈ r.matchers, m.type = .ip6Snet ∨ m.type = .ip6Dnet → host m.payload 0 4 ≤ 128)
    (h : IsLoaded E c.1 thr img) (h' : IsLoaded E' c'.1 thr img') (hE : SameArrival E E')
    (hr : Runs E img w v w') (hr' : Runs E' img' w v' u') : DidSame v w' v' u' := by
  have hrules := rules_corr hb hb' ha fun r hr m hm => ⟨h.matchers r hr m hm, hfit r hr m hm⟩
  have hn := nexthdr_alike hb hb' hrules
  have hh := ha.hook.symm
  have hun := hE.unreadable hh hn
  rcases h.outcome hr with ⟨hu, _⟩ | ⟨s, hs, hdec⟩
  · obtain ⟨e1, e2⟩ := C04_unreadable h hr hu
    obtain ⟨e3, e4⟩ := C04_unreadable h' hr' (hun.mpr hu)
    rw [hh] at e3
    rw [← hrules.length, hh, hE.input] at e4
    rw [e1, e2, e3, e4]
    exact ⟨rfl, rfl, rfl, rfl, rfl, rfl, fun i x y hx hy => by rw [hx] at hy; cases hy; rfl⟩
  · rcases h'.outcome hr' with ⟨hu, _⟩ | ⟨s', hs', hdec'⟩
    · exact absurd (hun.mp hu) hs.readable
    · have e := decides_iff.mp hdec
      have e' := decides_iff.mp hdec'
      obtain ⟨h1, h2⟩ := evalView_corr (sees_corr hE hh hn h.sets hs hs') hrules c.1.policy (WSim.rfl' w)
      rw [e] at h1 h2
      rw [← ha.policy] at e'
      rw [e'] at h1 h2
      obtain ⟨l1, l2⟩ := LogSim.each h2.logs
      exact ⟨h1, h2.mark, funext h2.counters, funext h2.state, h2.redirect, l1.symm, l2⟩

end Bf

namespace Bf.Cli
open Bf.Spec

theorem shown_fits {env : TextEnv} {rate : List Char → Option Nat} {c : Chain} {o : Option HookOpts} (h : ChainShown env rate c o) :
    ∀ r ∈ c.rules, ∀ m ∈ r.matchers, m.type = .ip6Snet ∨ m.type = .ip6Dnet → host m.payload 0 4 ≤ 128 := by
  intro r hr m hm ht
  have hs := ((h.rules r hr).matchers m hm).2 (by rcases ht with e | e <;> rw [e] <;> decide)
  exact hs.ok.net6 ht

/-- C57: a chain read from a text is printed; what is printed, once the counters are taken off, is read as a chain that does the same to every packet and
every socket operation.

Partial: chains with an empty set, with flags, interfaces or IPv6 addresses that are not read as they are printed, and percentages are left out (see C50). -/
theorem C57_again_partial {e : PEnv} (he : TextEnvOk e.text) (hp : PlainNames e.text) (hr : PlainRates e.rate) {text : List Char} {cs : List ChainS}
    (hw : Writes text cs) {rs : List (Chain × Option HookOpts)} (h : bfcParse e text = some (.ok rs)) (hl : text.length ≤ 4294967296)
    {c : Chain} {o : Option HookOpts} (hc : (c, o) ∈ rs) (hs : ∀ r ∈ c.rules, ∀ m ∈ r.matchers, m.type ≠ .set → Sayable e.text m) (hne : ∀ x ∈ c.sets, x.elems ≠ [])
    (k : Counts) : ∃ printed, chainDump e.text c o k false = .ok printed ∧ (printed.length + 4 ≤ e.fuel →
      ∃ c' o', bfcParse e (edit printed) = some (.ok [(c', o')]) ∧ ChainAlike (c, o) (c', o') ∧
      ∀ {E E' : Env} {thr : Nat → BitVec 32} {img img' : List Insn} {w w' u' : World} {v v' : BitVec 64}, IsLoaded E c thr img → IsLoaded E' c' thr img' →
        SameArrival E E' → Runs E img w v w' → Runs E' img' w v' u' → DidSame v w' v' u') := by
  obtain ⟨printed, h1, h2⟩ := C50_again_partial he hp hr hw h hl hc hs k
  refine ⟨printed, h1, fun hf => ?_⟩
  obtain ⟨h3, h4⟩ := h2 hf
  obtain ⟨rs', hrs⟩ := h3.mpr hne
  obtain ⟨⟨c', o'⟩, rfl, ha⟩ := h4 rs' hrs
  refine ⟨c', o', hrs, ha, ?_⟩
  intro E E' thr img img' w w' u' v v' hL hL' hE hR hR'
  exact C57_alike (c := (c, o)) (c' := (c', o')) (bfcParse_built h _ hc) (bfcParse_built hrs _ (by simp)) ha
    (shown_fits (C50_read hp hr hw h hl hc hs)) hL hL' hE hR hR'

end Bf.Cli
