import Verif.Props.C36_CatchAll
import Verif.Spec.Proto
/-!
# C15: rules that can't match
-/
namespace Bf
open Spec

/-- Two types are about different protocols of the same layer. -/
def Clash (t1 t2 : MType) : Prop :=
  t1.meta_.layer = t2.meta_.layer ∧ t1.meta_.layer ≠ .noLayer ∧ t1.meta_.hdrId ≠ t2.meta_.hdrId

theorem clash_iff (t1 t2 : MType) : Clash t1 t2 ↔
    ((∃ a b, netOf t1 = some a ∧ netOf t2 = some b ∧ a ≠ b) ∨
     (∃ a b, transOf t1 = some a ∧ transOf t2 = some b ∧ a ≠ b)) := by
  have key : ∀ t : MType,
      (netOf t = none ∧ transOf t = none ∧ t.meta_.layer = .noLayer) ∨
      (∃ n, netOf t = some n ∧ transOf t = none ∧ t.meta_.layer = .l3 ∧ t.meta_.hdrId = n.etherType) ∨
      (∃ n, netOf t = none ∧ transOf t = some n ∧ t.meta_.layer = .l4 ∧ t.meta_.hdrId = n.num) := by
    intro t; cases t <;> simp [MType.meta_, netOf, transOf, Net.etherType, Trans.num]
  have inj3 : ∀ a b : Net, a.etherType = b.etherType → a = b := by intro a b; cases a <;> cases b <;> simp [Net.etherType]
  have inj4 : ∀ a b : Trans, a.num = b.num → a = b := by intro a b; cases a <;> cases b <;> simp [Trans.num]
  unfold Clash
  rcases key t1 with ⟨a1, a2, a3⟩ | ⟨n, a1, a2, a3, a4⟩ | ⟨n, a1, a2, a3, a4⟩ <;>
    rcases key t2 with ⟨b1, b2, b3⟩ | ⟨m, b1, b2, b3, b4⟩ | ⟨m, b1, b2, b3, b4⟩ <;>
    simp [a1, a2, a3, b1, b2, b3]
  · rw [a4, b4]
    exact ⟨fun h e => h (by rw [e]), fun h e => h (inj3 _ _ e)⟩
  · rw [a4, b4]
    exact ⟨fun h e => h (by rw [e]), fun h e => h (inj4 _ _ e)⟩

theorem checkLayer_none {t : MType} {ids : LayerIds} (h : checkLayer t ids = none) :
    t.meta_.layer ≠ .noLayer ∧ ∃ n, ids t.meta_.layer = some n ∧ n ≠ t.meta_.hdrId := by
  unfold checkLayer at h
  split at h
  · cases h
  · next hl =>
    refine ⟨hl, ?_⟩
    split at h
    · cases h
    · next n hn =>
      split at h
      · next hne => exact ⟨n, hn, hne⟩
      · cases h

/-- `ids` are the protocols of some of the types `ts`. -/
def IdsOf (ids : LayerIds) (ts : List MType) : Prop :=
  ∀ l n, ids l = some n → ∃ t ∈ ts, t.meta_.layer = l ∧ l ≠ .noLayer ∧ t.meta_.hdrId = n

theorem IdsOf.mono {ids : LayerIds} {ts us : List MType} (h : IdsOf ids ts) (hs : ∀ t ∈ ts, t ∈ us) : IdsOf ids us :=
  fun l n hn => by
    obtain ⟨t, a, b⟩ := h l n hn
    exact ⟨t, hs t a, b⟩

theorem checkLayer_ids {t : MType} {ids ids' : LayerIds} {ts : List MType} (hi : IdsOf ids ts)
    (h : checkLayer t ids = some ids') : IdsOf ids' (ts ++ [t]) := by
  unfold checkLayer at h
  split at h
  · cases h; exact hi.mono fun t h => by simp [h]
  · next hl =>
    split at h
    · cases h
      intro l n hn
      simp only at hn
      split at hn
      · next e => cases hn; exact ⟨t, by simp, e.symm, by rw [e]; exact hl, rfl⟩
      · obtain ⟨t', a, b⟩ := hi l n hn
        exact ⟨t', by simp [a], b⟩
    · split at h
      · cases h
      · cases h; exact hi.mono fun t h => by simp [h]

/-- What the outcome of a check of the types `ts` says. -/
def LayersSay (ts : List MType) : Option LayerIds → Prop
  | some ids' => IdsOf ids' ts
  | none => ∃ t1 ∈ ts, ∃ t2 ∈ ts, Clash t1 t2

theorem checkLayers_ids {us ts : List MType} {ids : LayerIds} (hi : IdsOf ids ts) :
    LayersSay (ts ++ us) (checkLayers us ids) := by
  induction us generalizing ts ids with
  | nil => simpa [checkLayers, LayersSay] using hi
  | cons u us ih =>
    unfold checkLayers
    cases h : checkLayer u ids with
    | none =>
      obtain ⟨h1, n, h2, h3⟩ := checkLayer_none h
      obtain ⟨t, a, b, d, e⟩ := hi _ _ h2
      exact ⟨t, by simp [a], u, by simp, b, by rw [b]; exact d, by rw [e]; exact h3⟩
    | some ids' =>
      have := ih (checkLayer_ids hi h)
      rw [List.append_assoc] at this
      exact this

theorem incompatible_clash {sets : List BSet} {ms : List Matcher} {ts : List MType} {ids : LayerIds} (hi : IdsOf ids ts)
    (h : incompatible sets ms ids = .ok true) :
    ∃ t1 ∈ ts ++ ms.flatMap (typesOf sets), ∃ t2 ∈ ts ++ ms.flatMap (typesOf sets), Clash t1 t2 := by
  induction ms generalizing ts ids with
  | nil => cases h
  | cons m ms ih =>
    simp only [incompatible] at h
    obtain ⟨x, h1, h2⟩ := Res.bind_eq_ok h
    have key : LayersSay (ts ++ typesOf sets m) x := by
      unfold typesOf
      split at h1
      · next hset =>
        obtain ⟨n, hn, h1⟩ := Res.bind_eq_ok h1
        rw [if_pos hset, ← rd_host hn]
        split at h1
        · cases h1
        · next s hs =>
          rw [hs]
          simp only [Res.ok.injEq] at h1
          subst h1
          exact checkLayers_ids hi
      · next hset =>
        rw [if_neg hset]
        simp only [Res.ok.injEq] at h1
        have := checkLayers_ids (us := [m.type]) hi
        unfold checkLayers at this
        rw [h1] at this
        cases x with
        | none => exact this
        | some ids' => exact this
    cases x with
    | none =>
      obtain ⟨t1, a1, t2, a2, hc⟩ := key
      refine ⟨t1, ?_, t2, ?_, hc⟩ <;> simp only [List.flatMap_cons, ← List.append_assoc] <;> exact List.mem_append_left _ (by assumption)
    | some ids' =>
      have := ih key h2
      simpa only [List.flatMap_cons, ← List.append_assoc] using this

theorem compat_no_clash {ts : List MType} (h : Compat ts) {t1 t2 : MType} (h1 : t1 ∈ ts) (h2 : t2 ∈ ts) : ¬ Clash t1 t2 := by
  obtain ⟨ids, h⟩ := h
  rintro ⟨a, b, d⟩
  have e1 := h t1 h1 b
  have e2 := h t2 h2 (by rw [← a]; exact b)
  rw [a, e2] at e1
  injection e1 with e1
  exact d e1.symm

theorem needsTwo_iff {sets : List BSet} {r : Rule} : NeedsTwo sets r ↔
    ∃ t1 ∈ r.matchers.flatMap (typesOf sets), ∃ t2 ∈ r.matchers.flatMap (typesOf sets), Clash t1 t2 := by
  unfold NeedsTwo
  simp only [about_iff, ← clash_iff, List.mem_flatMap]
  constructor
  · rintro ⟨t1, t2, a, b, d⟩; exact ⟨t1, a, t2, b, d⟩
  · rintro ⟨t1, a, t2, b, d⟩; exact ⟨t1, t2, a, b, d⟩

theorem refsEmpty_iff {sets : List BSet} {r : Rule} {b : Bool} (h : refsEmpty sets r.matchers = .ok b) :
    b = true ↔ RefsEmptySet sets r := by
  unfold RefsEmptySet
  generalize r.matchers = ms at h ⊢
  induction ms with
  | nil => cases h; simp
  | cons m ms ih =>
    simp only [refsEmpty] at h
    split at h
    · next ht =>
      rw [ih h]
      constructor
      · rintro ⟨m', a, b⟩; exact ⟨m', by simp [a], b⟩
      · rintro ⟨m', a, b, d⟩
        rcases List.mem_cons.mp a with rfl | a
        · exact absurd b ht
        · exact ⟨m', a, b, d⟩
    · next ht =>
      have ht : m.type = .set := Decidable.not_not.mp ht
      obtain ⟨i, h1, h2⟩ := Res.bind_eq_ok h
      rw [rd_host h1] at h2
      split at h2
      · cases h2
      · next s hs =>
        split at h2
        · next he =>
          cases h2
          simp only [true_iff]
          exact ⟨m, by simp, ht, s, hs, by simpa using he⟩
        · next he =>
          rw [ih h2]
          constructor
          · rintro ⟨m', a, b⟩; exact ⟨m', by simp [a], b⟩
          · rintro ⟨m', a, b, s', d, e⟩
            rcases List.mem_cons.mp a with rfl | a
            · rw [hs] at d; cases d
              rw [e] at he; simp at he
            · exact ⟨m', a, b, s', d, e⟩

/-- A rule that can't match: it references an empty set, or requires two different protocols at one layer. -/
def Inert (sets : List BSet) (r : Rule) : Prop := RefsEmptySet sets r ∨ NeedsTwo sets r

theorem checkRule_disabled {c c' : Chain} {r r' : Rule} (h : checkRule c r = .ok (c', r')) :
    r'.disabled = true ↔ Inert c.sets r := by
  obtain ⟨d, _, rfl, hd, _⟩ := checkRule_ok h
  simp only [Inert]
  rcases hd with ⟨h1, rfl⟩ | ⟨h1, h2⟩
  · simp only [true_iff]
    exact Or.inl ((refsEmpty_iff h1).mp rfl)
  · have hne : ¬ RefsEmptySet c.sets r := fun hh => by
      have := (refsEmpty_iff h1).mpr hh
      cases this
    cases d with
    | true =>
      simp only [true_iff]
      refine Or.inr (needsTwo_iff.mpr ?_)
      have := incompatible_clash (ts := []) (fun _ _ h => by cases h) h2
      simpa using this
    | false =>
      simp only [Bool.false_eq_true, false_iff]
      rintro (hh | hh)
      · exact hne hh
      · obtain ⟨t1, a, t2, b, d⟩ := needsTwo_iff.mp hh
        exact compat_no_clash (incompatible_compat h2) a b d

/-- Chains built from rules and sets, whose sets were not changed since. -/
inductive BuiltChain : Chain → Prop
  | new {name hook policy sets rules c} : chainNew name hook policy sets rules = .ok c → BuiltChain c
  | addRule {c r c'} : BuiltChain c → chainAddRule c r = .ok c' → BuiltChain c'
  | addSet {c} (s : BSet) : BuiltChain c → BuiltChain (chainAddSet c s)

theorem BuiltChain.api {c : Chain} (h : BuiltChain c) : ApiChain c := by
  induction h with
  | new h => exact .new h
  | addRule _ h ih => exact .addRule ih h
  | addSet s _ ih => exact .addSet s ih

theorem inert_congr {sets sets' : List BSet} {r : Rule} (h : ∀ m ∈ r.matchers, m.type = .set →
    sets'[host m.payload 0 4]? = sets[host m.payload 0 4]?) : Inert sets' r ↔ Inert sets r := by
  have h1 : RefsEmptySet sets' r ↔ RefsEmptySet sets r := by
    unfold RefsEmptySet
    constructor
    · rintro ⟨m, a, b, s, d⟩; exact ⟨m, a, b, s, by rw [← h m a b]; exact d⟩
    · rintro ⟨m, a, b, s, d⟩; exact ⟨m, a, b, s, by rw [h m a b]; exact d⟩
  have h2 : ∀ t, About sets' r t ↔ About sets r t := by
    intro t
    unfold About
    constructor
    · rintro ⟨m, a, d | ⟨b, s, d⟩⟩
      · exact ⟨m, a, Or.inl d⟩
      · exact ⟨m, a, Or.inr ⟨b, s, by rw [← h m a b]; exact d⟩⟩
    · rintro ⟨m, a, d | ⟨b, s, d⟩⟩
      · exact ⟨m, a, Or.inl d⟩
      · exact ⟨m, a, Or.inr ⟨b, s, by rw [h m a b]; exact d⟩⟩
  unfold Inert NeedsTwo
  simp only [h1, h2]

/-- Same matchers, same rules as far as `Inert` is concerned. -/
theorem inert_rule {sets : List BSet} {r r' : Rule} (h : r'.matchers = r.matchers) : Inert sets r' ↔ Inert sets r := by
  unfold Inert RefsEmptySet NeedsTwo About
  rw [h]

theorem checkRules_disabled {c c' : Chain} {rs : List Rule} (hc : ∀ r ∈ c.rules, (r.disabled = true ↔ Inert c.sets r))
    (h : checkRules c rs = .ok c') : c'.sets = c.sets ∧ ∀ r ∈ c'.rules, (r.disabled = true ↔ Inert c'.sets r) := by
  induction rs generalizing c with
  | nil => cases h; exact ⟨rfl, hc⟩
  | cons r rs ih =>
    simp only [checkRules] at h
    obtain ⟨⟨c1, r1⟩, h1, h2⟩ := Res.bind_eq_ok h
    have hd := checkRule_disabled h1
    obtain ⟨d, e1, e2, _⟩ := checkRule_ok h1
    have hs : c1.sets = c.sets := by rw [e1]
    have hm : r1.matchers = r.matchers := by rw [e2]
    have := ih (c := { c1 with rules := c.rules ++ [r1] }) (by
      intro q hq
      simp only at hq ⊢
      rw [hs]
      rcases List.mem_append.mp hq with hq | hq
      · exact hc q hq
      · simp at hq
        subst hq
        rw [hd]
        exact (inert_rule (by rw [e2])).symm) h2
    exact ⟨this.1.trans hs, this.2⟩

/-- **C15.**  A rule is disabled iff it can't match. -/
theorem C15_disabled_iff {c : Chain} (h : BuiltChain c) : ∀ r ∈ c.rules, (r.disabled = true ↔ Inert c.sets r) := by
  induction h with
  | new h =>
    unfold chainNew at h
    split at h
    · cases h
    · exact (checkRules_disabled (by simp) h).2
  | addRule _ h ih =>
    unfold chainAddRule at h
    obtain ⟨⟨c1, r1⟩, h1, h2⟩ := Res.bind_eq_ok h
    cases h2
    have hd := checkRule_disabled h1
    obtain ⟨d, e1, e2, _⟩ := checkRule_ok h1
    intro q hq
    simp only at hq ⊢
    rw [show c1.sets = _ from by rw [e1]]
    rcases List.mem_append.mp hq with hq | hq
    · exact ih q hq
    · simp at hq
      subst hq
      rw [hd]
      exact (inert_rule (by rw [e2])).symm
  | addSet s hb ih =>
    intro r hr
    simp only [chainAddSet] at hr ⊢
    rw [ih r hr]
    refine (inert_congr fun m hm ht => ?_).symm
    obtain ⟨s', h1, _⟩ := (hb.api.ok.rule r hr).set m hm ht
    rw [List.getElem?_append_left (List.getElem?_eq_some_iff.mp h1).1]

variable {E E' : Env} {chain chain' : Chain} {thr : Nat → BitVec 32} {img img' : List Insn} {w w' u u' : World}
  {r r' : BitVec 64}

/-- **C15.**  A rule that can't match never fires, whatever the packet. -/
theorem C15_never_fires (hb : BuiltChain chain) {rule : Rule} (hr : rule ∈ chain.rules) (hi : Inert chain.sets rule)
    (c : Sem) (w : World) : ¬ Fires c rule w := by
  intro hf
  have := (C15_disabled_iff hb rule hr).mpr hi
  rw [hf.1] at this
  cases this

/-- **C15.**  ... never counts. -/
theorem C15_never_counts (hb : BuiltChain chain) (h : IsLoaded E chain thr img) (hr : Runs E img w r w')
    {k : Nat} {rule : Rule} (hk : chain.rules[k]? = some rule) (hi : Inert chain.sets rule) : w'.counters k = w.counters k := by
  rw [C03_counters h hr k, if_neg]
  have hlt := (List.getElem?_eq_some_iff.mp hk).1
  rintro (⟨c, _, q, wk, a, _, _, d⟩ | ⟨e, _⟩ | ⟨e, _⟩)
  · rw [hk] at a; cases a
    exact C15_never_fires hb (List.mem_of_getElem? hk) hi c wk d
  · omega
  · omega

/-! ### Adding or removing such a rule -/

/-- Whether validation disables a rule. -/
def disables (sets : List BSet) (ms : List Matcher) : Bool :=
  match refsEmpty sets ms with
  | .ok true => true
  | .ok false => match incompatible sets ms (fun _ => none) with | .ok b => b | _ => false
  | _ => false

theorem checkRules_list {c c' : Chain} {rs : List Rule} (h : checkRules c rs = .ok c') :
    c'.hook = c.hook ∧ c'.policy = c.policy ∧ c'.sets = c.sets ∧
    c'.rules = c.rules ++ rs.mapIdx (fun i q => { q with index := c.rules.length + i, disabled := disables c.sets q.matchers }) ∧
    c'.flagNexthdr = (c.flagNexthdr || rs.any fun q => q.matchers.any (·.type == .ip6Nexthdr) && !disables c.sets q.matchers) := by
  induction rs generalizing c with
  | nil => cases h; simp
  | cons q rs ih =>
    simp only [checkRules] at h
    obtain ⟨⟨c1, r1⟩, h1, h2⟩ := Res.bind_eq_ok h
    obtain ⟨d, e1, e2, hd, _⟩ := checkRule_ok h1
    have hdd : d = disables c.sets q.matchers := by
      unfold disables
      simp only at hd
      rcases hd with ⟨a, b⟩ | ⟨a, b⟩
      · rw [a]; exact b
      · rw [a, b]
    obtain ⟨i1, i2, i3, i4, i5⟩ := ih h2
    simp only at i1 i2 i3 i4 i5
    rw [e1] at i1 i2 i3 i4 i5
    refine ⟨i1, i2, i3, ?_, ?_⟩
    · rw [i4, e2, hdd]
      simp only [List.mapIdx_cons, List.append_assoc, List.singleton_append, List.length_append, List.length_singleton]
      congr 2
      congr 1
      funext i q'
      simp only [Rule.mk.injEq, true_and, and_true]
      omega
    · rw [i5, hdd]
      simp only [List.any_cons, Bool.or_assoc]

/-- Where the rules and counters of a chain are once a rule is inserted at position `k`. -/
def shiftAt (k j : Nat) : Nat := if j < k then j else j + 1

/-- Corresponding log entries, of chains whose rules are numbered differently (captured headers aside). -/
def MovedEntry (ρ : Nat → Nat) (x y : LogRec) : Prop :=
  ∃ idx : Nat, x.ruleId = BitVec.ofNat 32 idx ∧ y.ruleId = BitVec.ofNat 32 (ρ idx) ∧
    SameEntry { x with ruleId := 0 } { y with ruleId := 0 }

theorem SameArrival.moved (h : SameArrival E E') (hh : chain'.hook = chain.hook)
    (hn : chain'.flagNexthdr = chain.flagNexthdr) (hs : chain'.sets = chain.sets) {c c' : Sem}
    (hc : Sees E chain thr c) (hc' : Sees E' chain' thr c') (ρ : Nat → Nat) : SemSim ρ (MovedEntry ρ) c c' := by
  have al := h.alike hh hn hs hc hc'
  refine ⟨al.flavor, al.size, al.kernel, al.sets, al.protoOk, al.holds, ?_⟩
  intro r now
  cases hc with
  | packet h1 h2 _ =>
    cases hc' with
    | packet _ h4 _ =>
      rw [hh, hn, h.input, h2] at h4
      cases h4
      simp only [pktSem, hh, h.input]
      exact ⟨r.index, rfl, rfl, rfl⟩
    | sock h3 => rw [hh] at h3; exact absurd h3 h1
  | sock h1 =>
    cases hc' with
    | packet h3 _ _ => rw [hh] at h3; exact absurd h1 h3
    | sock _ =>
      simp only [sockSem, hh, h.sock]
      exact ⟨r.index, rfl, rfl, rfl⟩

/-- **C15.**  Adding a rule `x` that can't match (at any position), or removing it, changes nothing: from
corresponding states, the same value is returned and the mark, the redirection, the counters and
rate-limit state of the other rules, the policy and error counters, and the log entries correspond. -/
theorem C15_removal {name : String} {hook : Hook} {policy : Verdict} {sets : List BSet} {a b : List Rule} {x : Rule}
    (hn : chainNew name hook policy sets (a ++ b) = .ok chain)
    (hn' : chainNew name hook policy sets (a ++ x :: b) = .ok chain') (hx : Inert sets x)
    (h : IsLoaded E chain thr img) (h' : IsLoaded E' chain' thr img') (hE : SameArrival E E')
    (hcnt : ∀ j, u.counters (shiftAt a.length j) = w.counters j)
    (hst : ∀ j, u.state (shiftAt a.length j) = w.state j)
    (hmark : u.mark = w.mark) (hrng : u.rng = w.rng) (hclk : u.clk = w.clk) (hring : u.ring = w.ring)
    (hred : u.redirect = w.redirect) (hlogs : w.logs = []) (hlogs' : u.logs = [])
    (hr : Runs E img w r w') (hr' : Runs E' img' u r' u') :
    r' = r ∧ u'.mark = w'.mark ∧ u'.redirect = w'.redirect ∧
    (∀ j, u'.counters (shiftAt a.length j) = w'.counters j) ∧ (∀ j, u'.state (shiftAt a.length j) = w'.state j) ∧
    u'.logs.length = w'.logs.length ∧
    ∀ (i : Nat) (x y : LogRec), w'.logs[i]? = some x → u'.logs[i]? = some y → MovedEntry (shiftAt a.length) x y := by
  unfold chainNew at hn hn'
  split at hn
  · cases hn
  rename_i hp
  rw [if_neg hp] at hn'
  obtain ⟨l1, l2, l3, l4, l5⟩ := checkRules_list hn
  obtain ⟨m1, m2, m3, m4, m5⟩ := checkRules_list hn'
  simp only [List.nil_append, List.length_nil, Nat.zero_add] at l4 m4
  -- the rule is disabled
  have hxd : disables sets x.matchers = true := by
    have hb : BuiltChain chain' := .new (by unfold chainNew; rw [if_neg hp]; exact hn')
    have hmem : chain'.rules[a.length]? = some { x with index := a.length, disabled := disables sets x.matchers } := by
      rw [m4]
      simp
    have := (C15_disabled_iff hb _ (List.mem_of_getElem? hmem)).mpr (by
      rw [m3]
      exact (inert_rule (r := x) rfl).mpr hx)
    simpa using this
  have hook_eq : chain'.hook = chain.hook := by rw [m1, l1]
  have sets_eq : chain'.sets = chain.sets := by rw [m3, l3]
  have nh_eq : chain'.flagNexthdr = chain.flagNexthdr := by
    rw [m5, l5]
    simp only [List.any_append, List.any_cons, hxd]
    simp
  have hinj : ∀ p q, shiftAt a.length p = shiftAt a.length q → p = q := by
    intro p q
    unfold shiftAt
    split <;> split <;> omega
  have hw0 : WSim (shiftAt a.length) (MovedEntry (shiftAt a.length)) w u :=
    ⟨hcnt, hmark, hrng, hclk, hring, hst, by rw [hlogs, hlogs']; exact .nil, hred⟩
  -- the conclusion from the correspondence of final states
  suffices hh : r' = r ∧ WSim (shiftAt a.length) (MovedEntry (shiftAt a.length)) w' u' by
    obtain ⟨e, hs⟩ := hh
    obtain ⟨g1, g2⟩ := LogSim.each hs.logs
    exact ⟨e, hs.mark, hs.redirect, hs.counters, hs.state, g1.symm, g2⟩
  have hlen : shiftAt a.length chain.rules.length = chain'.rules.length := by
    rw [l4, m4]; simp only [List.length_mapIdx, List.length_append, List.length_cons]; unfold shiftAt; rw [if_neg (by omega)]; omega
  have hlen1 : shiftAt a.length (chain.rules.length + 1) = chain'.rules.length + 1 := by
    rw [l4, m4]; simp only [List.length_mapIdx, List.length_append, List.length_cons]; unfold shiftAt; rw [if_neg (by omega)]; omega
  rcases h.outcome hr with ⟨hu, e⟩ | ⟨c, hc, hd⟩
  · rcases h'.outcome hr' with ⟨_, e'⟩ | ⟨c', hc', _⟩
    · rw [hook_eq, hE.input] at e'
      injection e with e1 e2
      injection e' with e1' e2'
      rw [e1, e1', e2, e2']
      refine ⟨rfl, ?_⟩
      rw [← hlen1]
      exact hw0.count hinj _ _
    · exact absurd ((hE.unreadable hook_eq nh_eq).mpr hu) hc'.readable
  rcases h'.outcome hr' with ⟨hu', _⟩ | ⟨c', hc', hd'⟩
  · exact absurd ((hE.unreadable hook_eq nh_eq).mp hu') hc.readable
  have hsem := hE.moved hook_eq nh_eq sets_eq hc hc' (shiftAt a.length)
  have key : evalRules c' chain'.rules u =
      evalRules c' (chain.rules.map fun q => { q with index := shiftAt a.length q.index }) u := by
    have e1 : chain.rules.map (fun q => { q with index := shiftAt a.length q.index }) =
        a.mapIdx (fun i q => { q with index := i, disabled := disables sets q.matchers }) ++
        b.mapIdx (fun i q => { q with index := i + 1 + a.length, disabled := disables sets q.matchers }) := by
      rw [l4, List.mapIdx_append, List.map_append]
      congr 1
      · apply List.ext_getElem?
        intro i
        simp only [List.getElem?_map, List.getElem?_mapIdx]
        cases hi : a[i]? with
        | none => rfl
        | some q =>
          have := (List.getElem?_eq_some_iff.mp hi).1
          simp [shiftAt, this]
      · apply List.ext_getElem?
        intro i
        simp only [List.getElem?_map, List.getElem?_mapIdx]
        cases hi : b[i]? with
        | none => rfl
        | some q =>
          have : ¬ (i + a.length < a.length) := by omega
          simp only [Option.map_some, shiftAt, this, if_false]
          rw [show i + a.length + 1 = i + 1 + a.length by omega]
    have e2 : chain'.rules = a.mapIdx (fun i q => { q with index := i, disabled := disables sets q.matchers }) ++
        { x with index := a.length, disabled := disables sets x.matchers } ::
        b.mapIdx (fun i q => { q with index := i + 1 + a.length, disabled := disables sets q.matchers }) := by
      rw [m4, List.mapIdx_append, List.mapIdx_cons]
      simp
    rw [e1, e2, evalRules_append, evalRules_append]
    cases evalRules c' (a.mapIdx fun i q => { q with index := i, disabled := disables sets q.matchers }) u with
    | stop r1 w1 => rfl
    | cont w1 =>
      simp only [evalRules]
      rw [evalRule_fails (.disabled (by simpa using hxd))]
      rfl
  have hs := evalRules_sim hsem hinj hw0 chain.rules
  rw [← key] at hs
  have e := decides_iff.mp hd
  have e' := decides_iff.mp hd'
  unfold evalView at e e'
  rcases hA : evalRules c chain.rules w with w1 | ⟨r1, w1⟩ <;>
    rcases hB : evalRules c' chain'.rules u with w2 | ⟨r2, w2⟩ <;> rw [hA, hB] at hs <;>
    rw [hA] at e <;> rw [hB] at e'
  · injection e with e1 e2
    injection e' with e1' e2'
    rw [← e1, ← e1', ← e2, ← e2', hsem.flavor, hsem.size, m2, l2, ← hlen]
    exact ⟨rfl, WSim.count hs hinj _ _⟩
  · exact hs.elim
  · exact hs.elim
  · injection e with e1 e2
    injection e' with e1' e2'
    rw [← e1, ← e1', ← e2, ← e2']
    exact hs

/-! ### Whether or not the rule is disabled

The sets of a chain can be changed by update-set after the rules were checked; what follows does not
depend on the rule being disabled. -/

theorem protoOk_layer {v : View} {t : MType} (h : protoOk v t = true) :
    (t.meta_.layer = .l3 → v.l3Num = t.meta_.hdrId) ∧ (t.meta_.layer = .l4 → v.l4Num = t.meta_.hdrId) := by
  revert h
  cases t <;> simp [protoOk, MType.meta_]

theorem sockProtoOk_layer {v : SockView} {t : MType} (h : sockProtoOk v t = true) :
    (t.meta_.layer = .l3 → v.l3Num = t.meta_.hdrId) ∧ (t.meta_.layer = .l4 → v.proto = t.meta_.hdrId) := by
  revert h
  cases t <;> simp [sockProtoOk, MType.meta_]

/-- A rule of any chain that requires two different protocols at one layer never fires. -/
theorem C15_needs_two {c : Sem} (hc : Sees E chain thr c) {rule : Rule} (h : NeedsTwo chain.sets rule) (w : World) :
    ¬ Fires c rule w := by
  rintro ⟨_, hp, _⟩
  rw [hc.sets] at hp
  obtain ⟨t1, a1, t2, a2, hcl⟩ := needsTwo_iff.mp h
  obtain ⟨m1, b1, d1⟩ := List.mem_flatMap.mp a1
  obtain ⟨m2, b2, d2⟩ := List.mem_flatMap.mp a2
  have h1 := hp m1 b1 t1 d1
  have h2 := hp m2 b2 t2 d2
  obtain ⟨c1, c2, c3⟩ := hcl
  have layers : ∀ t : MType, t.meta_.layer = .noLayer ∨ t.meta_.layer = .l3 ∨ t.meta_.layer = .l4 := by
    intro t; cases t <;> simp [MType.meta_]
  cases hc with
  | packet =>
    simp only [pktSem] at h1 h2
    obtain ⟨p1, p2⟩ := protoOk_layer h1
    obtain ⟨q1, q2⟩ := protoOk_layer h2
    rcases layers t1 with e | e | e
    · exact c2 e
    · exact c3 ((p1 e).symm.trans (q1 (c1.symm.trans e)))
    · exact c3 ((p2 e).symm.trans (q2 (c1.symm.trans e)))
  | sock =>
    simp only [sockSem] at h1 h2
    obtain ⟨p1, p2⟩ := sockProtoOk_layer h1
    obtain ⟨q1, q2⟩ := sockProtoOk_layer h2
    rcases layers t1 with e | e | e
    · exact c2 e
    · exact c3 ((p1 e).symm.trans (q1 (c1.symm.trans e)))
    · exact c3 ((p2 e).symm.trans (q2 (c1.symm.trans e)))

/-- A rule of any chain with a non-negated matcher on an empty set never fires. -/
theorem C15_empty_set {c : Sem} (hc : Sees E chain thr c) {rule : Rule} {m : Matcher} {s : BSet} (hm : m ∈ rule.matchers)
    (ht : m.type = .set) (hn : m.negate = false) (hs : chain.sets[host m.payload 0 4]? = some s) (he : s.elems = [])
    (w : World) : ¬ Fires c rule w := by
  rintro ⟨_, _, hh⟩
  obtain ⟨i, hi⟩ := List.getElem?_of_mem hm
  have := hh i m hi
  revert this
  have hin : ∀ f, inSet f s = false := by intro f; unfold inSet; simp [he]
  cases hc with
  | packet => simp [pktSem, holds, core, ht, hs, hin, hn]
  | sock => simp [sockSem, sockHolds, sockCore, ht, hs, hin, hn]

end Bf
