import Verif.Props.C50_Shown
import Verif.User.TextPayload
import Verif.Cli.Small
/-!
# C50: the chains that are read from a text can be shown
-/
namespace Bf.Spec
open Bf.Cli

/-- Interfaces are named by words of the language, and not by numbers. -/
structure PlainNames (env : TextEnv) : Prop where
  word : ∀ i n, env.indexToName i = some n → Made (fun c => Alnum c ∨ c = '-') n ∧ ¬ Reserved n
  number : ∀ i, env.nameToIndex (printNat 10 i) = 0

/-- A duration is read as it is printed (floating point). -/
def PlainRates (rate : List Char → Option Nat) : Prop := ∀ s n, rate s = some n → n < 18446744073709551616 ∧ rate (rateWord n) = some n

/-- Not a percentage (floating point), nor an IPv6 address whose end is written as an IPv4 address. -/
def Sayable (env : TextEnv) (m : Matcher) : Prop :=
  isPct m.type = false ∧ (m.type = .ip6Saddr ∨ m.type = .ip6Daddr ∨ m.type = .ip6Snet ∨ m.type = .ip6Dnet → '.' ∉ printPayload env m.type m.op m.payload)

end Bf.Spec

namespace Bf.Cli
open Bf.Spec

namespace Dmp

/-! ## The order of the sets -/

theorem setMatcher_unnamed {sets : List BSet} {i : Nat} {neg : Bool} {s : BSet} (hi : i < 4294967296) (hs : sets[i]? = some s) :
    unnamed sets (setMatcher i neg) = if s.name = none then some s else none := by
  unfold unnamed
  rw [if_pos (show (setMatcher i neg).type = .set from rfl), show (setMatcher i neg).payload = leBytes 4 i from rfl, rd_set hi]
  dsimp only
  rw [hs]
  rfl

theorem matcherAct_order {e : PEnv} {st st' : PState} {s : MatcherS} {m : Matcher} (h : matcherAct e st s = some (.ok (m, st'))) :
    ∃ new, st'.sets = st.sets ++ new ∧ ∀ more, (st'.sets ++ more).length ≤ 4294967296 → [m].filterMap (unnamed (st'.sets ++ more)) = new := by
  cases s with
  | plain t neg op p =>
    unfold matcherAct at h
    obtain ⟨ty, h1, h⟩ := Run.bind_ok h
    obtain ⟨o, h2, h⟩ := Run.bind_ok h
    obtain ⟨m', h3, h⟩ := Run.bind_ok h
    cases h
    refine ⟨[], by simp, fun more _ => ?_⟩
    have h3 := orAbort_ok h3
    have ht : m.type ≠ .set := by
      intro ht
      unfold matcherNewFromRaw at h3
      split at h3
      · next hp =>
        cases h3
        simp only at ht
        subst ht
        unfold parsePayload at hp
        have : MType.codec .set o = none := by cases o <;> rfl
        rw [this] at hp
        cases hp
      · cases h3
      · cases h3
    simp [unnamed, ht]
  | «inline» k neg op p =>
    unfold matcherAct at h
    obtain ⟨o, h1, h⟩ := Run.bind_ok h
    split at h
    · cases h
    · obtain ⟨set, h2, h⟩ := Run.bind_ok h
      cases h
      have hs := setNewFromRaw_says (andAbort_ok h2)
      refine ⟨[set], rfl, fun more hm => ?_⟩
      have hi : st.sets.length < 4294967296 := by simp at hm; omega
      have hg : ((st.sets ++ [set]) ++ more)[st.sets.length]? = some set := by simp
      have hu := setMatcher_unnamed (neg := neg) hi hg
      rw [if_pos hs.1] at hu
      rw [List.filterMap_cons, hu]
      rfl
  | named k neg op name =>
    unfold matcherAct at h
    obtain ⟨o, h1, h⟩ := Run.bind_ok h
    split at h
    · cases h
    · obtain ⟨test, h2, h⟩ := Run.bind_ok h
      obtain ⟨found, h3, h⟩ := Run.bind_ok h
      split at h
      · cases h
      · cases h
        obtain ⟨j, e1, e2, e3, e4⟩ := findSet_says (orAbort?_ok h3)
        rw [Nat.zero_add] at e1
        refine ⟨[], by simp, fun more hm => ?_⟩
        have hj : j < st.sets.length := by
          rcases Nat.lt_or_ge j st.sets.length with h | h
          · exact h
          · rw [List.getElem?_eq_none h] at e2; cases e2
        have hi : found.1 < 4294967296 := by simp at hm; omega
        have hg : (st.sets ++ more)[found.1]? = some found.2 := by rw [e1, List.getElem?_append_left hj]; exact e2
        have hu := setMatcher_unnamed (neg := neg) hi hg
        rw [if_neg (by rw [e3]; simp)] at hu
        rw [List.filterMap_cons, hu]
        rfl

theorem matchersAct_order {e : PEnv} : ∀ {l : List MatcherS} {st st' : PState} {ms : List Matcher}, matchersAct e st l = some (.ok (ms, st')) →
    ∃ new, st'.sets = st.sets ++ new ∧ ∀ more, (st'.sets ++ more).length ≤ 4294967296 → ms.filterMap (unnamed (st'.sets ++ more)) = new
  | [], st, st', ms, h => by cases h; exact ⟨[], by simp, fun _ _ => rfl⟩
  | s :: l, st, st', ms, h => by
    unfold matchersAct at h
    obtain ⟨x, h1, h⟩ := Run.bind_ok h
    obtain ⟨y, h2, h⟩ := Run.bind_ok h
    cases h
    obtain ⟨a, ha, hf⟩ := matcherAct_order (m := x.1) (st' := x.2) h1
    obtain ⟨b, hb, hg⟩ := matchersAct_order (ms := y.1) (st' := y.2) h2
    refine ⟨a ++ b, by rw [hb, ha, List.append_assoc], fun more hm => ?_⟩
    have h3 := hf (b ++ more) (by rw [← List.append_assoc, ← hb]; exact hm)
    rw [← List.append_assoc, ← hb] at h3
    rw [← List.singleton_append, List.filterMap_append, h3, hg more hm]

theorem rulesAct_order {e : PEnv} : ∀ {l : List RuleS} {st st' : PState} {rs : List Rule}, rulesAct e st l = some (.ok (rs, st')) →
    ∃ new, st'.sets = st.sets ++ new ∧ ∀ more, (st'.sets ++ more).length ≤ 4294967296 → (rs.flatMap (·.matchers)).filterMap (unnamed (st'.sets ++ more)) = new
  | [], st, st', rs, h => by cases h; exact ⟨[], by simp, fun _ _ => rfl⟩
  | s :: l, st, st', rs, h => by
    unfold rulesAct at h
    obtain ⟨x, h1, h⟩ := Run.bind_ok h
    obtain ⟨y, h2, h⟩ := Run.bind_ok h
    cases h
    unfold ruleAct at h1
    obtain ⟨ms, h3, h1⟩ := Run.bind_ok h1
    obtain ⟨o, _, h1⟩ := Run.bind_ok h1
    obtain ⟨v, _, h1⟩ := Run.bind_ok h1
    cases h1
    obtain ⟨a, ha, hf⟩ := matchersAct_order (ms := ms.1) (st' := ms.2) h3
    obtain ⟨b, hb, hg⟩ := rulesAct_order (rs := y.1) (st' := y.2) h2
    simp only at hb
    refine ⟨a ++ b, by rw [hb, ha, List.append_assoc], fun more hm => ?_⟩
    have h3 := hf (b ++ more) (by rw [← List.append_assoc, ← hb]; exact hm)
    rw [← List.append_assoc, ← hb] at h3
    rw [List.flatMap_cons, List.filterMap_append, hg more hm, h3]

theorem mapIdx_matchers {f : Nat → Rule → Rule} (hf : ∀ i r, (f i r).matchers = r.matchers) (l : List Rule) : (l.mapIdx f).flatMap (·.matchers) = l.flatMap (·.matchers) := by
  rw [List.flatMap_def, List.flatMap_def]
  congr 1
  refine List.ext_getElem? fun i => ?_
  rw [List.getElem?_map, List.getElem?_map, List.getElem?_mapIdx]
  cases l[i]? with
  | none => rfl
  | some r => simp [hf]

theorem chainAct_order {e : PEnv} {st st' : PState} {s : ChainS} {c : Chain × Option HookOpts} (h0 : st.sets = []) (h : chainAct e st s = some (.ok (c, st')))
    (hn : c.1.sets.length ≤ 4294967296) :
    (∃ decl, c.1.sets = decl ++ (c.1.rules.flatMap (·.matchers)).filterMap (unnamed c.1.sets) ∧ ∀ s ∈ decl, s.name ≠ none) ∧
    ∀ ho, c.2 = some ho → validate ho c.1.hook = .ok () := by
  unfold chainAct at h
  obtain ⟨hook, h1, h⟩ := Run.bind_ok h
  obtain ⟨o, h2, h⟩ := Run.bind_ok h
  obtain ⟨policy, h3, h⟩ := Run.bind_ok h
  obtain ⟨st1, h4, h⟩ := Run.bind_ok h
  obtain ⟨rs, h5, h⟩ := Run.bind_ok h
  split at h
  · cases h
  · next hp =>
    obtain ⟨chain, h6, h⟩ := Run.bind_ok h
    obtain ⟨u, h7, h⟩ := Run.bind_ok h
    cases h
    have h6 := orAbort_ok h6
    unfold chainNew at h6
    split at h6
    · cases h6
    · obtain ⟨c1, c2, c3, c4, _⟩ := checkRules_list h6
      simp only [List.nil_append, List.length_nil, Nat.zero_add] at c1 c2 c3 c4
      obtain ⟨s1, decl, s2, s3⟩ := setsAct_says h4
      rw [h0, List.nil_append] at s2
      obtain ⟨new, r1, r2⟩ := rulesAct_order (rs := rs.1) (st' := rs.2) h5
      refine ⟨⟨decl, ?_, fun x hx => ?_⟩, fun ho hho => ?_⟩
      · have := r2 [] (by rw [List.append_nil, ← c3]; exact hn)
        rw [List.append_nil] at this
        have hms : chain.rules.flatMap (·.matchers) = rs.1.flatMap (·.matchers) := by
          rw [c4]
          refine mapIdx_matchers ?_ _
          intro i r; rfl
        rw [hms, c3, this, r1, s2]
      · obtain ⟨d, _, hd⟩ := each_mem s3 hx
        rw [hd.1]; simp
      · simp only at hho
        subst hho
        unfold validateAct at h7
        exact orAbort_ok h7

/-! ## Options -/

theorem opts_read {hook : Hook} {opts : List (List Char)} {o : HookOpts} (ht : ∀ w ∈ opts, OptionText w) (h : HookOptsSay hook opts (some o)) (hv : validate o hook = .ok ()) :
    OptsShown hook o := by
  rcases h with ⟨_, h⟩ | ⟨x, hne, he, a1, a2⟩
  · cases h
  cases he
  have hrec : ∀ t, t ≠ .family → o.isUsed t = true → ∃ v, ValueOk t v ∧ Records o t v ∧ Made (fun c => WordChar c ∨ c = '-' ∨ c = '.' ∨ c = '/') v := by
    intro t ht' hu
    obtain ⟨c1, c2⟩ := a2 t ht'
    rw [if_pos (c2.mp hu)] at c1
    unfold times at c1
    obtain ⟨raw, hraw⟩ : ∃ raw, raw ∈ opts.filter fun r => (t.name.toList ++ ['=']).isPrefixOf r := by
      cases hl : opts.filter fun r => (t.name.toList ++ ['=']).isPrefixOf r with
      | nil => rw [hl] at c1; cases c1
      | cons r l => exact ⟨r, List.mem_cons_self⟩
    obtain ⟨hr1, hr2⟩ := List.mem_filter.mp hraw
    obtain ⟨t1, v1, g1, vo, r1⟩ := a1 raw hr1
    rw [Gives.prefix g1, decide_eq_true_eq] at hr2
    subst hr2
    refine ⟨v1, vo, r1, ?_⟩
    obtain ⟨n, v, e, hn, hv⟩ := ht raw hr1
    unfold Gives at g1
    have hne : '=' ∉ n := fun hc => word_ne (hn.2 _ hc) (by decide) rfl
    have h1 := takeWhile_until (b := v1) (name_noeq t)
    have h2 := takeWhile_until (b := v) hne
    rw [← e, g1] at h2
    have := h1.1.symm.trans h2.1
    have := h1.2.symm.trans h2.2
    cases this
    exact hv
  refine ⟨hv, fun h => ?_, fun h => ?_, fun h => ?_⟩
  · obtain ⟨v, _, ⟨n, ⟨_, _, h1⟩, h2⟩, _⟩ := hrec .ifindex (by decide) h
    omega
  · obtain ⟨v, _, h1, h2⟩ := hrec .cgpath (by decide) h
    exact ⟨_, h1, by rw [String.toList_ofList]; exact h2⟩
  · obtain ⟨v, ⟨p, q, m, n, e1, e2, _, e3, e4, n1, n2, n3⟩, ⟨p', q', m', n', f1, f2, f3, f4, f5, f6⟩, _⟩ := hrec .priorities (by decide) h
    obtain ⟨rfl, rfl⟩ := split_unique (e1.symm.trans f1) e2 f2
    have k1 := number_unique e3 f3
    have k2 := number_unique e4 f4
    obtain ⟨_, _, b1⟩ := e3
    obtain ⟨_, _, b2⟩ := e4
    rw [f5, f6, ← k1, ← k2]
    omega

/-! ## Sets -/

theorem elem_read {env : TextEnv} {key : List MType} {s : List Char} {e : List Byte} (h : ElemOf env key s e) : ElemShown key e := by
  obtain ⟨comps, h1, h2, h3⟩ := h
  refine ⟨comps, h1, h2, fun c hc => ?_⟩
  obtain ⟨x, _, h4, buf, hb, h5⟩ := each_mem h3 hc
  exact (C43_valid hb h5).1

theorem set_read {env : TextEnv} {name : Option String} {k p : List Char} {x : BSet} (h : SetSays env name k p x) (hn : ∀ n, name = some n → NameText n.toList) : SetShown x := by
  obtain ⟨h1, h2, h3, es, h4, h5, h6⟩ := h
  refine ⟨⟨h2.1, h2.2.1, h3⟩, h5, fun e he => ?_, fun n hx => hn n (h1.symm.trans hx)⟩
  obtain ⟨s, _, hs⟩ := each_mem h4 ((h6 e).mp he)
  exact elem_read hs

/-! ## Matchers -/

theorem flagList_token {w : List Char} (h : FlagList w) : ∃ t, t ∈ tokens (· = ',') w := by
  have hl : ∀ {w : List Char}, Made Letter w → ∀ x ∈ w, decide (x = ',') = false := by
    intro w hw x hx
    simp only [decide_eq_false_iff_not]
    rintro rfl
    rcases hw.2 _ hx with h | h
    · exact absurd h (by unfold Lower; decide)
    · exact absurd h (by unfold Upper; decide)
  cases h with
  | one h => exact ⟨w, by rw [tokens_plain h.1 (hl h)]; exact List.mem_singleton.mpr rfl⟩
  | more h _ => exact ⟨_, by rw [tokens_cut h.1 (hl h) (by decide)]; exact List.mem_cons_self⟩

theorem flags_ne {w : List Char} {v : Nat} (hw : FlagList w) (h : FlagsText w v) : v ≠ 0 := by
  rintro rfl
  obtain ⟨t, ht⟩ := flagList_token hw
  obtain ⟨n, x, hx⟩ := h.1 t ht
  have := (h.2 n).mpr ⟨t, ht, x, hx⟩
  simp at this

theorem payload_flags {env : TextEnv} {op : MOp} {buf p : List Byte} {w : List Char} (hb : buf.length = MType.tcpFlags.refSize op) (hw : FlagList w)
    (h : parsePayload env .tcpFlags op buf w = .ok p) : leNat p ≠ 0 := by
  unfold parsePayload at h
  have hc : MType.tcpFlags.codec op = some .tcpFlags ∧ MType.tcpFlags.refSize op = 1 ∨ MType.tcpFlags.codec op = none := by cases op <;> simp [MType.codec, MType.refSize]
  rcases hc with ⟨hc, hs⟩ | hc
  · rw [hc] at h
    dsimp only at h
    split at h
    · cases h
    · next bs hp =>
      cases h
      simp only [Codec.parse, Option.map_eq_some_iff] at hp
      obtain ⟨v, hv, rfl⟩ := hp
      have hf := parseFlags_iff.mp hv
      have hlt := flags_lt hf
      have he : overwrite (leBytes 1 v) buf = leBytes 1 v := by
        unfold overwrite
        rw [List.drop_eq_nil_of_le (by rw [hb, hs]; simp), List.append_nil]
      rw [he, leNat_leBytes_lt (by omega)]
      exact flags_ne hw hf
  · rw [hc] at h; cases h

theorem doc_matcher_inj {a b : MType} (h : (Doc.matcher a).toList = (Doc.matcher b).toList) : a = b := by
  cases a <;> cases b <;> first | rfl | (revert h; decide)
theorem doc_op_inj {a b : MOp} (h : (Doc.op a).toList = (Doc.op b).toList) : a = b := by
  cases a <;> cases b <;> first | rfl | (revert h; decide)

theorem matcher_read {env : TextEnv} (hp : PlainNames env) {sets : List BSet} {s : MatcherS} {m : Matcher} (ht : MatcherText s) (h : MatcherSays env sets s m)
    (hs : m.type ≠ .set → Sayable env m) : MatcherShown env sets m := by
  cases s with
  | plain t neg op p =>
    obtain ⟨ty, t1, t2, t3, t4⟩ := ht
    obtain ⟨h1, h2, h3, h4, buf, hb, h5⟩ := h
    have := doc_matcher_inj (t1.symm.trans h1)
    subst this
    have hne : m.type ≠ .set := by
      intro h; rw [h] at t3; exact t3
    refine ⟨fun h => absurd h hne, fun _ => ⟨?_, (C43_valid hb h5).1, (hs hne).1, fun hf => ?_, fun _ n hn => hp.word _ _ hn, (hs hne).2⟩⟩
    · rcases h2 with ⟨rfl, ho⟩ | ho
      · rw [ho]
        revert hne
        cases m.type <;> simp [ops]
      · obtain ⟨x, hx, hw⟩ := t2 _ ho
        rw [doc_op_inj hw]; exact hx
    · generalize m.type = ty at *
      subst hf
      exact payload_flags hb t3 h5
  | «inline» k neg op p =>
    obtain ⟨h1, h2, h3, h4, i, x, g1, g2, g3⟩ := h
    refine ⟨fun _ => ⟨h3, i, x, ⟨g1, g2⟩, fun n hn => ?_⟩, fun h => absurd h2 h⟩
    rw [g3.1] at hn; cases hn
  | named k neg op name =>
    obtain ⟨h1, h2, h3, h4, i, x, g1, g2, g3, g4, g5⟩ := h
    refine ⟨fun _ => ⟨h3, i, x, ⟨g1, g2⟩, fun n hn => ?_⟩, fun h => absurd h2 h⟩
    rw [g3] at hn; cases hn
    exact g5

/-! ## Rules -/

theorem log_read {hs : List (List Char)} {v : BitVec 8} (h : LogSays hs v) : v ≠ 0 ∧ (v = 0xFF#8 ∨ v.toNat < 8) := by
  rcases h with ⟨_, rfl⟩ | ⟨h1, h2, h3⟩
  · exact ⟨by decide, .inl rfl⟩
  · refine ⟨?_, .inr ?_⟩
    · rintro rfl
      obtain ⟨x, hx⟩ : ∃ x, x ∈ hs := by
        cases hs with
        | nil => exact absurd rfl h1
        | cons a l => exact ⟨a, List.mem_cons_self⟩
      obtain ⟨n, y, hy⟩ := h2 x hx
      have := (h3 n).mpr ⟨x, hx, y, hy⟩
      simp at this
    · apply Nat.lt_pow_two_of_testBit v.toNat (n := 3)
      intro i hi
      rw [BitVec.testBit_toNat]
      cases hb : v.getLsbD i with
      | false => rfl
      | true =>
        obtain ⟨_, _, x, hx, _⟩ := (h3 i).mp hb
        unfold Doc.log at hx
        split at hx <;> first | omega | cases hx

theorem rule_read {env : TextEnv} (hp : PlainNames env) {rate : List Char → Option Nat} (hr : PlainRates rate) {sets : List BSet} {s : RuleS} {r : Rule} (ht : RuleText s)
    (h : RuleSays env rate sets s r) (hs : ∀ m ∈ r.matchers, m.type ≠ .set → Sayable env m) : RuleShown env rate sets r := by
  have hlog : (r.log = 0 ∧ r.rate = 0) ∨ ∃ hs t, LogSays hs r.log ∧ RateSays rate t r.rate := by
    by_cases hl : ∀ o ∈ s.options, isLog o = false
    · exact .inl (h.options.noLog hl)
    · right
      rw [Classical.not_forall] at hl
      obtain ⟨o, hl⟩ := hl
      rw [Classical.not_imp] at hl
      obtain ⟨ho, hl⟩ := hl
      cases o with
      | log hs t => exact ⟨hs, t, h.options.log hs t ho⟩
      | counter => exact absurd rfl hl
      | mark v => exact absurd rfl hl
  refine ⟨fun he => ?_, fun m hm => ?_, ?_, ⟨fun h0 => ?_, fun h0 => ?_⟩, fun hv => ?_⟩
  · have := each_length h.matchers
    rw [he] at this
    exact ht.some (List.eq_nil_of_length_eq_zero this)
  · obtain ⟨x, hx, hsay⟩ := each_mem h.matchers hm
    exact matcher_read hp (ht.matchers x hx) hsay (hs m hm)
  · rcases hlog with ⟨h1, _⟩ | ⟨hs, t, h1, _⟩
    · rw [h1]; right; decide
    · exact (log_read h1).2
  · rcases hlog with ⟨_, h1⟩ | ⟨hs, t, h1, _⟩
    · exact h1
    · exact absurd h0 (log_read h1).1
  · rcases hlog with ⟨_, h1⟩ | ⟨hs, t, _, h1⟩
    · exact absurd h1 h0
    · rcases h1 with ⟨_, h1⟩ | ⟨s, n, _, h1, h2⟩
      · exact absurd h1 h0
      · obtain ⟨h3, h4⟩ := hr s n h1
        have : r.rate.toNat = n := by rw [h2, BitVec.toNat_ofNat, Nat.mod_eq_of_lt h3]
        rw [this]; exact h4
  · have hsay := h.verdict
    have htext := ht.verdict
    cases hsv : s.verdict with
    | plain v =>
      rw [hsv] at hsay htext
      obtain ⟨x, hx, hx'⟩ := htext
      have hsay : v = (Doc.verdict r.verdict).toList := hsay
      rw [hv, hx'] at hsay
      exact absurd hsay (by revert hx; cases x <;> decide)
    | redirect i d =>
      rw [hsv] at hsay
      obtain ⟨_, h1, _⟩ := hsay
      refine ⟨fun h0 => ?_, hp.number _⟩
      rw [h0] at h1
      unfold IfaceSays at h1
      split at h1
      · next hc => 
        have := hc.1
        simp at h1
        omega
      · have := h1.2.1
        simp at this

/-! ## Chains -/

theorem chainsAct_order {e : PEnv} : ∀ {l : List ChainS} {st : PState} {rs : List (Chain × Option HookOpts)}, st.sets = [] → chainsAct e st l = some (.ok rs) →
    (∀ c ∈ rs, c.1.sets.length ≤ 4294967296) → ∀ c ∈ rs,
    (∃ decl, c.1.sets = decl ++ (c.1.rules.flatMap (·.matchers)).filterMap (unnamed c.1.sets) ∧ ∀ s ∈ decl, s.name ≠ none) ∧
    ∀ ho, c.2 = some ho → validate ho c.1.hook = .ok ()
  | [], st, rs, _, h, _ => by cases h; intro c hc; cases hc
  | s :: l, st, rs, h0, h, hn => by
    unfold chainsAct at h
    obtain ⟨a, h1, h⟩ := Run.bind_ok h
    obtain ⟨b, h2, h⟩ := Run.bind_ok h
    cases h
    have ha := (chainAct_says (c := a.1) (st' := a.2) h0 h1 (hn _ List.mem_cons_self)).1
    intro c hc
    rcases List.mem_cons.mp hc with rfl | hc
    · exact chainAct_order (st' := a.2) h0 h1 (hn _ List.mem_cons_self)
    · exact chainsAct_order ha h2 (fun c hc => hn c (List.mem_cons_of_mem _ hc)) c hc

end Dmp

/-- A chain that is read from a text can be shown. -/
theorem C50_read {e : PEnv} (hp : PlainNames e.text) (hr : PlainRates e.rate) {text : List Char} {cs : List ChainS} (hw : Writes text cs)
    {rs : List (Chain × Option HookOpts)} (h : bfcParse e text = some (.ok rs)) (hl : text.length ≤ 4294967296)
    {c : Chain} {o : Option HookOpts} (hc : (c, o) ∈ rs) (hs : ∀ r ∈ c.rules, ∀ m ∈ r.matchers, m.type ≠ .set → Sayable e.text m) :
    ChainShown e.text e.rate c o := by
  have hn := read_small hw hl h
  have hsays := C45_read hw h hn
  have h' := h
  unfold bfcParse at h'
  rw [writes_parse hw] at h'
  have hord := Dmp.chainsAct_order rfl h' hn (c, o) hc
  obtain ⟨s, hs', hsay⟩ := each_mem hsays hc
  have ht := hw.2.1 s hs'
  refine ⟨?_, fun ho hho => ?_, hsay.terminal, fun x hx => ?_, hord.1, fun r hr' => ?_, hsay.index⟩
  · rw [hsay.name, String.toList_ofList]; exact ht.name
  · have := hsay.opts
    rw [hho] at this
    exact Dmp.opts_read ht.opts this (hord.2 ho hho)
  · obtain ⟨decl, inl, h1, h2, _, h3⟩ := hsay.sets
    simp only at h1
    rw [h1] at hx
    rcases List.mem_append.mp hx with hx | hx
    · obtain ⟨d, hd, h4⟩ := each_mem h2 hx
      refine Dmp.set_read h4 fun n hn => ?_
      cases hn
      rw [String.toList_ofList]
      exact (ht.sets d hd).name
    · obtain ⟨d, hd, h4⟩ := each_mem h3 hx
      exact Dmp.set_read h4 fun n hn => by cases hn
  · obtain ⟨q, hq, h4⟩ := each_mem hsay.rules hr'
    exact Dmp.rule_read hp hr (ht.rules q hq) h4 (hs r hr')

/-- C50: a chain that was read from a text is printed as a text that is read back, unless one of its sets is empty, and as a chain that is alike. -/
theorem C50_again_partial {e : PEnv} (he : TextEnvOk e.text) (hp : PlainNames e.text) (hr : PlainRates e.rate) {text : List Char} {cs : List ChainS} (hw : Writes text cs)
    {rs : List (Chain × Option HookOpts)} (h : bfcParse e text = some (.ok rs)) (hl : text.length ≤ 4294967296)
    {c : Chain} {o : Option HookOpts} (hc : (c, o) ∈ rs) (hs : ∀ r ∈ c.rules, ∀ m ∈ r.matchers, m.type ≠ .set → Sayable e.text m) (k : Counts) :
    ∃ printed, chainDump e.text c o k false = .ok printed ∧ (printed.length + 4 ≤ e.fuel →
      ((∃ rs', bfcParse e (edit printed) = some (.ok rs')) ↔ ∀ x ∈ c.sets, x.elems ≠ []) ∧
      ∀ rs', bfcParse e (edit printed) = some (.ok rs') → ∃ c', rs' = [c'] ∧ ChainAlike (c, o) c') := by
  obtain ⟨t, h1, h2⟩ := C50_round_partial he (C50_read hp hr hw h hl hc hs) k
  have hn := read_small hw hl h
  refine ⟨t, h1, fun hf => ?_⟩
  obtain ⟨h3, h4⟩ := h2 hf (hn _ hc)
  refine ⟨h3.trans ⟨fun h => h.1, fun hne => ⟨hne, ?_⟩⟩, h4⟩
  unfold bfcParse at h
  rw [writes_parse hw] at h
  exact chainsAct_evaluable h hn (c, o) hc

end Bf.Cli
