import Verif.Cli.DumpChain
import Verif.Props.C45_Text
/-!
# C50: chains that the same sentence says are alike
-/
namespace Bf.Cli.Dmp
open Spec

theorem payload_alike {env : TextEnv} {ty : MType} {op : MOp} {s : List Char} {p q : List Byte} (hp : PayloadOf env ty op s p) (hq : PayloadOf env ty op s q) :
    PayloadAlike ty op p q := by
  obtain ⟨h1, b, hb, h2⟩ := hp
  obtain ⟨h3, d, hd, h4⟩ := hq
  refine ⟨by rw [h1, h3], ?_⟩
  unfold parsePayload at h2 h4
  cases hc : ty.codec op with
  | none => rw [hc] at h2; cases h2
  | some c =>
    rw [hc] at h2 h4
    dsimp only at h2 h4
    cases hx : c.parse env s with
    | none => rw [hx] at h2; cases h2
    | some bs =>
      rw [hx] at h2 h4
      cases h2
      cases h4
      have hl : bs.length = shown ty op := by
        rw [← codec_size hc]
        exact (c.parse_ok hx).1
      unfold overwrite
      rw [← hl, List.take_left, List.take_left]

theorem comp_alike {env : TextEnv} {s : List Char} {a b : MType × List Byte} (ha : CompOf env s a) (hb : CompOf env s b) (ht : a.1 = b.1) : PayloadAlike a.1 .in_ a.2 b.2 := by
  refine payload_alike (env := env) (s := trim s) ⟨ha.1, ha.2⟩ ?_
  rw [ht]
  exact ⟨hb.1, hb.2⟩

theorem comps_alike {env : TextEnv} : ∀ {l : List (List Char)} {a b : List (MType × List Byte)}, Each (CompOf env) l a → Each (CompOf env) l b → a.map (·.1) = b.map (·.1) →
    Each (fun x y => x.1 = y.1 ∧ x.2.length = x.1.refSize .in_ ∧ PayloadAlike x.1 .in_ x.2 y.2) a b
  | _, _, _, .nil, .nil, _ => .nil
  | _, _, _, .cons h1 h2, .cons h3 h4, h => by
    simp only [List.map_cons, List.cons.injEq] at h
    exact .cons ⟨h.1, h1.1, comp_alike h1 h3 h.1⟩ (comps_alike h2 h4 h.2)

theorem elem_alike {env : TextEnv} {key : List MType} {s : List Char} {e f : List Byte} (he : ElemOf env key s e) (hf : ElemOf env key s f) : ElemAlike key e f := by
  obtain ⟨a, h1, h2, h3⟩ := he
  obtain ⟨b, h4, h5, h6⟩ := hf
  exact ⟨a, b, h1, h2, h5, comps_alike h3 h6 (by rw [h1, h4])⟩

theorem set_alike {env : TextEnv} {n : Option String} {k p : List Char} {x y : BSet} (hx : SetSays env n k p x) (hy : SetSays env n k p y) : SetAlike x y := by
  obtain ⟨a1, a2, _, es, a3, _, a4⟩ := hx
  obtain ⟨b1, b2, _, fs, b3, _, b4⟩ := hy
  have hk := keyOf_unique a2 b2
  refine ⟨by rw [a1, b1], hk, fun e he => ?_, fun f hf => ?_⟩
  · obtain ⟨t, ht, h1⟩ := each_mem a3 ((a4 e).mp he)
    obtain ⟨f, hf, h2⟩ := each_mem' b3 ht
    rw [← hk] at h2
    exact ⟨f, (b4 f).mpr hf, elem_alike h1 h2⟩
  · obtain ⟨t, ht, h2⟩ := each_mem b3 ((b4 f).mp hf)
    obtain ⟨e, he, h1⟩ := each_mem' a3 ht
    rw [← hk] at h2
    exact ⟨e, (a4 e).mpr he, elem_alike h1 h2⟩

theorem sets_alike {env : TextEnv} {α : Type} {f : α → Option String} {g h : α → List Char} : ∀ {l : List α} {xs ys : List BSet},
    Each (fun d x => SetSays env (f d) (g d) (h d) x) l xs → Each (fun d x => SetSays env (f d) (g d) (h d) x) l ys → Each SetAlike xs ys
  | _, _, _, .nil, .nil => .nil
  | _, _, _, .cons h1 h2, .cons h3 h4 => .cons (set_alike h1 h3) (sets_alike h2 h4)

theorem opSays_unique {w : Option (List Char)} {a b : MOp} (ha : OpSays w a) (hb : OpSays w b) : a = b := by
  rcases ha with ⟨rfl, rfl⟩ | rfl
  · rcases hb with ⟨_, rfl⟩ | h
    · rfl
    · cases h
  · rcases hb with ⟨h, _⟩ | h
    · cases h
    · exact doc_op_inj (Option.some.inj h)

/-- The first set of a name. -/
theorem first_alike {xs ys : List BSet} (h : Each SetAlike xs ys) {n : String} {i j : Nat} {x y : BSet} (hi : xs[i]? = some x) (hj : ys[j]? = some y) (hx : x.name = some n)
    (hy : y.name = some n) (hi' : ∀ k s, k < i → xs[k]? = some s → s.name ≠ some n) (hj' : ∀ k s, k < j → ys[k]? = some s → s.name ≠ some n) : SetAlike x y := by
  have e : i = j := by
    rcases Nat.lt_trichotomy i j with h1 | h1 | h1
    · obtain ⟨z, hz, h2⟩ := each_get h hi
      exact absurd (by rw [← h2.name, hx]) (hj' i z h1 hz)
    · exact h1
    · obtain ⟨z, hz, h2⟩ := each_get' h hj
      exact absurd (by rw [h2.name, hy]) (hi' j z h1 hz)
  subst e
  obtain ⟨z, hz, h2⟩ := each_get h hi
  rw [hj] at hz
  cases hz
  exact h2

theorem matcher_alike {env : TextEnv} {xs ys : List BSet} (hs : Each SetAlike xs ys) {s : MatcherS} {m n : Matcher} (hm : MatcherSays env xs s m) (hn : MatcherSays env ys s n) :
    MatcherAlike xs ys m n := by
  cases s with
  | plain t neg op p =>
    obtain ⟨a1, a2, a3, a4⟩ := hm
    obtain ⟨b1, b2, b3, b4⟩ := hn
    have ht : m.type = n.type := doc_matcher_inj (a1.symm.trans b1)
    have ho := opSays_unique a2 b2
    rw [← ht, ← ho] at b4
    refine ⟨ht, ho, by rw [a3, b3], fun _ => payload_alike a4 b4, fun h => ?_⟩
    exfalso
    obtain ⟨h1, b, hb, h2⟩ := a4
    unfold parsePayload at h2
    rw [h] at h2
    cases h2
  | inline k neg op p =>
    obtain ⟨_, a1, a2, a3, i, x, a4, a5, a6⟩ := hm
    obtain ⟨_, b1, b2, b3, j, y, b4, b5, b6⟩ := hn
    exact ⟨by rw [a1, b1], by rw [a2, b2], by rw [a3, b3], fun h => absurd a1 h, fun _ => ⟨i, j, x, y, ⟨a4, a5⟩, ⟨b4, b5⟩, set_alike a6 b6⟩⟩
  | named k neg op p =>
    obtain ⟨_, a1, a2, a3, i, x, a4, a5, a6, _, a7⟩ := hm
    obtain ⟨_, b1, b2, b3, j, y, b4, b5, b6, _, b7⟩ := hn
    exact ⟨by rw [a1, b1], by rw [a2, b2], by rw [a3, b3], fun h => absurd a1 h, fun _ => ⟨i, j, x, y, ⟨a4, a5⟩, ⟨b4, b5⟩, first_alike hs a5 b5 a6 b6 a7 b7⟩⟩

theorem matchers_alike {env : TextEnv} {xs ys : List BSet} (hs : Each SetAlike xs ys) : ∀ {l : List MatcherS} {a b : List Matcher}, Each (MatcherSays env xs) l a → Each (MatcherSays env ys) l b →
    Each (MatcherAlike xs ys) a b
  | _, _, _, .nil, .nil => .nil
  | _, _, _, .cons h1 h2, .cons h3 h4 => .cons (matcher_alike hs h1 h3) (matchers_alike hs h2 h4)

theorem doc_verdict_inj {a b : Verdict} (h : (Doc.verdict a).toList = (Doc.verdict b).toList) : a = b := by
  revert h
  cases a <;> cases b <;> decide

theorem doc_direction_inj {a b : RedirDir} (h : (Doc.direction a).toList = (Doc.direction b).toList) : a = b := by
  revert h
  cases a <;> cases b <;> decide

theorem doc_hook_inj {a b : Hook} (h : (Doc.hook a).toList = (Doc.hook b).toList) : a = b := by
  revert h
  cases a <;> cases b <;> decide

theorem iface_unique {env : TextEnv} {s : List Char} {a b : Nat} (ha : IfaceSays env s a) (hb : IfaceSays env s b) : a = b := by
  unfold IfaceSays at ha hb
  split at ha
  next h =>
    rw [if_pos h] at hb
    rw [ha, hb]
  next h =>
    rw [if_neg h] at hb
    have := ha.1.symm.trans hb.1
    cases this
    rfl

theorem rate_unique {rate : List Char → Option Nat} {t : Option (List Char)} {a b : BitVec 64} (ha : RateSays rate t a) (hb : RateSays rate t b) : a = b := by
  rcases ha with ⟨rfl, rfl⟩ | ⟨s, n, rfl, h1, rfl⟩
  · rcases hb with ⟨_, rfl⟩ | ⟨s, n, h, _⟩
    · rfl
    · cases h
  · rcases hb with ⟨h, _⟩ | ⟨s', n', h, h2, rfl⟩
    · cases h
    · cases h
      rw [h1] at h2
      cases h2
      rfl

theorem rule_alike {env : TextEnv} {rate : List Char → Option Nat} {xs ys : List BSet} (hs : Each SetAlike xs ys) {s : RuleS} (ht : VerdictText s.verdict) {r q : Rule}
    (hr : RuleSays env rate xs s r) (hq : RuleSays env rate ys s q) (hi : r.index = q.index) : RuleAlike xs ys r q := by
  refine ⟨hi, matchers_alike hs hr.matchers hq.matchers, ?_, ?_, ?_, ?_, ?_⟩
  · by_cases hex : ∀ o ∈ s.options, isLog o = false
    · obtain ⟨h1, h2⟩ := hr.options.noLog hex
      obtain ⟨h3, h4⟩ := hq.options.noLog hex
      exact ⟨by rw [h1, h3], by rw [h2, h4]⟩
    · have : ∃ hs t, OptionS.log hs t ∈ s.options := by
        refine Classical.byContradiction fun hn => hex fun o ho => ?_
        cases o with
        | log a b => exact absurd ⟨a, b, ho⟩ hn
        | counter => rfl
        | mark v => rfl
      obtain ⟨hs', t, hv⟩ := this
      obtain ⟨h1, h2⟩ := hr.options.log hs' t hv
      obtain ⟨h3, h4⟩ := hq.options.log hs' t hv
      exact ⟨logSays_unique h1 h3, rate_unique h2 h4⟩
  · have := hr.options.counter.trans hq.options.counter.symm
    cases h1 : r.hasCounters <;> cases h2 : q.hasCounters <;> simp_all
  · by_cases hex : ∀ o ∈ s.options, isMark o = false
    · have h1 := hr.options.noMark hex
      have h2 := hq.options.noMark hex
      exact ⟨by rw [h1, h2], fun h => by rw [h1] at h; cases h⟩
    · have : ∃ v, OptionS.mark v ∈ s.options := by
        refine Classical.byContradiction fun hn => hex fun o ho => ?_
        cases o with
        | log _ _ => rfl
        | counter => rfl
        | mark v => exact absurd ⟨v, ho⟩ hn
      obtain ⟨v, hv⟩ := this
      obtain ⟨n, a1, a2, a3⟩ := hr.options.mark v hv
      obtain ⟨k, b1, b2, b3⟩ := hq.options.mark v hv
      refine ⟨by rw [a2, b2], fun _ => ?_⟩
      have h := a1.1.symm.trans b1.1
      have : n = k := by
        have := congrArg Prod.fst h
        exact Int.ofNat_inj.mp this
      rw [a3, b3, this]
  · have hv1 := hr.verdict
    have hv2 := hq.verdict
    cases hv : s.verdict with
    | plain v =>
      rw [hv] at hv1 hv2
      exact doc_verdict_inj (hv1.symm.trans hv2)
    | redirect i d =>
      rw [hv] at hv1 hv2
      rw [hv1.1, hv2.1]
  · intro hred
    have hv1 := hr.verdict
    have hv2 := hq.verdict
    cases hv : s.verdict with
    | plain v =>
      rw [hv] at hv1 ht
      obtain ⟨x, h1, h2⟩ := ht
      have h3 : v = (Doc.verdict r.verdict).toList := hv1
      rw [hred] at h3
      exact absurd (doc_verdict_inj (h2.symm.trans h3)) h1
    | redirect i d =>
      rw [hv] at hv1 hv2
      refine ⟨BitVec.eq_of_toNat_eq (iface_unique hv1.2.1 hv2.2.1), doc_direction_inj (hv1.2.2.symm.trans hv2.2.2)⟩

theorem rules_alike {env : TextEnv} {rate : List Char → Option Nat} {xs ys : List BSet} (hs : Each SetAlike xs ys) : ∀ {l : List RuleS} {a b : List Rule} (_ : ∀ s ∈ l, RuleText s)
    (_ : Each (RuleSays env rate xs) l a) (_ : Each (RuleSays env rate ys) l b) (k : Nat) (_ : ∀ (i : Nat) (r : Rule), a[i]? = some r → r.index = k + i)
    (_ : ∀ (i : Nat) (r : Rule), b[i]? = some r → r.index = k + i), Each (RuleAlike xs ys) a b
  | _, _, _, _, .nil, .nil, _, _, _ => .nil
  | _, _, _, ht, .cons h1 h2, .cons h3 h4, k, ha, hb => by
    refine .cons (rule_alike hs (ht _ List.mem_cons_self).verdict h1 h3 ?_) ?_
    · rw [ha 0 _ rfl, hb 0 _ rfl]
    · refine rules_alike hs (fun s hs => ht s (List.mem_cons_of_mem _ hs)) h2 h4 (k + 1) (fun i r hr => ?_) (fun i r hr => ?_)
      · have := ha (i + 1) r (by simpa using hr); omega
      · have := hb (i + 1) r (by simpa using hr); omega

theorem number_unique {v : List Char} {m n : Nat} (hm : Number v m) (hn : Number v n) : m = n := by
  obtain ⟨_, h1, _⟩ := hm
  obtain ⟨_, h2, _⟩ := hn
  rw [h1] at h2
  cases h2
  rfl

theorem split_unique {a b c d : List Char} (h : a ++ '-' :: b = c ++ '-' :: d) (ha : '-' ∉ a) (hc : '-' ∉ c) : a = c ∧ b = d := by
  have h1 := takeWhile_until (b := b) ha
  have h2 := takeWhile_until (b := d) hc
  rw [h] at h1
  have := h1.1.symm.trans h2.1
  subst this
  have := h1.2.symm.trans h2.2
  cases this
  exact ⟨rfl, rfl⟩

theorem opts_alike {hook : Hook} {opts : List (List Char)} {a b : Option HookOpts} (ha : HookOptsSay hook opts a) (hb : HookOptsSay hook opts b) :
    (a = none ∧ b = none) ∨ ∃ x y, a = some x ∧ b = some y ∧ OptsAlike x y := by
  rcases ha with ⟨rfl, rfl⟩ | ⟨x, hne, rfl, a1, a2⟩
  · rcases hb with ⟨_, rfl⟩ | ⟨y, h, _⟩
    · exact .inl ⟨rfl, rfl⟩
    · exact absurd rfl h
  · rcases hb with ⟨h, _⟩ | ⟨y, _, rfl, b1, b2⟩
    · exact absurd h hne
    refine .inr ⟨x, y, rfl, rfl, ?_⟩
    have hrec : ∀ t, t ≠ .family → x.isUsed t = true → ∃ v, Records x t v ∧ Records y t v := by
      intro t ht hu
      obtain ⟨c1, c2⟩ := a2 t ht
      rw [if_pos (c2.mp hu)] at c1
      unfold times at c1
      obtain ⟨raw, hraw⟩ : ∃ raw, raw ∈ opts.filter fun r => (t.name.toList ++ ['=']).isPrefixOf r := by
        cases hl : opts.filter fun r => (t.name.toList ++ ['=']).isPrefixOf r with
        | nil => rw [hl] at c1; cases c1
        | cons r l => exact ⟨r, List.mem_cons_self⟩
      obtain ⟨hr1, hr2⟩ := List.mem_filter.mp hraw
      obtain ⟨t1, v1, g1, _, r1⟩ := a1 raw hr1
      obtain ⟨t2, v2, g2, _, r2⟩ := b1 raw hr1
      rw [Gives.prefix g1, decide_eq_true_eq] at hr2
      have hr2' := (List.mem_filter.mp hraw).2
      rw [Gives.prefix g2, decide_eq_true_eq] at hr2'
      subst hr2
      subst hr2'
      have : v1 = v2 := by
        unfold Gives at g1 g2
        rw [g1] at g2
        have := List.append_cancel_left g2
        cases this
        rfl
      subst this
      exact ⟨v1, r1, r2⟩
    refine ⟨fun t ht => ?_, fun h => ?_, fun h => ?_, fun h => ?_⟩
    · have := (a2 t ht).2.trans (b2 t ht).2.symm
      cases h1 : x.isUsed t <;> cases h2 : y.isUsed t <;> simp_all
    · obtain ⟨v, ⟨m, h1, h2⟩, n, h3, h4⟩ := hrec .ifindex (by decide) h
      rw [h2, h4, number_unique h1 h3]
    · obtain ⟨v, h1, h2⟩ := hrec .cgpath (by decide) h
      exact h1.trans h2.symm
    · obtain ⟨v, ⟨p, q, m, n, e1, e2, e3, e4, e5, e6⟩, p', q', m', n', f1, f2, f3, f4, f5, f6⟩ := hrec .priorities (by decide) h
      obtain ⟨rfl, rfl⟩ := split_unique (e1.symm.trans f1) e2 f2
      rw [e5, e6, f5, f6, number_unique e3 f3, number_unique e4 f4]
      exact ⟨rfl, rfl⟩

/-- Two chains that a sentence says are alike. -/
theorem chain_alike {env : TextEnv} {rate : List Char → Option Nat} {s : ChainS} (ht : ChainText s) {a b : Chain × Option HookOpts} (ha : ChainSays env rate s a)
    (hb : ChainSays env rate s b) : ChainAlike a b := by
  have hh : a.1.hook = b.1.hook := doc_hook_inj (ha.hook.symm.trans hb.hook)
  have ho := hb.opts
  rw [← hh] at ho
  obtain ⟨d1, i1, e1, e2, _, e3⟩ := ha.sets
  obtain ⟨d2, i2, f1, f2, _, f3⟩ := hb.sets
  have hs : Each SetAlike a.1.sets b.1.sets := by
    rw [e1, f1]
    exact each_append (sets_alike e2 f2) (sets_alike (f := fun _ => none) (g := Prod.fst) (h := Prod.snd) e3 f3)
  exact ⟨by rw [ha.name, hb.name], hh, doc_verdict_inj (ha.policy.symm.trans hb.policy), opts_alike ha.opts ho, hs,
    rules_alike hs ht.rules ha.rules hb.rules 0 (fun i r h => by rw [ha.index i r h, Nat.zero_add]) (fun i r h => by rw [hb.index i r h, Nat.zero_add])⟩

end Bf.Cli.Dmp
