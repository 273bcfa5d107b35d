import Verif.Props.C49_Ruleset
import Verif.Props.C16_Support
/-!
# C49: a chain that is read can be loaded
-/
namespace Bf
open Spec Cli

/-! ### What the parser makes -/

/-- A set `bf_set_new` made, then filled. -/
def MadeSet (s : BSet) : Prop := ∃ s0, setNew s.name s.key = .ok s0 ∧ s.elemSize = s0.elemSize ∧ s.useTrie = s0.useTrie

theorem addElemRaw_keeps {env : TextEnv} {mem : Nat → Byte} {fuel : Nat} {set s : BSet} {t : List Char} (h : addElemRaw env mem fuel set t = some (.ok s))
    (hm : MadeSet set) : MadeSet s := by
  unfold addElemRaw at h
  split at h
  · cases h
  · cases h; exact hm
  · cases h
  · cases h

theorem newFromRawGo_keeps (env : TextEnv) (mem : Nat → Nat → Byte) : ∀ (fuel : Nat) (tmp : Option (List Char)) (save : List Char) (i : Nat) (set s : BSet),
    newFromRawGo env mem fuel tmp save i set = some (.ok s) → MadeSet set → MadeSet s
  | 0, _, _, _, _, _, h, _ => by cases h
  | fuel + 1, tmp, save, i, set, s, h, hm => by
    unfold newFromRawGo at h
    split at h
    · cases h; exact hm
    · split at h
      · exact newFromRawGo_keeps env mem fuel _ _ _ _ _ h hm
      · split at h
        · next set' hs => exact newFromRawGo_keeps env mem fuel _ _ _ _ _ h (addElemRaw_keeps hs hm)
        · next hr => exact absurd h (hr s)

theorem setNewFromRaw_made {env : TextEnv} {mem : Nat → Nat → Byte} {fuel : Nat} {name : Option String} {k p : List Char} {s : BSet}
    (h : setNewFromRaw env mem fuel name k p = some (.ok s)) : MadeSet s := by
  unfold setNewFromRaw at h
  split at h
  · cases h
  · cases h
  · cases h
  · next key _ =>
    split at h
    · cases h
    · cases h
    · next set hs =>
      refine newFromRawGo_keeps _ _ _ _ _ _ _ _ h ?_
      have : set.name = name ∧ set.key = key := by
        unfold setNew at hs
        split at hs
        · cases hs
        split at hs
        · cases hs
        split at hs
        · cases hs
        split at hs
        · cases hs
        cases hs
        exact ⟨rfl, rfl⟩
      exact ⟨set, by rw [this.1, this.2]; exact hs, rfl, rfl⟩

/-- The matchers of sets have a payload of four bytes. -/
def RefSized (m : Matcher) : Prop := m.type = .set → m.payload.length = 4

theorem matcherAct_made {e : PEnv} {st st' : PState} {x : MatcherS} {m : Matcher} (h : matcherAct e st x = some (.ok (m, st'))) (hs : ∀ s ∈ st.sets, MadeSet s) :
    (∀ s ∈ st'.sets, MadeSet s) ∧ RefSized m := by
  cases x with
  | plain t neg op p =>
    unfold matcherAct at h
    obtain ⟨ty, h1, h⟩ := Run.bind_ok h
    obtain ⟨o, h2, h⟩ := Run.bind_ok h
    obtain ⟨m', h3, h⟩ := Run.bind_ok h
    cases h
    refine ⟨hs, fun ht => ?_⟩
    have h3 := orAbort_ok h3
    unfold matcherNewFromRaw parsePayload at h3
    cases hc : ty.codec o with
    | none => rw [hc] at h3; cases h3
    | some c =>
      have hty : m.type = ty := by
        rw [hc] at h3
        simp only at h3
        cases hp : c.parse e.text p with
        | none => rw [hp] at h3; cases h3
        | some bs => rw [hp] at h3; cases h3; rfl
      rw [hty] at ht
      subst ht
      cases o <;> cases hc
  | inline k neg op p =>
    unfold matcherAct at h
    obtain ⟨o, h2, h⟩ := Run.bind_ok h
    split at h
    · cases h
    obtain ⟨set, h3, h⟩ := Run.bind_ok h
    cases h
    refine ⟨fun s hs' => ?_, fun _ => by simp [setMatcher]⟩
    rcases List.mem_append.mp hs' with hs' | hs'
    · exact hs s hs'
    · rw [List.mem_singleton.mp hs']
      exact setNewFromRaw_made (andAbort_ok h3)
  | named k neg op p =>
    unfold matcherAct at h
    obtain ⟨o, h2, h⟩ := Run.bind_ok h
    split at h
    · cases h
    obtain ⟨set, h3, h⟩ := Run.bind_ok h
    obtain ⟨f, h4, h⟩ := Run.bind_ok h
    split at h
    · cases h
    cases h
    exact ⟨hs, fun _ => by simp [setMatcher]⟩

theorem matchersAct_made {e : PEnv} : ∀ {l : List MatcherS} {st st' : PState} {ms : List Matcher}, matchersAct e st l = some (.ok (ms, st')) →
    (∀ s ∈ st.sets, MadeSet s) → (∀ s ∈ st'.sets, MadeSet s) ∧ ∀ m ∈ ms, RefSized m
  | [], st, st', ms, h, hs => by cases h; exact ⟨hs, fun m hm => by cases hm⟩
  | x :: l, st, st', ms, h, hs => by
    unfold matchersAct at h
    obtain ⟨a, h1, h⟩ := Run.bind_ok h
    obtain ⟨b, h2, h⟩ := Run.bind_ok h
    cases h
    obtain ⟨g1, g2⟩ := matcherAct_made h1 hs
    obtain ⟨g3, g4⟩ := matchersAct_made h2 g1
    refine ⟨g3, fun m hm => ?_⟩
    rcases List.mem_cons.mp hm with rfl | hm
    · exact g2
    · exact g4 m hm

theorem rulesAct_made {e : PEnv} : ∀ {l : List RuleS} {st st' : PState} {rs : List Rule}, rulesAct e st l = some (.ok (rs, st')) →
    (∀ s ∈ st.sets, MadeSet s) → (∀ s ∈ st'.sets, MadeSet s) ∧ ∀ r ∈ rs, ∀ m ∈ r.matchers, RefSized m
  | [], st, st', rs, h, hs => by cases h; exact ⟨hs, fun m hm => by cases hm⟩
  | x :: l, st, st', rs, h, hs => by
    unfold rulesAct at h
    obtain ⟨a, h1, h⟩ := Run.bind_ok h
    obtain ⟨b, h2, h⟩ := Run.bind_ok h
    cases h
    unfold ruleAct at h1
    obtain ⟨ms, h3, h1⟩ := Run.bind_ok h1
    obtain ⟨o, h4, h1⟩ := Run.bind_ok h1
    obtain ⟨v, h5, h1⟩ := Run.bind_ok h1
    cases h1
    obtain ⟨g1, g2⟩ := matchersAct_made h3 hs
    obtain ⟨g3, g4⟩ := rulesAct_made h2 g1
    refine ⟨g3, fun r hr => ?_⟩
    rcases List.mem_cons.mp hr with rfl | hr
    · exact g2
    · exact g4 r hr

theorem setsAct_made {e : PEnv} : ∀ {l : List SetS} {st st' : PState}, setsAct e st l = some (.ok st') → (∀ s ∈ st.sets, MadeSet s) → ∀ s ∈ st'.sets, MadeSet s
  | [], st, st', h, hs => by cases h; exact hs
  | x :: l, st, st', h, hs => by
    unfold setsAct at h
    obtain ⟨a, h1, h⟩ := Run.bind_ok h
    refine setsAct_made h fun s hs' => ?_
    unfold setAct at h1
    obtain ⟨o, h2, h1⟩ := Run.bind_ok h1
    split at h1
    · cases h1
    obtain ⟨set, h3, h1⟩ := Run.bind_ok h1
    cases h1
    rcases List.mem_append.mp hs' with hs' | hs'
    · exact hs s hs'
    · rw [List.mem_singleton.mp hs']
      exact setNewFromRaw_made (andAbort_ok h3)

theorem chainAct_made {e : PEnv} {st st' : PState} {s : ChainS} {c : Chain × Option HookOpts} (h : chainAct e st s = some (.ok (c, st'))) (h0 : st.sets = []) :
    st'.sets = [] ∧ (∀ s ∈ c.1.sets, MadeSet s) ∧ (∀ r ∈ c.1.rules, ∀ m ∈ r.matchers, RefSized m) ∧ NonEmpty c.1 := by
  unfold chainAct at h
  obtain ⟨hook, h1, h⟩ := Run.bind_ok h
  obtain ⟨o, h2, h⟩ := Run.bind_ok h
  obtain ⟨policy, h3, h⟩ := Run.bind_ok h
  obtain ⟨st1, h4, h⟩ := Run.bind_ok h
  obtain ⟨rs, h5, h⟩ := Run.bind_ok h
  split at h
  · cases h
  · obtain ⟨chain, h6, h⟩ := Run.bind_ok h
    obtain ⟨u, h7, h⟩ := Run.bind_ok h
    cases h
    have h6 := orAbort_ok h6
    have hne := C16_new_nonempty h6
    have hs1 := setsAct_made h4 (by rw [h0]; intro s hs; cases hs)
    obtain ⟨g1, g2⟩ := rulesAct_made (rs := rs.1) (st' := rs.2) h5 hs1
    unfold chainNew at h6
    split at h6
    · cases h6
    · obtain ⟨c1, c2, c3, c4, _⟩ := checkRules_list h6
      simp only [List.nil_append, List.length_nil, Nat.zero_add] at c1 c2 c3 c4
      refine ⟨rfl, by rw [c3]; exact g1, fun r hr => ?_, hne⟩
      rw [c4] at hr
      obtain ⟨i, hi, rfl⟩ := List.mem_mapIdx.mp hr
      exact g2 rs.1[i] (List.getElem_mem hi)

theorem chainsAct_made {e : PEnv} : ∀ {l : List ChainS} {st : PState} {rs : List (Chain × Option HookOpts)}, chainsAct e st l = some (.ok rs) → st.sets = [] →
    ∀ c ∈ rs, (∀ s ∈ c.1.sets, MadeSet s) ∧ (∀ r ∈ c.1.rules, ∀ m ∈ r.matchers, RefSized m) ∧ NonEmpty c.1
  | [], st, rs, h, _ => by cases h; intro c hc; cases hc
  | s :: l, st, rs, h, h0 => by
    unfold chainsAct at h
    obtain ⟨a, h1, h⟩ := Run.bind_ok h
    obtain ⟨b, h2, h⟩ := Run.bind_ok h
    cases h
    intro c hc
    obtain ⟨g1, g2⟩ := chainAct_made h1 h0
    rcases List.mem_cons.mp hc with rfl | hc
    · exact g2
    · exact chainsAct_made h2 g1 c hc

theorem bfcParse_made {e : PEnv} {text : List Char} {rs : List (Chain × Option HookOpts)} (h : bfcParse e text = some (.ok rs)) :
    ∀ c ∈ rs, (∀ s ∈ c.1.sets, MadeSet s) ∧ (∀ r ∈ c.1.rules, ∀ m ∈ r.matchers, RefSized m) ∧ NonEmpty c.1 := by
  unfold bfcParse at h
  split at h
  · cases h
  · exact chainsAct_made h rfl

/-! ### Prefixes -/

theorem host_leBytes {n : Nat} (h : n < 4294967296) (l : List Byte) : host (leBytes 4 n ++ l) 0 4 = n := by
  simp only [host, List.drop_zero]
  rw [List.take_append_of_le_length (by simp)]
  rw [List.take_of_length_le (by simp)]
  exact leNat_leBytes_lt (by simpa using h)

/-- A network prefix that is read is not longer than the address. -/
theorem prefix_le {env : TextEnv} {ty : MType} {op : MOp} {buf p : List Byte} {s : List Char} (h : parsePayload env ty op buf s = .ok p) (hn : ty.isNet = true) :
    host p 0 4 ≤ 8 * ty.meta_.size := by
  have v4 : ∀ {bs}, Codec.parse env .ip4Net s = some bs → host (overwrite bs buf) 0 4 ≤ 32 := by
    intro bs hb
    simp only [Codec.parse, Option.map_eq_some_iff] at hb
    obtain ⟨⟨n, x⟩, hb, rfl⟩ := hb
    unfold parseIp4Net at hb
    split at hb
    · cases hb
    obtain ⟨⟨a, b⟩, _, hb⟩ := Option.bind_eq_some_iff.mp hb
    obtain ⟨y, _, hb⟩ := Option.bind_eq_some_iff.mp hb
    obtain ⟨k, hk, hb⟩ := Option.map_eq_some_iff.mp hb
    cases hb
    have := parsePrefix_le hk
    simp only [overwrite, List.append_assoc]
    rw [host_leBytes (by omega)]
    exact this
  have v6 : ∀ {bs}, Codec.parse env .ip6Net s = some bs → host (overwrite bs buf) 0 4 ≤ 128 := by
    intro bs hb
    simp only [Codec.parse, Option.map_eq_some_iff] at hb
    obtain ⟨⟨n, x⟩, hb, rfl⟩ := hb
    unfold parseIp6Net at hb
    split at hb
    · cases hb
    obtain ⟨⟨a, b⟩, _, hb⟩ := Option.bind_eq_some_iff.mp hb
    obtain ⟨y, _, hb⟩ := Option.bind_eq_some_iff.mp hb
    obtain ⟨k, hk, hb⟩ := Option.map_eq_some_iff.mp hb
    cases hb
    have := parsePrefix_le hk
    simp only [overwrite, List.append_assoc]
    rw [host_leBytes (by omega)]
    exact this
  have key : ∀ {c}, ty.codec op = some c → ∃ bs, c.parse env s = some bs ∧ p = overwrite bs buf := by
    intro c hc
    unfold parsePayload at h
    rw [hc] at h
    simp only at h
    cases hp : c.parse env s with
    | none => rw [hp] at h; cases h
    | some bs => rw [hp] at h; cases h; exact ⟨bs, rfl, rfl⟩
  cases hc : ty.codec op with
  | none => unfold parsePayload at h; rw [hc] at h; cases h
  | some c =>
    obtain ⟨bs, h1, rfl⟩ := key hc
    cases ty <;> first | (cases hn; done) | (cases op <;> cases hc <;> first | exact v4 h1 | exact v6 h1)

/-! ### Well-formedness -/

theorem elem_length {env : TextEnv} : ∀ {ps : List (List Char)} {comps : List (MType × List Byte)}, Each (CompOf env) ps comps →
    ((comps.map (·.2)).flatten).length = keySize (comps.map (·.1)) := by
  intro ps comps h
  induction h with
  | nil => rfl
  | cons h _ ih =>
    simp only [List.map_cons, List.flatten_cons, List.length_append, ih, keySize, List.sum_cons]
    rw [h.1]

theorem set_wf {env : TextEnv} {name : Option String} {k p : List Char} {s : BSet} (hm : MadeSet s) (hs : SetSays env name k p s) (hz : keySize s.key ≤ 64) :
    SetWf s := by
  obtain ⟨s0, h1, h2, h3⟩ := hm
  obtain ⟨f1, f2, f3, f4, f5⟩ := setNew_facts h1
  obtain ⟨_, hk, hsk, es, hes, _, hel⟩ := hs
  refine ⟨⟨s0, h1, h2, h3⟩, fun e he => ?_, fun ht t htk e he => ?_, ?_⟩
  · obtain ⟨x, hx, comps, c1, rfl, c3⟩ := each_mem hes ((hel e).mp he)
    rw [elem_length c3, c1, h2, f4]
    rfl
  · rw [h3, f5] at ht
    obtain ⟨t', ht', hn⟩ := List.any_eq_true.mp ht
    obtain ⟨x, hx, comps, c1, rfl, c3⟩ := each_mem hes ((hel e).mp he)
    have hkey : s.key = [t'] := by
      have hl : ¬ 1 < s.key.length := fun h => by
        have := hsk.2 h t' ht'
        rw [hn] at this
        cases this
      match hkk : s.key, ht', hl with
      | [a], ht, _ => rw [List.mem_singleton.mp ht]
      | a :: b :: l, _, h1 => exact absurd (by simp) h1
    rw [hkey] at htk c1
    cases List.mem_singleton.mp htk
    match comps, c1, c3 with
    | [c], c1, c3 =>
      simp only [List.map_cons, List.map_nil, List.cons.injEq, and_true] at c1
      simp only [List.map_cons, List.map_nil, List.flatten_cons, List.flatten_nil, List.append_nil]
      generalize tokens (· = ',') x = ps at c3
      cases c3 with
      | cons g _ =>
        obtain ⟨_, buf, _, hp⟩ := g
        rw [c1] at hp
        exact prefix_le hp hn
  · rw [h2, f4]
    exact hz

theorem payload_some {env : TextEnv} {ty : MType} {op : MOp} {buf p : List Byte} {s : List Char} (h : parsePayload env ty op buf s = .ok p) : ty.refSize op ≠ 0 := by
  unfold parsePayload at h
  cases hc : ty.codec op with
  | none => rw [hc] at h; cases h
  | some c => revert hc; cases ty <;> cases op <;> simp [MType.codec, MType.refSize]

theorem matcher_wf {env : TextEnv} {sets : List BSet} {x : MatcherS} {m : Matcher} (ht : MatcherText x) (hr : RefSized m) (hs : MatcherSays env sets x m) :
    MatcherWf m ∧ NetWf m := by
  cases x with
  | plain t neg op p =>
    obtain ⟨ty, g1, g2, g3, _⟩ := ht
    obtain ⟨h1, h2, h3, h4, buf, h5, h6⟩ := hs
    have hty : ty = m.type := doc_matcher_inj (g1.symm.trans h1)
    subst hty
    have hset : m.type ≠ .set := fun h => by rw [h] at g3; exact g3
    refine ⟨?_, fun hn => prefix_le h6 hn⟩
    unfold MatcherWf
    rw [if_neg hset]
    refine ⟨?_, payload_some h6, h4⟩
    rcases h2 with ⟨_, h2⟩ | h2
    · rw [h2]; decide
    · obtain ⟨x, hx, hw⟩ := g2 _ h2
      have : m.op = x := doc_op_inj hw
      rw [this]
      intro hin
      rw [hin] at hx
      revert hx hset
      cases m.type <;> simp [ops]
  | inline k neg op p =>
    obtain ⟨_, h1, h2, _⟩ := hs
    refine ⟨?_, fun hn => by rw [h1] at hn; cases hn⟩
    unfold MatcherWf
    rw [if_pos h1]
    exact ⟨h2, hr h1⟩
  | named k neg op p =>
    obtain ⟨_, h1, h2, _⟩ := hs
    refine ⟨?_, fun hn => by rw [h1] at hn; cases hn⟩
    unfold MatcherWf
    rw [if_pos h1]
    exact ⟨h2, hr h1⟩

theorem addToGroups_length (sets : List BSet) (i : Nat) (s : BSet) : ∀ gs : Groups, (addToGroups sets i s gs).length ≤ gs.length + 1
  | [] => by simp [addToGroups]
  | g :: gs => by
    have ih := addToGroups_length sets i s gs
    rw [addToGroups]
    simp only [List.length_cons]
    generalize (!s.useTrie && _) = b
    cases b with
    | true => simp
    | false => simpa using ih

theorem buildGroupsFrom_length (sets : List BSet) : ∀ (l : List BSet) (i : Nat) (gs : Groups), (buildGroupsFrom sets i l gs).length ≤ gs.length + l.length
  | [], i, gs => by simp [buildGroupsFrom]
  | s :: l, i, gs => by
    rw [buildGroupsFrom]
    refine Nat.le_trans (buildGroupsFrom_length sets l _ _) ?_
    split
    · simp only [List.length_cons]; omega
    · have := addToGroups_length sets i s gs
      simp only [List.length_cons]; omega

/-- What a text must keep to for its programs to be made, beside being accepted: keys of 64 bytes, 262143 sets, 200 matchers in a rule, jumps of 31 bits,
and packets redirected only where the hook can. -/
structure Modest (s : ChainS) (hook : Hook) (slen : Stub → Nat) : Prop where
  keys : ∀ k ∈ s.sets.map (·.key) ++ (inlineSets s.rules).map (·.1), ∀ key, KeyOf k key → keySize key ≤ 64
  sets : s.sets.length + (inlineSets s.rules).length < 262144
  matchers : ∀ r ∈ s.rules, r.matchers.length ≤ 200
  redirects : ∀ r ∈ s.rules, ∀ i x, r.verdict = .redirect i (Doc.direction x).toList → Spec.redirects hook x
  rules : 222 + 32000 * s.rules.length + stubRoom slen (fun _ => 0) < 2147483647

variable {e : PEnv} {text : List Char} {cs : List ChainS} {rs : List (Chain × Option HookOpts)} {chain : Chain} {k : Nat} {s : ChainS} {o : Option HookOpts}

/-- A chain that is read has all that is needed for its program to be made. -/
theorem C49_compilable (hw : Writes text cs) (hp : bfcParse e text = some (.ok rs)) (hs : cs[k]? = some s) (hk : rs[k]? = some (chain, o))
    {slen : Stub → Nat} (hm : Modest s chain.hook slen) (hn : ∀ c ∈ rs, c.1.sets.length ≤ 4294967296) :
    ApiChain chain ∧ Compilable chain slen ∧ chain.sets.length < 262144 ∧ chain.rules.length < 268435456 := by
  obtain ⟨b, hb1, hsay⟩ := each_get (C45_read hw hp hn) hs
  rw [hk] at hb1
  cases hb1
  have hb := bfcParse_built hp _ (List.mem_of_getElem? hk)
  obtain ⟨m1, m2, m3⟩ := bfcParse_made hp _ (List.mem_of_getElem? hk)
  have htext := hw.2.1 s (List.mem_of_getElem? hs)
  obtain ⟨decl, inl, e1, e2, _, e3⟩ := hsay.sets
  have hlen : chain.rules.length = s.rules.length := (each_length hsay.rules).symm
  have hsets : chain.sets.length < 262144 := by
    have e1 : chain.sets = decl ++ inl := e1
    have := hm.sets
    rw [e1, List.length_append, ← each_length e2, ← each_length e3]
    exact this
  have hsize := hm.rules
  have hmw : ∀ r ∈ chain.rules, ∀ m ∈ r.matchers, MatcherWf m ∧ NetWf m := by
    intro r hr m hmm
    obtain ⟨sr, hsr, h1⟩ := each_mem hsay.rules hr
    obtain ⟨x, hx, h2⟩ := each_mem h1.matchers hmm
    exact matcher_wf ((htext.rules sr hsr).matchers x hx) (m2 r hr m hmm) h2
  refine ⟨hb.api, ⟨fun r hr m h => (hmw r hr m h).1, fun r hr m h => (hmw r hr m h).2, ⟨fun x hx => ?_, hsets⟩, m3, fun r hr hv => ?_, fun r hr => ?_, ?_⟩, hsets, ?_⟩
  · have e1 : chain.sets = decl ++ inl := e1
    have hx' := hx
    rw [e1] at hx'
    rcases List.mem_append.mp hx' with h | h
    · obtain ⟨d, hd, h1⟩ := each_mem e2 h
      exact set_wf (m1 x hx) h1 (hm.keys d.key (List.mem_append_left _ (List.mem_map_of_mem hd)) _ h1.2.1)
    · obtain ⟨d, hd, h1⟩ := each_mem e3 h
      exact set_wf (m1 x hx) h1 (hm.keys d.1 (List.mem_append_right _ (List.mem_map_of_mem hd)) _ h1.2.1)
  · obtain ⟨sr, hsr, h1⟩ := each_mem hsay.rules hr
    have h2 := h1.verdict
    cases hsv : sr.verdict with
    | plain v =>
      rw [hsv] at h2
      have h2 : v = (Doc.verdict r.verdict).toList := h2
      have := (htext.rules sr hsr).verdict
      rw [hsv] at this
      obtain ⟨x, hx1, hx2⟩ := this
      rw [hv] at h2
      exact absurd (h2.symm.trans hx2) (by cases x <;> first | exact absurd rfl hx1 | decide)
    | redirect i d =>
      rw [hsv] at h2
      refine hm.redirects sr hsr i _ ?_
      rw [hsv, h2.2.2]
  · obtain ⟨sr, hsr, h1⟩ := each_mem hsay.rules hr
    rw [← each_length h1.matchers]
    exact hm.matchers sr hsr
  · rw [hlen]; exact hsize
  · omega

/-- **C49**, loading: the chain of a text is turned into a program, which can be loaded whatever the packets. -/
theorem C49_loads (hw : Writes text cs) (hp : bfcParse e text = some (.ok rs)) (hs : cs[k]? = some s) (hk : rs[k]? = some (chain, o))
    {slen : Stub → Nat} (hm : Modest s chain.hook slen) (hn : ∀ c ∈ rs, c.1.sets.length ≤ 4294967296) (thr : Nat → BitVec 32) :
    ∃ img, compile chain thr slen stdFds = .ok img ∧ ∀ base, (chain.hook.flavor = .sockAddr → SockAbi base.sock) → IsLoaded (envOf base chain) chain thr img := by
  obtain ⟨h1, h2, h3, h4⟩ := C49_compilable hw hp hs hk hm hn
  obtain ⟨img, hi⟩ := C16_compiles h1 (thr := thr) h2 stdFds
  refine ⟨img, hi, fun base hb => .of_compile h1 h2.matchers h2.sets h4 ?_ hb hi⟩
  have := buildGroupsFrom_length chain.sets chain.sets 0 []
  simp only [List.length_nil, Nat.zero_add] at this
  unfold buildGroups
  omega

/-! ### The verdict of a text is unique -/

theorem newMark_unique {r : RuleS} {a b c : Nat} (h1 : NewMark r a b) (h2 : NewMark r a c) : b = c := by
  by_cases h : ∀ o ∈ r.options, isMark o = false
  · rw [h1.2 h, h2.2 h]
  · have : ∃ o ∈ r.options, isMark o = true := Classical.byContradiction fun hh => h fun o ho => by
      cases hb : isMark o with
      | false => rfl
      | true => exact absurd ⟨o, ho, hb⟩ hh
    obtain ⟨o, ho, hm⟩ := this
    cases o with
    | mark v =>
      have g1 := h1.1 v ho
      have g2 := h2.1 v ho
      have := (Prod.mk.inj (g1.1.symm.trans g2.1)).1
      omega
    | log => cases hm
    | counter => cases hm

/-- A text decides once. -/
theorem rulesBy_one {sel : Nat → MatcherS → Prop} {policy : List Char} {mark : Nat} {rs : List RuleS} {v v' : VerdictS}
    (h : RulesBy sel policy mark rs v) (h' : RulesBy sel policy mark rs v') : v = v' := by
  induction h generalizing v' with
  | policy => cases h'; rfl
  | skip hn _ ih =>
    cases h' with
    | skip _ h => exact ih h
    | goOn ha => exact absurd ha hn
    | rule ha => exact absurd ha hn
  | goOn ha hc hm _ ih =>
    cases h' with
    | skip hn => exact absurd ha hn
    | goOn _ _ hm' h =>
      rw [newMark_unique hm hm'] at ih
      exact ih h
    | rule _ hn => exact absurd hc hn
  | rule ha hn =>
    cases h' with
    | skip hn => exact absurd ha hn
    | goOn _ hc => exact absurd hc hn
    | rule => rfl

theorem C49_one {env : TextEnv} {i : Input} {sets : List SetS} {policy : List Char} {mark : Nat} {rs : List RuleS} {v v' : VerdictS}
    (h : Rules env i sets policy mark rs v) (h' : Rules env i sets policy mark rs v') : v = v' := rulesBy_one h h'

/-- **C49.**  A chain of a text that was accepted has a program that, whatever the packet, ends and, if the packet can be read, does what the text says: every
verdict the text can be said to give is the one that is returned, and there is one. -/
theorem C49_program_partial (hw : Writes text cs) (hp : bfcParse e text = some (.ok rs)) (hs : cs[k]? = some s) (hk : rs[k]? = some (chain, o))
    {slen : Stub → Nat} (hm : Modest s chain.hook slen) (hn : ∀ c ∈ rs, c.1.sets.length ≤ 4294967296) (hf : chain.hook.flavor ≠ .sockAddr) (thr : Nat → BitVec 32) :
    ∃ img, compile chain thr slen stdFds = .ok img ∧ ∀ base w, ∃ r w', Runs (envOf base chain) img w r w' ∧
      (¬ Unreadable (envOf base chain) chain → (∀ sr ∈ s.rules, ∀ m ∈ sr.matchers, InScope (inputOf base chain.hook) s.sets m) →
        (∃ v, Rules e.text (inputOf base chain.hook) s.sets s.policy w.mark.toNat s.rules v) ∧
        ∀ v, Rules e.text (inputOf base chain.hook) s.sets s.policy w.mark.toNat s.rules v → Obeys e.text base chain.hook.flavor r v) := by
  obtain ⟨img, hi, hl⟩ := C49_loads hw hp hs hk hm hn thr
  refine ⟨img, hi, fun base w => ?_⟩
  have hl := hl base fun h => absurd h hf
  obtain ⟨r, w', hr⟩ := C01_returns hl w
  refine ⟨r, w', hr, fun hu hsc => ?_⟩
  obtain ⟨v, h1, h2⟩ := C49_decides_partial hw hp hs hk hl hf hr hu hsc hn
  refine ⟨⟨v, h1⟩, fun v' h' => ?_⟩
  rw [C49_one h' h1]
  exact h2

end Bf
