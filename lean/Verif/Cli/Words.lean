import Verif.Cli.Read
/-!
# The words are read as what they are
-/
namespace Bf.Cli
open Bf.Spec

theorem step_reads {st st' : LState} {w : List Char} {q : LRule} {t : Tok} (hp : Plain w) (hq : lexRules.find? (fun r => r.active st && r.re.accepts w) = some q)
    (ht : q.kind.tok w = some t) (he : t.isEnd = false) (hn : q.next.getD st = st') : Reads st [w] [t] st' := by
  intro more text hm hl
  obtain ⟨r, h1, h2⟩ := step_plain hp hq ht he hl (Or.inr hm)
  exact ⟨r, h1, by rw [h2, hn]; rfl⟩

/-! ## Fixed words -/

def plainB (w : List Char) : Bool :=
  match w.head?, w.getLast? with
  | some a, some b => a ≠ '#' && a ≠ '(' && a ≠ '{' && !seps.contains b
  | _, _ => false

theorem plain_of {w : List Char} (h : plainB w = true) : Plain w := by
  unfold plainB at h
  split at h
  · next a b ha hb =>
    simp only [Bool.and_eq_true, decide_eq_true_eq, Bool.not_eq_true', List.contains_eq_mem, decide_eq_false_iff_not] at h
    refine ⟨(fun e => by rw [e] at ha; cases ha), ?_, fun c hc hs => ?_⟩
    · rw [ha]
      simp only [ne_eq, Option.some.injEq]
      exact ⟨h.1.1.1, h.1.1.2, h.1.2⟩
    · rw [hb] at hc
      cases hc
      exact h.2 (mem_seps.mpr hs)
  · cases h

/-- The word is read as `t`, and the start condition becomes `st'`. -/
def fixedB (st : LState) (w : List Char) (t : Tok) (st' : LState) : Bool :=
  plainB w && !t.isEnd && match lexRules.find? (fun r => r.active st && r.re.accepts w) with
    | none => false
    | some q => q.kind.tok w = some t && q.next.getD st = st'

theorem fixed_reads {st st' : LState} {w : List Char} {t : Tok} (h : fixedB st w t st' = true) : Reads st [w] [t] st' := by
  unfold fixedB at h
  split at h
  · simp at h
  · next q hq =>
    simp only [Bool.and_eq_true, decide_eq_true_eq, Bool.not_eq_true'] at h
    exact step_reads (plain_of h.1.1) hq h.2.1 h.1.2 h.2.2

/-- Where the text may rest between the parts of a sentence. -/
def resting : List LState := [.initial, .set, .hookOpts]

theorem read_kw : ∀ x ∈ [("chain", Tok.chain), ("rule", .rule), ("set", .set), ("counter", .counter), ("log", .log)], ∀ st ∈ resting,
    fixedB st x.1.toList x.2 st = true := by decide +kernel
theorem read_not : ∀ st ∈ allStates, fixedB st "not".toList .negate st = true := by decide +kernel
theorem read_mark : ∀ st ∈ resting, fixedB st "mark".toList .mark .markOpts = true := by decide +kernel
theorem read_every : ∀ st ∈ resting, fixedB st "every".toList .every .logEvery = true := by decide +kernel
theorem read_redirect : ∀ st ∈ resting, fixedB st "REDIRECT".toList .redirect .redirIface = true := by decide +kernel
theorem read_verdict : ∀ v ∈ ["ACCEPT", "DROP", "CONTINUE", "NEXT"], ∀ st ∈ resting, fixedB st v.toList (.verdict v.toList) st = true := by decide +kernel
theorem read_dir : ∀ v ∈ ["in", "out"], fixedB .redirDir v.toList (.redirDir v.toList) .initial = true := by decide +kernel
theorem read_in : fixedB .set "in".toList (.matcherOp "in".toList) .set = true := by decide +kernel

def hooks : List Hook := [.xdp, .tcIngress, .tcEgress, .nfPreRouting, .nfLocalIn, .nfForward, .nfLocalOut, .nfPostRouting, .cgroupSkbIngress,
  .cgroupSkbEgress, .connect4, .connect6, .sendmsg4, .sendmsg6]
theorem mem_hooks (h : Hook) : h ∈ hooks := by cases h <;> decide
theorem read_hook : ∀ h ∈ hooks, ∀ st ∈ resting, fixedB st (Doc.hook h).toList (.hook (Doc.hook h).toList) .hookOpts = true := by decide +kernel

/-- The start condition after the name of a matcher. -/
def stateOf : MType → LState
  | .metaIface => .metaIface
  | .metaL3Proto => .l3Proto
  | .metaL4Proto | .ip4Proto | .ip6Nexthdr => .l4Proto
  | .metaProbability | .metaFlowProbability => .proba
  | .metaMark => .metaMark
  | .metaFlowHash => .flowHash
  | .ip4Saddr | .ip4Daddr => .ip4Addr
  | .ip4Snet | .ip4Dnet => .ip4Net
  | .ip4Dscp => .ip4Dscp
  | .ip6Saddr | .ip6Daddr => .ip6Addr
  | .ip6Snet | .ip6Dnet => .ip6Net
  | .ip6Dscp => .ip6Dscp
  | .metaSport | .metaDport | .tcpSport | .tcpDport | .udpSport | .udpDport => .port
  | .icmpType | .icmpv6Type => .icmpType
  | .icmpCode | .icmpv6Code => .icmpCode
  | .tcpFlags => .tcpFlags
  | .set => .set

def types : List MType := [.metaIface, .metaL3Proto, .metaL4Proto, .metaSport, .metaDport, .metaProbability, .metaMark, .metaFlowHash, .metaFlowProbability,
  .ip4Saddr, .ip4Daddr, .ip4Snet, .ip4Dnet, .ip4Proto, .ip4Dscp, .ip6Saddr, .ip6Daddr, .ip6Snet, .ip6Dnet, .ip6Nexthdr, .ip6Dscp, .tcpSport, .tcpDport,
  .tcpFlags, .udpSport, .udpDport, .icmpType, .icmpCode, .icmpv6Type, .icmpv6Code]
theorem mem_types {t : MType} (h : t ≠ .set) : t ∈ types := by revert h; cases t <;> decide
theorem read_type : ∀ t ∈ types, ∀ st ∈ resting, fixedB st (Doc.matcher t).toList (.matcherType (Doc.matcher t).toList) (stateOf t) = true := by decide +kernel
theorem read_op : ∀ t ∈ types, ∀ o ∈ ops t, fixedB (stateOf t) (Doc.op o).toList (.matcherOp (Doc.op o).toList) (stateOf t) = true := by decide +kernel

/-! ## Words that are not fixed -/

def hookRe : Re := .seq (lit "BF_HOOK_") (plus (cls [('A', 'Z'), ('0', '9'), ('_', '_')]))

def fixedWords : List (List Char) :=
  (["chain", "rule", "set", "not", "counter", "log", "mark", "every"].map String.toList) ++ ([Verdict.accept, .drop, .continue_, .redirect, .next].map fun v => (Doc.verdict v).toList) ++
  ([RedirDir.ingress, .egress].map fun v => (Doc.direction v).toList) ++ ([MOp.eq, .any, .all, .in_, .range].map fun v => (Doc.op v).toList) ++
  (types.map fun v => (Doc.matcher v).toList) ++ (seps.map fun c => [c])

theorem fixedWords_mem {w : List Char} (h : w ∈ fixedWords) : Reserved w ∨ ∃ c, Separates c ∧ w = [c] := by
  simp only [fixedWords, List.mem_append, or_assoc] at h
  rcases h with h | h | h | h | h | h
  · exact Or.inl (Or.inl h)
  · obtain ⟨v, _, rfl⟩ := List.mem_map.mp h
    exact Or.inl (Or.inr (Or.inl ⟨v, rfl⟩))
  · obtain ⟨v, _, rfl⟩ := List.mem_map.mp h
    exact Or.inl (Or.inr (Or.inr (Or.inl ⟨v, rfl⟩)))
  · obtain ⟨v, _, rfl⟩ := List.mem_map.mp h
    exact Or.inl (Or.inr (Or.inr (Or.inr (Or.inl ⟨v, rfl⟩))))
  · obtain ⟨v, _, rfl⟩ := List.mem_map.mp h
    exact Or.inl (Or.inr (Or.inr (Or.inr (Or.inr (Or.inl ⟨v, rfl⟩)))))
  · obtain ⟨c, hc, rfl⟩ := List.mem_map.mp h
    exact Or.inr ⟨c, mem_seps.mp hc, rfl⟩

/-- A rule that only fixed words match. -/
def LRule.closed (r : LRule) : Bool :=
  (match r.re.enum with
   | some l => l.all fixedWords.contains
   | none => false) || r.re.starts '#' || r.re.starts '(' || r.re.starts '{' || r.re = hookRe

theorem closed_rejects {r : LRule} {w : List Char} (h : r.closed = true) (hp : Plain w) (hr : ¬ Reserved w) : r.re.accepts w = false := by
  cases ha : r.re.accepts w with
  | false => rfl
  | true =>
    exfalso
    have hl := accepts_iff.mp ha
    simp only [LRule.closed, Bool.or_eq_true] at h
    rcases h with (((h | h) | h) | h) | h
    · cases he : r.re.enum with
      | none => rw [he] at h; cases h
      | some l =>
        rw [he] at h
        have hm := List.all_eq_true.mp h w (enum_lang hl he)
        rcases fixedWords_mem (by simpa using hm) with h' | ⟨c, hc, rfl⟩
        · exact hr h'
        · exact hp.last c rfl hc
    · exact hp.head.1 (starts_lang h hl)
    · exact hp.head.2.1 (starts_lang h hl)
    · exact hp.head.2.2 (starts_lang h hl)
    · simp only [decide_eq_true_eq] at h
      rw [h] at hl
      obtain ⟨x, y, rfl, hx, _⟩ := lang_seq.mp hl
      refine hr (Or.inr (Or.inr (Or.inr (Or.inr (Or.inr ⟨y, ?_⟩)))))
      rw [lang_lit.mp hx]

/-- Only the rules for words that are not fixed can match the word. -/
def Free (w : List Char) : Prop := ∀ r : LRule, r.closed = true → r.re.accepts w = false

theorem free_of {w : List Char} (hp : Plain w) (hr : ¬ Reserved w) : Free w := fun _ h => closed_rejects h hp hr

/-- The rules that other words can match. -/
def openRules (st : LState) : List LRule := lexRules.filter fun r => r.active st && !r.closed

theorem find_filter {α : Type} {p q : α → Bool} : ∀ {l : List α}, (∀ x ∈ l, p x = true → q x = true) → l.find? p = (l.filter q).find? p
  | [], _ => rfl
  | x :: l, h => by
    have ih := find_filter (l := l) fun y hy => h y (List.mem_cons_of_mem _ hy)
    rw [List.find?_cons, List.filter_cons]
    cases hp : p x with
    | true =>
      rw [if_pos (h x List.mem_cons_self hp), List.find?_cons, hp]
    | false =>
      cases hq : q x with
      | true => simp only [if_pos, List.find?_cons, hp]; exact ih
      | false => simp only [Bool.false_eq_true, if_false]; exact ih

theorem find_open {st : LState} {w : List Char} {q : LRule} {l : List LRule} (hr : Free w) (ho : openRules st = q :: l) (hq : q.re.accepts w = true) :
    lexRules.find? (fun r => r.active st && r.re.accepts w) = some q := by
  rw [find_filter (q := fun r => r.active st && !r.closed)]
  · have : lexRules.filter (fun r => r.active st && !r.closed) = q :: l := ho
    rw [this, List.find?_cons]
    have hm : q ∈ openRules st := by rw [ho]; exact List.mem_cons_self
    have := (List.mem_filter.mp hm).2
    simp only [Bool.and_eq_true] at this
    rw [this.1, hq]
    rfl
  · intro r _ h
    simp only [Bool.and_eq_true] at h
    rw [h.1]
    cases hc : r.closed with
    | false => rfl
    | true => rw [hr r hc] at h; cases h.2

theorem find_open2 {st : LState} {w : List Char} {q q' : LRule} {l : List LRule} (hr : Free w) (ho : openRules st = q' :: q :: l)
    (hq' : q'.re.accepts w = false) (hq : q.re.accepts w = true) : lexRules.find? (fun r => r.active st && r.re.accepts w) = some q := by
  rw [find_filter (q := fun r => r.active st && !r.closed)]
  · have : lexRules.filter (fun r => r.active st && !r.closed) = q' :: q :: l := ho
    rw [this, List.find?_cons, List.find?_cons, hq', hq]
    have hm : q ∈ openRules st := by rw [ho]; exact List.mem_cons_of_mem _ List.mem_cons_self
    have := (List.mem_filter.mp hm).2
    simp only [Bool.and_eq_true] at this
    rw [this.1, Bool.and_false]
    rfl
  · intro r _ h
    simp only [Bool.and_eq_true] at h
    rw [h.1]
    cases hc : r.closed with
    | false => rfl
    | true => rw [hr r hc] at h; cases h.2

def stringRule : LRule := ⟨[], plus (cls wordCh), .string, none⟩
def anyRule : LRule := ⟨[], .one ⟨true, [('\n', '\n')]⟩, .char, none⟩

theorem open_initial : openRules .initial = [stringRule, anyRule] := by decide +kernel
theorem open_set : openRules .set = [stringRule, anyRule] := by decide +kernel
def hookOptRule : LRule := ⟨[.hookOpts], seqs [plus (cls wordCh), chr '=', plus (cls (('-', '-') :: ('.', '.') :: ('/', '/') :: wordCh))], .hookOpt, none⟩
theorem open_hookOpts : openRules .hookOpts = [hookOptRule, stringRule, anyRule] := by decide +kernel
theorem open_markOpts : openRules .markOpts = [⟨[.markOpts], intRe, .string, some .initial⟩, stringRule, anyRule] := by decide +kernel
theorem open_logEvery : openRules .logEvery = [⟨[.logEvery], .seq floatRe (plus (cls [('a', 'z')])), .string, some .initial⟩, stringRule, anyRule] := by decide +kernel
theorem open_redirIface : openRules .redirIface = [⟨[.redirIface], .alt intRe (plus (cls (('-', '-') :: wordCh))), .redirIface, some .redirDir⟩, stringRule, anyRule] := by decide +kernel

def payRe : MType → Re
  | .metaIface | .metaL3Proto | .metaL4Proto | .ip4Proto | .ip6Nexthdr | .ip4Dscp | .ip6Dscp | .icmpType | .icmpv6Type => intOrName
  | .metaProbability | .metaFlowProbability => .seq floatRe (chr '%')
  | .metaMark | .icmpCode | .icmpv6Code => intRe
  | .metaFlowHash | .metaSport | .metaDport | .tcpSport | .tcpDport | .udpSport | .udpDport => intOrRange
  | .ip4Saddr | .ip4Daddr => seqs [intRe, chr '.', intRe, chr '.', intRe, chr '.', intRe]
  | .ip4Snet | .ip4Dnet => seqs [intRe, chr '.', intRe, chr '.', intRe, chr '.', intRe, chr '/', intRe]
  | .ip6Saddr | .ip6Daddr => plus (cls ((':', ':') :: alnum))
  | .ip6Snet | .ip6Dnet => plus (cls ((':', ':') :: ('/', '/') :: alnum))
  | .tcpFlags => plus (.seq (plus (cls alpha)) (opt (chr ',')))
  | .set => .never

theorem open_pay : ∀ t ∈ types, openRules (stateOf t) = [pay (stateOf t) (payRe t), stringRule, anyRule] := by decide +kernel

end Bf.Cli
