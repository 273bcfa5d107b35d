import Verif.Props.C02_Continue
import Verif.Spec.TraceLemmas
import Verif.Props.Sample
import Verif.Props.C06_Fields
/-!
# C20: log entries
-/
namespace Bf
open Spec

variable {E : Env} {chain : Chain} {thr : Nat → BitVec 32} {img : List Insn} {w w' wk : World} {r : BitVec 64}
  {c : Sem} {rules : List Rule} {k : Nat}

/-- A rule asks for a log entry when it fires in state `w`: it has a log action and, if that is rate limited, the
time since the last entry it asked for is at least the limit. -/
def Wants (c : Sem) (r : Rule) (w : World) : Prop :=
  r.log ≠ 0 ∧ (r.rate = 0 ∨ r.rate.toNat ≤ (c.kernel.clk w.clk - w.state r.index).toNat)

/-- Rule `j` is reached, fires and asks for a log entry. -/
def Requests (c : Sem) (rules : List Rule) (w : World) (j : Nat) : Prop :=
  ∃ q wj, rules[j]? = some q ∧ Reaches c rules w j wj ∧ Fires c q wj ∧ Wants c q wj

/-- When a rule logs, relative to the clock reads before. -/
def logTime (c : Sem) (r : Rule) (w : World) : BitVec 64 := c.kernel.clk (if r.rate = 0 then w.clk else w.clk + 1)

theorem logAction_wants {q : Rule} {w : World} (h : Wants c q w) : (logAction c q w).ring = w.ring + 1 ∧
    (logAction c q w).logs = w.logs ++ (if c.kernel.ringOk w.ring then [c.entry q (logTime c q w)] else []) ∧
    (q.rate ≠ 0 → (logAction c q w).state q.index = c.kernel.clk w.clk) ∧
    (logAction c q w).clk = w.clk + (if q.rate = 0 then 0 else 1) + (if c.kernel.ringOk w.ring then 1 else 0) := by
  obtain ⟨h0, h1⟩ := h
  unfold logAction logTime
  rw [if_neg h0]
  by_cases hr : q.rate = 0
  · simp only [hr, if_true]
    unfold publish
    dsimp only
    split <;> simp
  · rw [if_neg hr]
    dsimp only
    have h1 := h1.resolve_left hr
    rw [if_neg (by omega)]
    unfold publish
    dsimp only
    split <;> simp [hr]

theorem logAction_not {q : Rule} {w : World} (h : ¬ Wants c q w) : (logAction c q w).ring = w.ring ∧
    (logAction c q w).logs = w.logs ∧ (logAction c q w).state = w.state ∧
    (logAction c q w).clk = w.clk + (if q.log = 0 ∨ q.rate = 0 then 0 else 1) := by
  unfold logAction
  by_cases h0 : q.log = 0
  · simp [h0]
  · have h2 : ¬ (q.rate = 0 ∨ q.rate.toNat ≤ (c.kernel.clk w.clk - w.state q.index).toNat) := fun h' => h ⟨h0, h'⟩
    have h3 : q.rate ≠ 0 := fun e => h2 (Or.inl e)
    rw [if_neg h0, if_neg h3]
    dsimp only
    rw [if_pos (by have := fun e => h2 (Or.inr e); omega)]
    refine ⟨rfl, rfl, rfl, ?_⟩
    rw [if_neg (by rintro (h | h); exact h0 h; exact h3 h)]

theorem wants_congr {q : Rule} {w1 w2 : World} (h1 : w1.clk = w2.clk) (h2 : w1.state = w2.state) :
    Wants c q w1 ↔ Wants c q w2 := by
  unfold Wants; rw [h1, h2]

/-- A requested entry: the rule, and the entry if the buffer had room. -/
abbrev Req := Nat × Option LogRec

/-- What the requests of an evaluation say: which rules, in order; an entry is published if there is room, and it is the
one specified for the rule at some time. -/
structure ReqsOk (c : Sem) (rules : List Rule) (w : World) (k : Nat) (wk : World) (js : List Req) : Prop where
  who : ∀ j, j ∈ js.map (·.1) ↔ j < k ∧ Requests c rules w j
  order : (js.map (·.1)).Pairwise (· < ·)
  logs : wk.logs = w.logs ++ js.filterMap (·.2)
  ring : wk.ring = w.ring + js.length
  room : ∀ (p : Nat) (q : Req), js[p]? = some q → q.2.isSome = c.kernel.ringOk (w.ring + p)
  what : ∀ q ∈ js, ∀ e, q.2 = some e → ∃ rule t, rules[q.1]? = some rule ∧ e = c.entry rule t

theorem Requests.reached {wj : World} {q : Rule} {j : Nat} (hq : rules[j]? = some q) (hr : Reaches c rules w j wj) :
    Requests c rules w j ↔ Fires c q wj ∧ Wants c q wj := by
  constructor
  · rintro ⟨q', wj', a, b, d, e⟩
    rw [hq] at a; cases a
    cases hr.unique b
    exact ⟨d, e⟩
  · rintro ⟨h1, h2⟩
    exact ⟨q, wj, hq, hr, h1, h2⟩

theorem ReqsOk.skip {js : List Req} {wk' : World} (h : ReqsOk c rules w k wk js) (hno : ¬ Requests c rules w k)
    (h1 : wk'.logs = wk.logs) (h2 : wk'.ring = wk.ring) : ReqsOk c rules w (k + 1) wk' js := by
  refine ⟨fun j => ?_, h.order, by rw [h1, h.logs], by rw [h2, h.ring], h.room, h.what⟩
  rw [h.who]
  constructor
  · rintro ⟨a, b⟩; exact ⟨by omega, b⟩
  · rintro ⟨a, b⟩
    refine ⟨?_, b⟩
    by_cases e : j = k
    · subst e; exact absurd b hno
    · omega

theorem ReqsOk.act {js : List Req} {q : Rule} (h : ReqsOk c rules w k wk js) (hq : rules[k]? = some q)
    (hr : Reaches c rules w k wk) (hf : Fires c q wk) :
    ∃ js', ReqsOk c rules w (k + 1) (actions c q (World.drew wk (draws q.matchers))) js' := by
  have er : ∀ w0 : World, (actions c q w0).ring =
      (logAction c q (if q.mark >>> 32 ≠ 0 then { w0 with mark := q.mark.setWidth 32 } else w0)).ring := by
    intro w0
    unfold actions
    dsimp only
    split <;> rfl
  generalize hw0 : World.drew wk (draws q.matchers) = w0 at *
  generalize hw1 : (if q.mark >>> 32 ≠ 0 then { w0 with mark := q.mark.setWidth 32 } else w0 : World) = w1 at *
  have e1 : w1.logs = wk.logs ∧ w1.ring = wk.ring ∧ w1.clk = wk.clk ∧ w1.state = wk.state := by
    rw [← hw1, ← hw0]; split <;> exact ⟨rfl, rfl, rfl, rfl⟩
  have el := actions_logs c q w0
  have er := er w0
  rw [hw1] at el er
  by_cases hwant : Wants c q wk
  · obtain ⟨a1, a2, _⟩ := logAction_wants ((wants_congr e1.2.2.1 e1.2.2.2).mpr hwant)
    refine ⟨js ++ [(k, if c.kernel.ringOk w1.ring then some (c.entry q (logTime c q w1)) else none)], ?_, ?_, ?_, ?_, ?_, ?_⟩
    · intro j
      simp only [List.map_append, List.map_cons, List.map_nil, List.mem_append, List.mem_singleton, h.who]
      constructor
      · rintro (⟨a, b⟩ | rfl)
        · exact ⟨by omega, b⟩
        · exact ⟨by omega, (Requests.reached hq hr).mpr ⟨hf, hwant⟩⟩
      · rintro ⟨a, b⟩
        by_cases e : j = k
        · exact Or.inr e
        · exact Or.inl ⟨by omega, b⟩
    · simp only [List.map_append, List.map_cons, List.map_nil]
      refine List.pairwise_append.mpr ⟨h.order, by simp, ?_⟩
      intro a ha b hb
      simp only [List.mem_singleton] at hb
      subst hb
      exact ((h.who a).mp ha).1
    · rw [el, a2, e1.1, h.logs, List.filterMap_append, List.append_assoc]
      congr 2
      split <;> rfl
    · rw [er, a1, e1.2.1, h.ring]; simp; omega
    · intro p x hp
      rw [List.getElem?_append] at hp
      split at hp
      · exact h.room p x hp
      · have hp0 : p - js.length = 0 := by
          cases hh : p - js.length with
          | zero => rfl
          | succ n => rw [hh] at hp; simp at hp
        rw [hp0] at hp
        simp only [List.getElem?_cons_zero, Option.some.injEq] at hp
        subst hp
        have : w1.ring = w.ring + p := by rw [e1.2.1, h.ring]; omega
        rw [this]
        cases c.kernel.ringOk (w.ring + p) <;> rfl
    · intro x hx e he
      rcases List.mem_append.mp hx with hx | hx
      · exact h.what x hx e he
      · simp only [List.mem_singleton] at hx
        subst hx
        simp only at he ⊢
        split at he
        · cases he; exact ⟨q, _, hq, rfl⟩
        · cases he
  · obtain ⟨a1, a2, _⟩ := logAction_not (fun h => hwant ((wants_congr e1.2.2.1 e1.2.2.2).mp h))
    refine ⟨js, h.skip ?_ (by rw [el, a2, e1.1]) (by rw [er, a1, e1.2.1])⟩
    intro hreq
    exact hwant ((Requests.reached hq hr).mp hreq).2

theorem reaches_reqs (h : Reaches c rules w k wk) : ∃ js, ReqsOk c rules w k wk js := by
  induction h with
  | first => exact ⟨[], by simp, by simp, by simp, by simp, by simp, by simp⟩
  | skip h1 h2 h3 ih =>
    obtain ⟨js, ih⟩ := ih
    refine ⟨js, ih.skip ?_ rfl rfl⟩
    intro hreq
    exact ((Requests.reached h2 h1).mp hreq).1.not_fails h3
  | goOn h1 h2 h3 h4 ih =>
    obtain ⟨js, ih⟩ := ih
    exact ih.act h2 h1 h3

/-- The requests of a whole evaluation. -/
theorem decides_reqs {policy : Verdict} (h : Decides c policy rules w r w') :
    ∃ js : List Req, (∀ j, j ∈ js.map (·.1) ↔ Requests c rules w j) ∧ (js.map (·.1)).Pairwise (· < ·) ∧
      w'.logs = w.logs ++ js.filterMap (·.2) ∧ w'.ring = w.ring + js.length ∧
      (∀ (p : Nat) (q : Req), js[p]? = some q → q.2.isSome = c.kernel.ringOk (w.ring + p)) ∧
      (∀ q ∈ js, ∀ e, q.2 = some e → ∃ rule t, rules[q.1]? = some rule ∧ e = c.entry rule t) := by
  cases h with
  | rule h1 h2 h3 h4 =>
    rename_i k q wk
    obtain ⟨js, h⟩ := reaches_reqs h1
    obtain ⟨js', h⟩ := h.act h2 h1 h3
    have e : (ruleEnd q (actions c q (World.drew wk (draws q.matchers)))).logs =
        (actions c q (World.drew wk (draws q.matchers))).logs ∧
        (ruleEnd q (actions c q (World.drew wk (draws q.matchers)))).ring =
        (actions c q (World.drew wk (draws q.matchers))).ring := by
      unfold ruleEnd
      split <;> exact ⟨rfl, rfl⟩
    refine ⟨js', fun j => ?_, h.order, by rw [e.1, h.logs], by rw [e.2, h.ring], h.room, h.what⟩
    rw [h.who]
    refine ⟨fun h => h.2, fun hj => ⟨?_, hj⟩⟩
    by_cases hlt : j < k + 1
    · exact hlt
    · exfalso
      obtain ⟨_, wj, _, hj, _⟩ := hj
      obtain ⟨x, wx, a, b, d⟩ := hj.before (show k < j by omega)
      rw [h2] at a; cases a
      cases h1.unique b
      exact h4 (d h3)
  | policy h1 =>
    rename_i wk
    obtain ⟨js, h⟩ := reaches_reqs h1
    refine ⟨js, fun j => ?_, h.order, h.logs, h.ring, h.room, h.what⟩
    rw [h.who]
    refine ⟨fun h => h.2, fun hj => ⟨?_, hj⟩⟩
    obtain ⟨q, _, hq, _⟩ := hj
    exact (List.getElem?_eq_some_iff.mp hq).1

/-! ### Content -/

/-- One header of a log entry of a packet, for a layer: `got` tells whether the entry has it, `bytes` what it is;
`asked` whether the rule asks for it, `header` what the packet has there. -/
def LayerLogged (asked : Bool) (header : Option (List Byte)) (got : Bool) (bytes : List Byte) : Prop :=
  (asked = false → got = false ∧ bytes = []) ∧ (asked = true → ∀ h, header = some h → got = true ∧ bytes = h)

/-- The link header of a packet that the program can read in place. -/
def linkHeader (E : Env) (h : Hook) : Option (List Byte) :=
  if (h.flavor = .xdp ∨ h.flavor = .tc) ∧ E.copied 0 14 = false then some (E.pkt.take 14) else none

/-- The entry `e` describes rule number `j`, `q`, and what arrived at the hook. -/
structure Describes (E : Env) (chain : Chain) (j : Nat) (q : Rule) (e : LogRec) : Prop where
  rule : e.ruleId = BitVec.ofNat 32 j
  verdict : e.verdict = BitVec.ofNat 32 q.verdict.code
  kind : e.isPkt = true ↔ chain.hook.flavor ≠ .sockAddr
  packet : chain.hook.flavor ≠ .sockAddr → ∃ v, understand (inputOf E chain.hook) chain.flagNexthdr = some v ∧
    e.l3Proto = BitVec.ofNat 16 v.l3Num ∧ e.l4Proto = BitVec.ofNat 8 v.l4Num ∧ e.pktSize = (inputOf E chain.hook).size ∧
    e.reqHeaders = q.log &&& 0xF ∧
    LayerLogged (q.log.getLsbD 0) (linkHeader E chain.hook) (e.headers.getLsbD 0) e.l2 ∧
    LayerLogged (q.log.getLsbD 1) (v.l3.map (·.2)) (e.headers.getLsbD 1) e.l3 ∧
    LayerLogged (q.log.getLsbD 2) (v.l4.map (·.2)) (e.headers.getLsbD 2) e.l4
  sock : chain.hook.flavor = .sockAddr → e.l3Proto = BitVec.ofNat 16 (sockView E.sock).l3Num ∧
    e.l4Proto = BitVec.ofNat 8 (sockView E.sock).proto ∧ e.dport.toNat = beNat (sockView E.sock).dport ∧
    (chain.hook = .connect4 ∨ chain.hook = .sendmsg4 → e.daddr.take 4 = (sockView E.sock).daddr4) ∧
    (chain.hook = .connect6 ∨ chain.hook = .sendmsg6 → e.daddr = (sockView E.sock).daddr6) ∧
    (chain.hook = .sendmsg4 → e.saddr.map (·.take 4) = some (sockView E.sock).saddr4) ∧
    (chain.hook = .sendmsg6 → e.saddr = some (sockView E.sock).saddr6) ∧
    (chain.hook = .connect4 ∨ chain.hook = .connect6 → e.saddr = none) ∧ e.captured.getLsbD 0 = e.saddr.isSome

theorem inputOf_link {E : Env} {h : Hook} (hf : h.flavor = .xdp ∨ h.flavor = .tc) : (inputOf E h).link = .ethernet := by
  unfold inputOf
  rcases hf with hf | hf <;> rw [hf]

theorem hdrBits (a b d : Bool) :
    (((if a then 1 else 0) ||| (if b then 2 else 0) ||| (if d then 4 else 0) : BitVec 8).getLsbD 0 = a) ∧
    (((if a then 1 else 0) ||| (if b then 2 else 0) ||| (if d then 4 else 0) : BitVec 8).getLsbD 1 = b) ∧
    (((if a then 1 else 0) ||| (if b then 2 else 0) ||| (if d then 4 else 0) : BitVec 8).getLsbD 2 = d) := by
  cases a <;> cases b <;> cases d <;> decide

theorem layerLogged {asked : Bool} {header x : Option (List Byte)} (h : ∀ b, header = some b → x = some b) :
    LayerLogged asked header (if asked then x else none).isSome ((if asked then x else none).getD []) := by
  refine ⟨fun ha => by simp [ha], fun ha b hb => ?_⟩
  rw [h b hb]
  simp [ha]

theorem Sees.describes (hs : Sees E chain thr c) (hsock : chain.hook.flavor = .sockAddr → SockAbi E.sock)
    {q : Rule} (t : BitVec 64) : Describes E chain q.index q (c.entry q t) := by
  cases hs with
  | packet h1 h2 h3 =>
    rename_i v cap
    refine ⟨rfl, rfl, ⟨fun _ => h1, fun _ => rfl⟩, fun _ => ⟨v, h2, rfl, rfl, rfl, rfl, ?_, ?_, ?_⟩, fun h => absurd h h1⟩
    all_goals simp only [pktSem, pktEntry]
    · rw [(hdrBits _ _ _).1]
      refine layerLogged fun h hh => ?_
      unfold linkHeader at hh
      split at hh
      · next hc => rw [h3.l2 (inputOf_link hc.1) hc.2]; exact hh
      · cases hh
    · rw [(hdrBits _ _ _).2.1]
      refine layerLogged fun h hh => ?_
      cases hv : v.l3 with
      | none => rw [hv] at hh; cases hh
      | some p => rw [hv] at hh; cases hh; exact h3.l3 _ _ hv
    · rw [(hdrBits _ _ _).2.2]
      refine layerLogged fun h hh => ?_
      cases hv : v.l4 with
      | none => rw [hv] at hh; cases hh
      | some p => rw [hv] at hh; cases hh; exact h3.l4 _ _ hv
  | sock h1 =>
    have abi := hsock h1
    have hl := abi.size
    refine ⟨rfl, rfl, ⟨fun h => Bool.noConfusion (show false = true from h), fun h => absurd h1 h⟩, fun h => absurd h1 h,
      fun _ => ⟨rfl, rfl, ?_, ?_, ?_, ?_, ?_, ?_, ?_⟩⟩
    · show (BitVec.ofNat 16 (beNat (Spec.sockView E.sock).dport)).toNat = _
      rw [BitVec.toNat_ofNat]
      refine Nat.mod_eq_of_lt ?_
      refine Nat.lt_of_lt_of_le (beNat_lt _) ?_
      simp only [Spec.sockView, List.length_take, List.length_drop, hl]
      decide
    · rintro (hh | hh) <;> (simp only [sockSem]; unfold sockEntry; simp only [hh]) <;> rw [List.take_append_of_le_length] <;>
        simp [Spec.sockView, hl, List.take_take]
    · rintro (hh | hh) <;> (simp only [sockSem]; unfold sockEntry; simp only [hh])
    · intro hh
      simp only [sockSem]; unfold sockEntry; simp only [hh, Option.map_some]
      rw [List.take_append_of_le_length] <;> simp [Spec.sockView, hl, List.take_take]
    · intro hh; (simp only [sockSem]; unfold sockEntry; simp only [hh])
    · rintro (hh | hh) <;> (simp only [sockSem]; unfold sockEntry; simp only [hh])
    · simp only [sockSem]; unfold sockEntry; cases chain.hook <;> simp

/-- **C20**, what is proved of it.  On every packet (or socket operation), the log requests made are exactly those of the
rules that are reached, fire and have a log action (not held back by their rate limit), one each, in order; an entry is
published for a request exactly if the log buffer has room; it carries the number, the verdict and the requested headers
of that rule, and the protocols and headers of that packet. -/
theorem C20_log_partial (h : IsLoaded E chain thr img) (hr : Runs E img w r w') :
    (Unreadable E chain ∧ w'.logs = w.logs ∧ w'.ring = w.ring) ∨
    ∃ c, Sees E chain thr c ∧ ∃ js : List Req,
      (∀ j, j ∈ js.map (·.1) ↔ Requests c chain.rules w j) ∧ (js.map (·.1)).Pairwise (· < ·) ∧
      w'.logs = w.logs ++ js.filterMap (·.2) ∧ w'.ring = w.ring + js.length ∧
      (∀ (p : Nat) (q : Req), js[p]? = some q → q.2.isSome = E.ringOk (w.ring + p)) ∧
      (∀ q ∈ js, ∀ e, q.2 = some e → ∃ rule, chain.rules[q.1]? = some rule ∧ Describes E chain q.1 rule e) := by
  rcases h.outcome hr with ⟨hu, e⟩ | ⟨c, hc, hd⟩
  · refine Or.inl ⟨hu, ?_⟩
    have := congrArg Prod.snd e
    simp only at this
    subst this
    exact ⟨rfl, rfl⟩
  · refine Or.inr ⟨c, hc, ?_⟩
    obtain ⟨js, h1, h2, h3, h4, h5, h6⟩ := decides_reqs hd
    rw [hc.kernel] at h5
    refine ⟨js, h1, h2, h3, h4, h5, fun q hq e he => ?_⟩
    obtain ⟨rule, t, h7, rfl⟩ := h6 q hq e he
    refine ⟨rule, h7, ?_⟩
    have := hc.describes h.env.sock (q := rule) t
    rw [h.api.ok.index _ _ h7] at this
    exact this

/-! ### Examples -/

namespace Sample

/-- What a run from `w` gives, if the chain compiles. -/
def result (E : Env) (chain : Chain) (w : World) : Option (BitVec 64 × World) :=
  match compile chain Sample.thr slen stdFds with
  | .ok img => match run E img img.length 0 (initSt E w) with
    | .exit r w' => some (r, w')
    | _ => none
  | _ => none

/-- A concrete run. -/
theorem runs_result {base : Env} {chain : Chain} {w : World} {P : BitVec 64 → World → Bool} (api : ApiChain chain)
    (hm : ∀ r ∈ chain.rules, ∀ m ∈ r.matchers, MatcherWf m) (hs : SetsWf chain.sets) (hr : chain.rules.length < 268435456)
    (hg : (buildGroups chain.sets).length < 4294967292) (hsock : chain.hook.flavor = .sockAddr → SockAbi base.sock)
    (h : (match result (envOf base chain) chain w with | some (r, w') => P r w' | none => false) = true) :
    ∃ img r w', IsLoaded (envOf base chain) chain Sample.thr img ∧ Runs (envOf base chain) img w r w' ∧ P r w' = true := by
  unfold result at h
  cases hc : compile chain Sample.thr slen stdFds with
  | err e => rw [hc] at h; cases h
  | ub => rw [hc] at h; cases h
  | ok img =>
    rw [hc] at h
    simp only at h
    have hl := IsLoaded.of_compile (base := base) api hm hs hr hg hsock hc
    obtain ⟨r, w', h1, _⟩ := program_ok hl w
    refine ⟨img, r, w', hl, h1, ?_⟩
    rw [h1 _ (Nat.le_refl _)] at h
    exact h

/-- A chain on a netfilter hook with a rule logging the three headers of every packet. -/
def logChain : Chain where
  name := "log"
  hook := .nfLocalIn
  policy := .accept
  sets := []
  rules := [{ rule [] .continue_ with log := 7 }]
  flagLog := true
  flagRate := false
  flagNexthdr := false

theorem logChain_new : chainNew "log" .nfLocalIn .accept [] [{ rule [] .continue_ with log := 7 }] = .ok logChain := rfl

/-- An IPv4 packet with an unknown transport protocol, on a stack with leftovers. -/
def logBase : Env :=
  { base with pkt := [0x45, 0, 0, 20, 0, 0, 0, 0, 64, 200, 0, 0, 10, 0, 0, 1, 10, 0, 0, 2], stack0 := fun _ => 1
              kmem := fun _ n => List.replicate n 0xAB }

end Sample

/-- The chain is loaded and the packet logged. -/
example : ∃ img r w', IsLoaded (envOf Sample.base Sample.chain) Sample.chain Sample.thr img ∧
    Runs (envOf Sample.base Sample.chain) img Sample.w0 r w' ∧
    (decide (w'.logs.length = 1 ∧ ∀ e ∈ w'.logs, e.ruleId = 0 ∧ e.headers = 2)) = true :=
  Sample.runs_result Sample.api Sample.matchers Sample.sets (by decide) (by decide) (by intro h; cases h) (by decide +kernel)

/-- **C20 fails** for layers that were not parsed: an entry reports link and transport headers for a packet that has
neither, read through pointers left on the stack. -/
theorem C20_fails : ∃ img r w', IsLoaded (envOf Sample.logBase Sample.logChain) Sample.logChain Sample.thr img ∧
    Runs (envOf Sample.logBase Sample.logChain) img Sample.w0 r w' ∧
    (decide (w'.logs.length = 1 ∧ ∀ e ∈ w'.logs, e.headers = 7 ∧ e.l2 = [0xAB] ∧ e.l4 ≠ [])) = true ∧
    (∃ v, understand (inputOf (envOf Sample.logBase Sample.logChain) .nfLocalIn) false = some v ∧ v.l4 = none) ∧
    (inputOf (envOf Sample.logBase Sample.logChain) .nfLocalIn).link ≠ .ethernet := by
  obtain ⟨img, r, w', h1, h2, h3⟩ := Sample.runs_result (base := Sample.logBase) (w := Sample.w0)
    (P := fun _ w' => decide (w'.logs.length = 1 ∧ ∀ e ∈ w'.logs, e.headers = 7 ∧ e.l2 = [0xAB] ∧ e.l4 ≠ []))
    (.new Sample.logChain_new) (by decide)
    (⟨(by intro s hs; cases hs), (by decide)⟩) (by decide) (by decide) (by intro h; cases h) (by decide +kernel)
  exact ⟨img, r, w', h1, h2, h3, by decide, by decide⟩

end Bf
