import Verif.Cgen.RulesetSafe
import Verif.Props.C39_Set
import Verif.Props.C33_Totals
/-!
# C44: operations on all chains

`Chains T w L` (Cgen/Flush.lean): the chains held in `w` are `L`, each with its program, maps and link, all pinned.
`Owned L d n`: the pin `n` of directory `d` is one of a chain of `L`.
`Bad w w'`: from `w` to `w'`, a call that reads or removes something that exists failed (with an error that is not `ENOENT`).
-/
namespace Bf.Pin

variable {T : Target} {w w' : K} {L : List (Chain × Handle)} {cs : List (Chain × Option HookOpts)}

theorem K.Sane.erase (h : w.Sane) : w.erase.Sane := ⟨h.wf.erase, h.tree, h.nodup⟩

theorem Chains.erase (h : Chains T w L) : Chains T w.erase L := ⟨fun x hx => Good.erase.mpr (h.good x hx), h.only, h.plain⟩

/-- A link that is not one of the chains of `L`, pinned in `w`, attaches program `q` at `pt`. -/
def Foreign (L : List (Chain × Handle)) (w : K) (pt : Point) (q : Nat) : Prop :=
  ∃ l d n, w.objs[l]? = some (.link pt q false) ∧ (∀ x ∈ L, l ∉ x.2.linkFds) ∧ w.pinned d n = some l ∧ ¬ Owned L d n

theorem NoChain.runs {v0 v : K} (h : NoChain L v0 v) (hw : v0.Wf) (pt : Point) (q : Nat) : v.die.runs pt q ↔ Foreign L v0 pt q := by
  constructor
  · rintro ⟨l, h1, h2⟩
    have h1 : v.objs[l]? = some (.link pt q false) := h1
    rcases h2 with h2 | ⟨d, n, h2⟩
    · cases h2
    have h2 : v.pinned d n = some l := h2
    have hn : ¬ Owned L d n := fun ho => by rw [h.owned d n ho] at h2; cases h2
    rw [h.foreign d n hn] at h2
    have hl : ∀ x ∈ L, l ∉ x.2.linkFds := fun x hx hl => h.links x hx l hl pt q h1
    exact ⟨l, d, n, by rw [← h.objs l (hw.pins _ (lookup_mem h2)) hl]; exact h1, hl, h2, hn⟩
  · rintro ⟨l, d, n, h1, h2, h3, h4⟩
    exact ⟨l, by show v.objs[l]? = _; rw [h.objs l (hw.pins _ (lookup_mem h3)) h2]; exact h1, .inr ⟨d, n, by show v.pinned d n = _; rw [h.foreign d n h4]; exact h3⟩⟩

theorem Foreign.erase {pt : Point} {q : Nat} : Foreign L w.erase pt q ↔ Foreign L w pt q := by
  unfold Foreign
  simp only [K.erase_link, K.erase_pinned]

/-- All chains are gone, and what runs when the process is gone is what ran by links that are not of chains. -/
structure AllGone (L : List (Chain × Handle)) (w w' : K) : Prop where
  absent : ∀ d, Absent w' d
  owned : ∀ d n, Owned L d n → w'.pinned d n = none
  foreign : ∀ d n, ¬ Owned L d n → w'.pinned d n = w.pinned d n
  runs : ∀ pt q, w'.die.runs pt q ↔ Foreign L w pt q

theorem NoChain.gone (h : NoChain L w.erase w'.erase) (hw : w.Wf) : AllGone L w w' :=
  ⟨h.ctx, h.owned, h.foreign, fun pt q => by
    rw [← Foreign.erase, ← h.runs hw.erase]
    show _ ↔ w'.die.erase.runs pt q
    rw [K.erase_runs]⟩

/-- Nothing changed: every chain is as it was. -/
structure Unchanged (T : Target) (L : List (Chain × Handle)) (w w' : K) : Prop where
  pins : w'.pins = w.pins
  dirs : w'.dirs = w.dirs
  good : ∀ x ∈ L, Good T w' x.1.name x.1 x.2 ∧ Holds T w' x.1.name x.1
  runs : ∀ pt q, w'.die.runs pt q ↔ w.die.runs pt q

theorem Still.unchanged (h : Still w.erase w'.erase) (hL : Chains T w L) : Unchanged T L w w' := by
  refine ⟨h.pins, h.dirs, fun x hx => ?_, fun pt q => ?_⟩
  · have := Good.erase.mp (h.good (Good.erase.mpr (hL.good x hx)))
    exact ⟨this, this.holds⟩
  · have e : w'.die.erase.runs pt q ↔ w.die.erase.runs pt q := by
      have eo : w'.die.erase.objs = w.die.erase.objs := h.objs
      have ep : ∀ d n, w'.die.erase.pinned d n = w.die.erase.pinned d n := h.pinned
      unfold K.runs K.held
      rw [eo]
      simp only [ep]
      exact Iff.rfl
    rwa [K.erase_runs, K.erase_runs] at e

/-- C44, `bf_ruleset_flush`.  At every instant, what is not of a chain is untouched.  If it fails, nothing changed.  If it succeeds, and
no call that reads or removes something failed, all chains are gone. -/
theorem C44_flush (hv : w.Sane) (hL : Chains T w L) (hn : (L.map (·.1.name)).Nodup) {p' : P (Res Unit)} (hr : Run w rulesetFlush w' p') :
    (∀ d n, ¬ Owned L d n → w'.pinned d n = w.pinned d n) ∧
    (∀ l pt q, (∀ x ∈ L, l ∉ x.2.linkFds) → (w'.objs[l]? = some (.link pt q false) ↔ w.objs[l]? = some (.link pt q false))) ∧
    ∀ r, p' = .ret r → (r ≠ .ok () → Unchanged T L w w') ∧ (r = .ok () → ¬ Bad w w' → AllGone L w w') := by
  have hs := rulesetFlush_safe hv.erase hL.erase hn
  have hd := (hs.sound hr).inv
  refine ⟨fun d n ho => ?_, fun l pt q hl => ?_, ?_⟩
  · rcases hd.pins d n with e | ⟨e, _⟩
    · exact e
    · exact absurd e ho
  · rw [← K.erase_link (w := w'), ← K.erase_link (w := w), hd.objs l hl]
  rintro r rfl
  have := hs.end hr
  refine ⟨fun e => (this.2 e).unchanged hL, fun e hb => ?_⟩
  exact ((this.1 e).2.resolve_left hb).gone hv.wf

/-- What `bf_ruleset_get` gives for a chain: it and the options of its link, and counters that are sums over the CPUs. -/
structure Reads (w : K) (w' : K) (prog : P (Res (List Got))) (end_ : P (Res (List Got))) (x : Chain × Handle) (g : Got) : Prop where
  chain : g.chain = x.1
  opts : g.opts = x.2.link.map (·.d.opts)
  len : g.rules.length = x.1.rules.length
  rules : ∀ (k : Nat) (r : Rule), x.1.rules[k]? = some r → if r.hasCounters then
      ∃ m y, x.2.cmap = some m ∧ g.rules[k]? = some (some y) ∧ Reported w prog w' end_ m.id r.index y
    else g.rules[k]? = some none
  policy : ∃ m, x.2.cmap = some m ∧ Reported w prog w' end_ m.id x.1.rules.length g.policy
  errors : ∃ m, x.2.cmap = some m ∧ Reported w prog w' end_ m.id (x.1.rules.length + 1) g.errors

/-- C44, `bf_ruleset_get`.  At every instant nothing changed.  What it gives are different chains, each with its options and its
counters; all chains, if no call that reads something failed. -/
theorem C44_get (hv : w.Sane) (hL : Chains T w L) (hn : (L.map (·.1.name)).Nodup) (hm : ∀ x ∈ L, x.2.cmap.isSome = true)
    {p' : P (Res (List Got))} (hr : Run w rulesetGet w' p') :
    Unchanged T L w w' ∧ ∀ gs, p' = .ret (.ok gs) →
      (∀ g ∈ gs, ∃ x ∈ L, Reads w w' rulesetGet p' x g) ∧ (gs.map (·.chain.name)).Nodup ∧ (¬ Bad w w' → ∀ x ∈ L, ∃ g ∈ gs, Reads w w' rulesetGet p' x g) := by
  have hs := rulesetGet_safe hv.erase hL.erase hn hm
  refine ⟨((hs.sound hr).inv).unchanged hL, ?_⟩
  rintro gs rfl
  obtain ⟨ys, h1, h2, h3, h4⟩ := (hs.end hr).2 gs rfl
  have read : ∀ (i : Nat) y g, ys[i]? = some y → gs[i]? = some g → Reads w w' rulesetGet (.ret (.ok gs)) y g := by
    intro i y g hy hg
    obtain ⟨m, em, hk⟩ := h4.each i y g hy hg
    refine ⟨hk.chain, hk.opts, hk.rules.1, fun k r hr' => ?_, ?_, ?_⟩
    · have := hk.rules.2 k r hr'
      split at this
      · next hc =>
        obtain ⟨l, a, b⟩ := this
        rw [if_pos hc]
        exact ⟨m, _, em, b, .of hr a⟩
      · next hc => rw [if_neg hc]; exact this
    · obtain ⟨l, a, b⟩ := hk.policy
      rw [b]; exact ⟨m, em, .of hr a⟩
    · obtain ⟨l, a, b⟩ := hk.errors
      rw [b]; exact ⟨m, em, .of hr a⟩
  have at_ : ∀ (i : Nat) (hi : i < gs.length), ∃ y, ys[i]? = some y := fun i hi => ⟨ys[i]'(by rw [← h4.len]; exact hi), List.getElem?_eq_getElem _⟩
  refine ⟨fun g hg => ?_, ?_, fun hb x hx => ?_⟩
  · obtain ⟨i, hi, rfl⟩ := List.getElem_of_mem hg
    obtain ⟨y, hy⟩ := at_ i hi
    exact ⟨y, h1 y (List.mem_of_getElem? hy), read i y _ hy (List.getElem?_eq_getElem hi)⟩
  · have : gs.map (·.chain.name) = ys.map (·.1.name) := by
      apply List.ext_getElem?
      intro i
      rw [List.getElem?_map, List.getElem?_map]
      by_cases hi : i < gs.length
      · obtain ⟨y, hy⟩ := at_ i hi
        rw [hy, List.getElem?_eq_getElem hi]
        simp [(read i y _ hy (List.getElem?_eq_getElem hi)).chain]
      · rw [List.getElem?_eq_none (by omega), List.getElem?_eq_none (by have := h4.len; omega)]
        rfl
    rw [this]; exact h2
  · obtain ⟨i, hi, e⟩ := List.getElem_of_mem (h3.resolve_left hb x hx)
    have hi' : i < gs.length := by rw [h4.len]; exact hi
    refine ⟨gs[i], List.getElem_mem _, read i x _ (by rw [List.getElem?_eq_getElem hi, e]) (List.getElem?_eq_getElem hi')⟩

/-- C44, `bf_ruleset_set` of the chains `cs`.  If it succeeds, each chain is held, attached with the requested options if any were given;
and, if no call that reads or removes something failed, there is no other chain, and the links of the chains that were there attach nothing.
If it fails, and no call that reads or removes something failed, then nothing changed, or all chains are gone.
Missing, and false of the code: that a failure leaves the chains that were there (`C44_fails`), and that when calls fail success means that
the chains that were there are gone (`C44_leaves`). -/
theorem C44_set_partial (hv : w.Sane) (hL : Chains T w L) (hn : (L.map (·.1.name)).Nodup) (hcs : ∀ x ∈ cs, CanPut T x)
    (hst : ∀ x ∈ cs, staging x.1.name = false) {r : Res Unit} (hr : Run w (rulesetSet T cs) w' (.ret r)) :
    (r = .ok () →
      (∀ y ∈ cs, ∃ h, Good T w' y.1.name y.1 h ∧ Holds T w' y.1.name y.1 ∧ (h.link.map fun l => (l.d.hook, l.d.opts)) = y.2.map fun o => (y.1.hook, o)) ∧
      (cs.map (·.1.name)).Nodup ∧
      (¬ Bad w w' → (∀ d, (∀ y ∈ cs, y.1.name ≠ d) → Absent w' d) ∧ ∀ x ∈ L, ∀ l ∈ x.2.linkFds, ∀ pt q, w'.objs[l]? ≠ some (.link pt q false))) ∧
    (r ≠ .ok () → ¬ Bad w w' → Unchanged T L w w' ∨ AllGone L w w') := by
  have hs := rulesetSet_safe hv.erase hL.erase hn hcs hst
  have hend := hs.end hr
  refine ⟨fun e => ?_, fun e hb => ?_⟩
  · obtain ⟨L', v1, d1, hb1, hv1, hp⟩ := hend.1 e
    refine ⟨fun y hy => ?_, ?_, fun hb => ?_⟩
    · obtain ⟨x, hx, e1, hl⟩ := hp.link y hy
      have hg := Good.erase.mp (hp.good x hx)
      rw [e1] at hg
      refine ⟨x.2, hg, hg.holds, ?_⟩
      have h1 := hl.some
      cases e2 : x.2.link with
      | none =>
        rw [e2] at h1
        cases e3 : y.2 with
        | none => rfl
        | some o => rw [e3] at h1; cases h1
      | some l =>
        rw [e2] at h1
        cases e3 : y.2 with
        | none => rw [e3] at h1; cases h1
        | some o =>
          obtain ⟨a, b⟩ := hl.opts l o e2 e3
          simp [a, b]
    · have : cs.map (·.1.name) = L'.map (·.1.name) := by
        have := congrArg (List.map Chain.name) hp.chains
        simpa [List.map_map, Function.comp_def] using this.symm
      rw [this]; exact hp.nodup
    · have hrm := hb1.resolve_left fun h => hb (h.later hp.hist)
      have nc := d1.noChain hL.erase hrm
      refine ⟨fun d hd => ?_, fun x hx l hl pt q => ?_⟩
      · show w'.erase.pinned d "bf_ctx" = none
        rw [hp.other d "bf_ctx" fun x hx e => ?_, nc.ctx]
        have : x.1 ∈ cs.map (·.1) := by rw [← hp.chains]; exact List.mem_map.mpr ⟨x, hx, rfl⟩
        obtain ⟨y, hy, e'⟩ := List.mem_map.mp this
        exact hd y hy (by rw [e']; exact e)
      · have hlt := d1.get ((hL.erase.good x hx).link_lt hv.wf.erase hl)
        obtain ⟨new, e1⟩ := hp.objs
        have := nc.links x hx l hl pt q
        rw [← List.getElem?_append_left (l₂ := new) hlt, ← e1] at this
        exact fun e => this (K.erase_link.mpr e)
  · rcases hend.2 e with h | h | h
    · exact .inl (h.unchanged hL)
    · exact absurd h hb
    · exact .inr (h.gone hv.wf)

end Bf.Pin

namespace Bf.Pin.Sample

open Bf.Sample (chain)

/-- The same chain under another name. -/
def chainB : Chain := { chain with name := "other" }

def pair44 : List (Chain × Option HookOpts) := [(chain, some opts), (chainB, none)]

/-- Two chains; the first is attached. -/
def w44 : K := K.after w0 (rulesetSet tgt pair44)

theorem sane0 : w0.Sane := ⟨wf0, tree0, by decide⟩

theorem chains0 : Chains tgt w0 [] := ⟨by simp, (fun d m h => by cases h), by simp⟩

theorem packableB : Packable chainB := { Bf.Sample.packable with name := ⟨by decide, by decide⟩ }

theorem canPut : ∀ x ∈ pair44, CanPut tgt x := by
  intro x hx
  rcases List.mem_cons.mp hx with rfl | hx
  · exact ⟨Bf.Sample.packable, fits, copy1, fun o ho => by cases ho; exact opts_ok⟩
  · rw [List.mem_singleton.mp hx]
    exact ⟨packableB, ⟨fits.printed, fits.groups, fits.elems⟩, by decide +kernel, fun o ho => by cases ho⟩

theorem set44 : ((rulesetSet tgt pair44).exec (fun _ => false) 1000 0 w0).2 = some (.ok ()) := by decide +kernel

theorem goods44 : ∃ h h', Good tgt w44 chain.name chain h ∧ Good tgt w44 chainB.name chainB h' := by
  obtain ⟨p', hr, e⟩ := P.exec_run (p := rulesetSet tgt pair44) (fails := fun _ => false) (n := 1000) (i := 0) (w := w0)
  have := e _ set44
  subst this
  have h := ((C44_set_partial sane0 chains0 (by simp) canPut (by decide) hr).1 rfl).1
  obtain ⟨h1, g1, _⟩ := h (chain, some opts) (by simp [pair44])
  obtain ⟨h2, g2, _⟩ := h (chainB, none) (by simp [pair44])
  exact ⟨h1, h2, good_after g1, good_after g2⟩

theorem sane44 : w44.Sane := ⟨⟨by decide +kernel, by decide +kernel⟩, tree_of (by decide +kernel), by decide +kernel⟩

theorem only_of {w : K} {a b d : String} {m : Nat} (h : w.pins.all (fun x => decide (x.1.2 = "bf_ctx" → x.1.1 = a ∨ x.1.1 = b)) = true)
    (hm : w.pinned d "bf_ctx" = some m) : d = a ∨ d = b := of_decide_eq_true (List.all_eq_true.mp h _ (lookup_mem hm)) rfl

/-- The hypotheses of the properties about all chains are met by two chains. -/
theorem chains44 : ∃ L, Chains tgt w44 L ∧ (L.map (·.1.name)).Nodup ∧ L.map (·.1) = [chain, chainB] := by
  obtain ⟨h, h', g, g'⟩ := goods44
  refine ⟨[(chain, h), (chainB, h')], ⟨?_, fun d m hm => ?_, ?_⟩, (by show ([chain.name, chainB.name] : List String).Nodup; decide), rfl⟩
  · intro x hx
    rcases List.mem_cons.mp hx with rfl | hx
    · exact g
    · rw [List.mem_singleton.mp hx]; exact g'
  · rcases only_of (a := "sample") (b := "other") (by decide +kernel) hm with rfl | rfl
    · exact ⟨(chain, h), by simp, rfl⟩
    · exact ⟨(chainB, h'), by simp, rfl⟩
  · intro x hx
    rcases List.mem_cons.mp hx with rfl | hx
    · show staging chain.name = false; decide
    · rw [List.mem_singleton.mp hx]; show staging chainB.name = false; decide

/-- Two chains are flushed. -/
theorem flush_both : ∃ w', Run w44 rulesetFlush w' (.ret (.ok ())) ∧ w'.pins = [] ∧ w'.dirs = [] := by
  obtain ⟨p', h, e⟩ := P.exec_run (p := rulesetFlush) (fails := fun _ => false) (n := 1000) (i := 0) (w := w44)
  have := e _ (show _ = some (.ok ()) by decide +kernel)
  subst this
  exact ⟨_, h, by decide +kernel, by decide +kernel⟩

example {w' : K} (hr : Run w44 rulesetFlush w' (.ret (.ok ()))) (hb : ¬ Bad w44 w') : Absent w' chain.name ∧ Absent w' chainB.name := by
  obtain ⟨L, hL, hn, _⟩ := chains44
  have := ((C44_flush sane44 hL hn hr).2.2 _ rfl).2 rfl hb
  exact ⟨this.absent _, this.absent _⟩

/-- The sample chain filters.  It is to be replaced by another one, whose program the kernel refuses: nothing filters any longer, and there is no chain. -/
theorem C44_fails : w1.runs pt 5 ∧ ∃ w', Run w1 (rulesetSet tgt [(chainB, some opts)]) w' (.ret (.err .EPERM)) ∧ (∀ q, ¬ w'.runs pt q) ∧ w'.pins = [] := by
  obtain ⟨p', h, e⟩ := P.exec_run (p := rulesetSet tgt [(chainB, some opts)]) (fails := fun i => i == 48) (n := 1000) (i := 0) (w := w1)
  have := e _ (show _ = some (.err .EPERM) by decide +kernel)
  subst this
  exact ⟨runs1, _, h, idle_of (by decide +kernel), by decide +kernel⟩

/-- The sample chain filters.  Its lock can't be taken: it still filters after another ruleset was set, successfully. -/
theorem C44_leaves : ∃ w', Run w1 (rulesetSet tgt [(chainB, some opts)]) w' (.ret (.ok ())) ∧ w'.die.runs pt 5 ∧ ¬ Absent w' chain.name := by
  obtain ⟨p', h, e⟩ := P.exec_run (p := rulesetSet tgt [(chainB, some opts)]) (fails := fun i => i == 3) (n := 1000) (i := 0) (w := w1)
  have := e _ (show _ = some (.ok ()) by decide +kernel)
  subst this
  refine ⟨_, h, ⟨6, linkAt_of (x := (pt, 5, false)) (by decide +kernel), .inr ⟨chain.name, "bf_link", by decide +kernel⟩⟩, by unfold Absent; decide +kernel⟩

/-- A ruleset is set over another. -/
example : ∃ w', Run w44 (rulesetSet tgt [(chain2, none)]) w' (.ret (.ok ())) ∧ Holds tgt w' chain2.name chain2 := by
  obtain ⟨p', h, e⟩ := P.exec_run (p := rulesetSet tgt [(chain2, none)]) (fails := fun _ => false) (n := 1000) (i := 0) (w := w44)
  have := e _ (show _ = some (.ok ()) by decide +kernel)
  subst this
  obtain ⟨L, hL, hn, _⟩ := chains44
  have := ((C44_set_partial (cs := [(chain2, none)]) sane44 hL hn (fun x hx => by
    rw [List.mem_singleton.mp hx]; exact ⟨packable2, fits2, copy2, fun o ho => by cases ho⟩) (by decide) h).1 rfl).1 (chain2, none) (by simp)
  obtain ⟨_, _, h2, _⟩ := this
  exact ⟨_, h, h2⟩

end Bf.Pin.Sample
