import Verif.Props.C51_Main
import Verif.Cli.MainLemmas
import Verif.Cli.FromText
/-!
# C51: what the commands of `bfcli` do to chains
-/
namespace Bf.Pin

/-- A run of a program whose result is then turned into something else. -/
theorem Run.bind_pure {α β : Type} {p : P α} {f : α → β} {w w' : K} {q : P β} (h : Run w (p >>= fun a => pure (f a)) w' q) :
    ∃ q', Run w p w' q' ∧ ∀ e, q = .ret e → ∃ a, q' = .ret a ∧ e = f a := by
  rcases Run.bind_split h with ⟨c, k, h1, rfl⟩ | ⟨a, w1, h1, h2⟩
  · exact ⟨_, h1, fun e he => by cases he⟩
  · have key : ∀ {q' : P β} {w w' : K} {q : P β}, Run w q' w' q → q' = .ret (f a) → q = .ret (f a) ∧ Run w (.ret a : P α) w' (.ret a) := by
      intro q' w w' q h
      induction h with
      | refl => exact fun h => ⟨h, .refl⟩
      | packets hp _ ih => exact fun h => ⟨(ih h).1, .packets hp (ih h).2⟩
      | step => intro e; cases e
    obtain ⟨rfl, h3⟩ := key h2 rfl
    exact ⟨.ret a, h1.trans h3, fun e he => by cases he; exact ⟨a, rfl, rfl⟩⟩

/-- A chain that is held runs where it is attached. -/
theorem Good.points {T : Target} {w : K} {dir : String} {c : Chain} {h : Handle} {p : Nat} (hg : Good T w dir c h) (hp : h.prog = some p) : ∀ pt ∈ h.points, w.die.runs pt p := by
  intro pt hpt
  unfold Handle.points at hpt
  cases hl : h.link with
  | none => rw [hl] at hpt; cases hpt
  | some l =>
    rw [hl] at hpt
    refine (hg.die.link l p hl hp).runs (fun o ho => .inr ?_) hpt
    obtain ⟨n, e⟩ := hg.die.toPlaced.linkPinned hl ho
    exact ⟨dir, n, e⟩

theorem K.runs.alive {w : K} {pt : Point} {p : Nat} (h : w.die.runs pt p) : w.runs pt p := by
  obtain ⟨l, h1, h2⟩ := h
  exact ⟨l, h1, h2.elim (fun h => by cases h) .inr⟩

/-- `bf_chain_set` where there is no chain: the new chain is attached as it was asked. -/
theorem set_first_link {T : Target} {w w' : K} {chain : Chain} {o : Option HookOpts} (ht : w.Tree) (ha : Absent w chain.name) (hc : CanPut T (chain, o)) {r : Res Unit}
    (hr : Run w (chainSet T chain o) w' (.ret r)) :
    r = .ok () → ∃ h', Good T w' chain.name chain h' ∧ (h'.link.map fun l => (l.d.hook, l.d.opts)) = o.map fun x => (chain.hook, x) := by
  have hs : Safe (fun _ => True) (fun r v => r = .ok () → ∃ h', Good T v chain.name chain h' ∧ (h'.link.map fun l => (l.d.hook, l.d.opts)) = o.map fun x => (chain.hook, x))
      (chainSet T chain o) w.erase := by
    refine chainSet_none (v := w.erase) ht ha hc.packable hc.fits hc.copy hc.opts (fun _ _ => trivial) (fun r v hr h e => absurd e hr) fun h v hg hl1 hl2 _ => ⟨h, hg, ?_⟩
    cases e1 : h.link with
    | none =>
      rw [e1] at hl1
      cases o with
      | none => rfl
      | some x => cases hl1
    | some l =>
      rw [e1] at hl1
      cases o with
      | none => cases hl1
      | some x =>
        obtain ⟨a, b⟩ := hl2 l x e1 rfl
        simp [a, b]
  intro e
  obtain ⟨h', h1, h2⟩ := hs.end hr e
  exact ⟨h', Good.erase.mp h1, h2⟩

end Bf.Pin

namespace Bf.Cli
open Spec
open Pin (K P Setup)

variable {H : Host} {a1 : List Arg1} {a2 : List (Flag × List Char)} {words : List String} {o : CmdLine} {c : Cmd} {w w' : K} {q : P Ended}
  {x y : Chain × Option HookOpts}

/-- The end of a run is not a success. -/
def Fails (q : P Ended) : Prop := ∀ out, q ≠ .ret (.exits .ok out)

theorem source_unique (hk : (given .fromStr a2 ≠ [] ∧ given .fromFile a2 = []) ∨ (given .fromStr a2 = [] ∧ given .fromFile a2 ≠ [])) {t t' : List Char}
    (h : Source H a2 t) (h' : Source H a2 t') : t = t' := by
  rcases hk with ⟨_, h2⟩ | ⟨h1, _⟩
  · rcases h with h | ⟨f, h, _⟩
    · rcases h' with h' | ⟨f, h', _⟩
      · rw [h] at h'; cases h'; rfl
      · rw [h2] at h'; cases h'
    · rw [h2] at h; cases h
  · rcases h with h | ⟨f, h, g⟩
    · rw [h1] at h; cases h
    · rcases h' with h' | ⟨f', h', g'⟩
      · rw [h1] at h'; cases h'
      · rw [h] at h'; cases h'; rw [g] at g'; cases g'; rfl

theorem Chosen.unique {n : Option String} {rs : List (Chain × Option HookOpts)} (h : Chosen n rs x) (h' : Chosen n rs y) : x = y := by
  rw [← getChain_chosen] at h h'
  rw [h] at h'
  cases h'
  rfl

theorem Takes.unique (hk : (given .fromStr a2 ≠ [] ∧ given .fromFile a2 = []) ∨ (given .fromStr a2 = [] ∧ given .fromFile a2 ≠ []))
    (h : Takes H a2 x) (h' : Takes H a2 y) : x = y := by
  obtain ⟨t, rs, h1, h2, h3⟩ := h
  obtain ⟨t', rs', h1', h2', h3'⟩ := h'
  cases source_unique hk h1 h1'
  rw [h2] at h2'
  cases h2'
  exact Chosen.unique h3 h3'

theorem Chosen.mem {n : Option String} {rs : List (Chain × Option HookOpts)} (h : Chosen n rs x) : x ∈ rs := by
  unfold Chosen at h
  split at h
  · rw [h]; exact List.mem_singleton.mpr rfl
  · obtain ⟨k, h, _⟩ := h
    exact List.mem_of_getElem? h

theorem Takes.canPut (hW : Written H a2) (hT : H.T.printed < 2 ^ 64) (h : Takes H a2 x) : Pin.CanPut H.T x := by
  obtain ⟨t, rs, h1, h2, h3⟩ := h
  obtain ⟨hl, cs, hw⟩ := hW t h1
  obtain ⟨g1, g2, g3, g4⟩ := from_text hw hl h2 (Chosen.mem h3)
  exact ⟨g1, g4 H.T hT, g2, g3⟩

/-- What is taken from the text is what the text says. -/
theorem Takes.index (hW : Written H a2) (h : Takes H a2 x) : ∃ t cs rs s, ∃ k : Nat, Source H a2 t ∧ t.length < 2 ^ 32 ∧ Writes t cs ∧ bfcParse H.env t = some (.ok rs) ∧
    cs[k]? = some s ∧ rs[k]? = some x ∧ Picks (Spec.named a2) cs s ∧ ChainSays H.env.text H.env.rate s x := by
  obtain ⟨t, rs, h1, h2, h3⟩ := h
  obtain ⟨hl, cs, hw⟩ := hW t h1
  have he := C45_read hw h2 (read_small hw (by omega) h2)
  unfold Chosen at h3
  split at h3
  · next hn =>
    subst h3
    cases he with
    | cons h he =>
      cases he
      exact ⟨t, _, _, _, 0, h1, hl, hw, h2, rfl, rfl, by unfold Picks; rw [hn], h⟩
  · next n hn =>
    obtain ⟨k, g1, g2, g3⟩ := h3
    obtain ⟨s, hs, hsay⟩ := each_get' he g1
    refine ⟨t, cs, rs, s, k, h1, hl, hw, h2, hs, g1, ?_, hsay⟩
    unfold Picks
    rw [hn]
    refine ⟨k, hs, by rw [← hsay.name]; exact g2, fun j y hj hy => ?_⟩
    obtain ⟨z, hz, hz'⟩ := each_get he hy
    rw [← hz'.name]
    exact g3 j z hj hz

theorem Takes.asks (hW : Written H a2) (h : Takes H a2 x) : ∃ s, Asks H a2 s x := by
  obtain ⟨t, cs, rs, s, k, h1, _, h2, _, _, _, h3, h4⟩ := Takes.index hW h
  exact ⟨s, t, cs, h1, h2, h3, h4⟩

/-- A command that takes a chain from a text, when the run is not dry: before the operation on the chain, only what `bf_ctx_setup` does is done. -/
theorem chain_split {a : Action} {act : Chain → Option HookOpts → P (Res Unit)} (hr : ∀ o, runCmd H o .chain a = chainCmd H o act) (hv : Valid a1 a2 words)
    (hc : Commands a1 .chain a) (hs : ∀ u, usage .chain a = some u → u.source = true) (hu : (usage .chain a).isSome)
    (hd : given .dryRun a2 = []) (h : Pin.Run w (main H a1 a2 words) w' q) :
    (Setup w w' ∧ Fails q) ∨ ∃ x w1 q', Takes H a2 x ∧ (∀ y, Takes H a2 y → y = x) ∧ Pin.Run w ctxSetup w1 (.ret (.ok ())) ∧ Pin.Run w1 (act x.1 x.2) w' q' ∧
      ∀ e, q = .ret e → ∃ r, q' = .ret r ∧ e = ended r := by
  obtain ⟨o, c, ho⟩ := C51_taken hv
  obtain ⟨hk, hn, _, u, hu', hR⟩ := C51_kept ho
  obtain ⟨e1, e2⟩ := Commands.unique hc hn hu (by rw [hu']; rfl)
  rw [← e1, ← e2] at hu'
  have hsrc := hR.source (hs u hu')
  have hdr : o.dryRun = false := by
    cases hx : o.dryRun with
    | false => rfl
    | true => exact absurd hd (hk.dryRun.mp hx)
  rcases main_split ho hdr h with ⟨h1, h2⟩ | ⟨w1, h1, h2⟩
  · refine .inl ⟨h1, fun out he => ?_⟩
    obtain ⟨er, he⟩ := h2 _ he
    cases he
  · rw [← e1, ← e2, hr] at h2
    rcases chainCmd_cases H o act with ⟨e, h3, h4, h5⟩ | ⟨rs, x, h3, h4, h5⟩
    · rw [h3] at h2
      obtain ⟨rfl, he⟩ := Pin.Run.ret_split h2
      refine .inl ⟨?_, fun out he => ?_⟩
      · unfold Setup
        rw [he]
        exact Setup.of h1
      · cases he
        exact h4 out rfl
    · rw [h5, hdr, if_neg (by simp)] at h2
      obtain ⟨q', h6, h7⟩ := Pin.Run.bind_pure h2
      have ht := (takes_iff hk hsrc).mp ⟨rs, h3, h4⟩
      exact .inr ⟨x, w1, q', ht, fun y hy => Takes.unique hsrc hy ht, h1, h6, h7⟩

theorem ended_ok {r : Res Unit} {out : List Char} (h : Ended.exits .ok out = ended r) : r = .ok () ∧ out = [] := by
  cases r with
  | ok u => cases h; exact ⟨rfl, rfl⟩
  | err e => cases h
  | ub => cases h

theorem ended_fails {r : Res Unit} {q : P Ended} (hq : q = .ret (ended r)) (h : Fails q) : r ≠ .ok () := by
  rintro rfl
  exact h [] hq

open Pin (Holds Absent Since staging)

/-- A chain is attached as it is asked: with these options, or not at all. -/
def AttachedAs (h : Pin.Handle) (x : Chain × Option HookOpts) : Prop := (h.link.map fun l => (l.d.hook, l.d.opts)) = x.2.map fun o => (x.1.hook, o)

/-- C51, `bfcli chain set`.  If it exits with status 0, the chain that the text says is in place, attached as the text says.  If it does not, the chain that was
there still is, unless its removal had begun.  At every instant, whatever the process may leave if it dies there is the previous chain, no chain or the new chain, unless
the description of the previous chain could not be removed. -/
theorem C51_set_partial (hv : Valid a1 a2 words) (hc : Commands a1 .chain .set) (hd : given .dryRun a2 = []) (hW : Written H a2) (hT : H.T.printed < 2 ^ 64) (hw : w.Sane)
    (hn : ∀ x, Takes H a2 x → staging x.1.name = false ∧ (Absent w x.1.name ∨ ∃ c h, Pin.Good H.T w x.1.name c h)) (hr : Pin.Run w (main H a1 a2 words) w' q) :
    (∀ out, q = .ret (.exits .ok out) → out = [] ∧ ∃ s x h, Takes H a2 x ∧ Asks H a2 s x ∧ Pin.Good H.T w' x.1.name x.1 h ∧ Holds H.T w' x.1.name x.1 ∧ AttachedAs h x) ∧
    ∀ x, Takes H a2 x →
      (Absent w x.1.name → (Absent w' x.1.name ∨ Holds H.T w' x.1.name x.1) ∧ (∀ e, q = .ret e → Fails q → Absent w' x.1.name)) ∧
      ∀ c h, Pin.Good H.T w x.1.name c h →
        (Holds H.T w' x.1.name c ∨ Absent w' x.1.name ∨ Holds H.T w' x.1.name x.1 ∨ ∃ e, e ≠ .ENOENT ∧ Since w w' (.unlink x.1.name "bf_ctx", .fail e)) ∧
        (∀ e, q = .ret e → Fails q → Pin.Good H.T w' x.1.name c h ∨ ∃ a, Since w w' (.unlink x.1.name "bf_ctx", a)) := by
  rcases chain_split (act := fun c h => Pin.chainSet H.T c h) (fun _ => rfl) hv hc (by simp [usage]) rfl hd hr with ⟨h1, h2⟩ | ⟨y, w1, q', ht, hu, h1, h2, h3⟩
  · refine ⟨fun out he => absurd he (h2 out), fun x hx => ⟨fun ha => ⟨.inl (h1.absent ha), fun _ _ _ => h1.absent ha⟩, fun c h hg => ?_⟩⟩
    have := h1.good (hn x hx).1 hg
    exact ⟨.inl this.holds, fun _ _ _ => .inl this⟩
  · have hset := Setup.of h1
    have hw1 := h1.sane hw
    have hcp := Takes.canPut hW hT ht
    obtain ⟨hst, hex⟩ := hn y ht
    have ends : ∀ e, q = .ret e → Fails q → ∃ r, q' = .ret r ∧ r ≠ .ok () := fun e he hf => by
      obtain ⟨r, hq', er⟩ := h3 e he
      exact ⟨r, hq', ended_fails (by rw [he, er]) hf⟩
    refine ⟨fun out he => ?_, fun x hx => ?_⟩
    · obtain ⟨r, rfl, er⟩ := h3 _ he
      obtain ⟨rfl, rfl⟩ := ended_ok er
      obtain ⟨s, hs⟩ := Takes.asks hW ht
      have fin : ∃ h', Pin.Good H.T w' y.1.name y.1 h' ∧ AttachedAs h' y := by
        rcases hex with ha | ⟨c, h, hg⟩
        · exact Pin.set_first_link hw1.tree (hset.absent ha) hcp h2 rfl
        · exact (Pin.C39_set_partial hw1.wf hw1.tree (hset.good hst hg) hcp.packable hcp.fits hcp.copy hcp.opts h2).1 rfl
      obtain ⟨h', g1, g2⟩ := fin
      exact ⟨rfl, s, y, h', ht, hs, g1, g1.holds, g2⟩
    · cases hu x hx
      refine ⟨fun ha => ?_, fun c h hg => ?_⟩
      · have := Pin.C32_set_first hw1.tree (hset.absent ha) hcp.packable hcp.fits hcp.copy hcp.opts h2
        refine ⟨this.1, fun e he hf => ?_⟩
        obtain ⟨r, hq', hr⟩ := ends e he hf
        exact (this.2 r hq').2 hr
      · have hg1 := hset.good hst hg
        refine ⟨?_, fun e he hf => ?_⟩
        · rcases (Pin.C32_set hw1.wf hw1.tree hg1 hcp.packable hcp.fits hcp.copy hcp.opts h2).1 with g | g | g | ⟨e, g1, g2⟩
          · exact .inl g
          · exact .inr (.inl g)
          · exact .inr (.inr (.inl g))
          · exact .inr (.inr (.inr ⟨e, g1, g2.earlier hset.hist⟩))
        · obtain ⟨r, rfl, hr⟩ := ends e he hf
          rcases (Pin.C39_set_partial hw1.wf hw1.tree hg1 hcp.packable hcp.fits hcp.copy hcp.opts h2).2 hr with g | ⟨a, g⟩
          · exact .inl g.1
          · exact .inr ⟨a, g.earlier hset.hist⟩

/-- C51, `bfcli chain load`.  If it exits with status 0, there was no chain of that name, and the chain that the text says is there, not attached.  If it does not, what was
there is as it was.  At every instant, what was there is as it was, or the new chain is there. -/
theorem C51_load (hv : Valid a1 a2 words) (hc : Commands a1 .chain .load) (hd : given .dryRun a2 = []) (hW : Written H a2) (hT : H.T.printed < 2 ^ 64) (hw : w.Sane)
    (hn : ∀ x, Takes H a2 x → staging x.1.name = false) (hr : Pin.Run w (main H a1 a2 words) w' q) :
    (∀ out, q = .ret (.exits .ok out) → out = [] ∧ ∃ s x h, Asks H a2 s x ∧ Pin.Good H.T w' x.1.name x.1 h ∧ Holds H.T w' x.1.name x.1 ∧ h.link = none) ∧
    ∀ x, Takes H a2 x →
      (Absent w x.1.name → (Absent w' x.1.name ∨ Holds H.T w' x.1.name x.1) ∧ (∀ e, q = .ret e → Fails q → Absent w' x.1.name)) ∧
      ∀ c h, Pin.Good H.T w x.1.name c h → Pin.Good H.T w' x.1.name c h ∧ Holds H.T w' x.1.name c ∧ Fails q := by
  rcases chain_split (act := fun c _ => Pin.chainLoad H.T c) (fun _ => rfl) hv hc (by simp [usage]) rfl hd hr with ⟨h1, h2⟩ | ⟨y, w1, q', ht, hu, h1, h2, h3⟩
  · refine ⟨fun out he => absurd he (h2 out), fun x hx => ⟨fun ha => ⟨.inl (h1.absent ha), fun _ _ _ => h1.absent ha⟩, fun c h hg => ?_⟩⟩
    have := h1.good (hn x hx) hg
    exact ⟨this, this.holds, h2⟩
  · have hset := Setup.of h1
    have hw1 := h1.sane hw
    have hcp := Takes.canPut hW hT ht
    have hst := hn y ht
    have hl := Pin.C32_load hw1.tree hcp.packable hcp.fits hcp.copy h2
    refine ⟨fun out he => ?_, fun x hx => ?_⟩
    · obtain ⟨r, rfl, er⟩ := h3 _ he
      obtain ⟨rfl, rfl⟩ := ended_ok er
      obtain ⟨s, hs⟩ := Takes.asks hW ht
      obtain ⟨h', g1, g2⟩ := (hl.2 _ rfl).1 rfl
      exact ⟨rfl, s, y, h', hs, g1, g1.holds, g2⟩
    · cases hu x hx
      refine ⟨fun ha => ?_, fun c h hg => ?_⟩
      · have ha1 := hset.absent ha
        refine ⟨?_, fun e he hf => ?_⟩
        · rcases hl.1 with g | ⟨_, g⟩
          · exact .inl (g.trans ha1)
          · exact .inr g
        · obtain ⟨r, rfl, er⟩ := h3 e he
          exact ((hl.2 r rfl).2 (ended_fails (by rw [he, er]) hf)).trans ha1
      · obtain ⟨g1, _, _, g4⟩ := Pin.C39_load hw1.tree (hset.good hst hg) h2
        refine ⟨g1, g1.holds, fun out he => ?_⟩
        obtain ⟨r, hq', er⟩ := h3 _ he
        exact g4 (by rw [hq', (ended_ok er).1])

/-- C51, `bfcli chain update`.  If it exits with status 0, the chain that the text says took the place of the one that was there, and runs where that one did.  If it
does not, the previous chain is there, unless a call failed once its removal had begun.  At every instant, wherever the previous chain is attached, its program or the
complete program of the new one runs, unless a call failed once its removal had begun.
Missing, as in C32: what is left if the process dies after the removal began. -/
theorem C51_update_partial (hv : Valid a1 a2 words) (hc : Commands a1 .chain .update) (hd : given .dryRun a2 = []) (hW : Written H a2) (hT : H.T.printed < 2 ^ 64) (hw : w.Sane)
    {c : Chain} {h : Pin.Handle} (hn : ∀ x, Takes H a2 x → staging x.1.name = false ∧ Pin.Good H.T w x.1.name c h) (hr : Pin.Run w (main H a1 a2 words) w' q) :
    (∀ out, q = .ret (.exits .ok out) → out = [] ∧ ∃ s x h' p, Asks H a2 s x ∧ Pin.Good H.T w' x.1.name x.1 h' ∧ Holds H.T w' x.1.name x.1 ∧
      Pin.ProgOf H.T x.1 w' p ∧ ∀ pt ∈ h.points, w'.die.runs pt p) ∧
    ∀ x, Takes H a2 x →
      (∀ p, h.prog = some p → (∀ pt ∈ h.points, ∃ q, w'.runs pt q ∧ (q = p ∨ Pin.ProgOf H.T x.1 w' q)) ∨ Pin.FailedAfter x.1.name h.progName w w') ∧
      (Holds H.T w' x.1.name c ∨ ∃ n a, Since w w' (.unlink x.1.name n, a)) ∧
      (∀ e, q = .ret e → Fails q → Pin.Good H.T w' x.1.name c h ∨ Pin.FailedAfter x.1.name h.progName w w') := by
  rcases chain_split (act := fun c _ => Pin.chainUpdate H.T H.ncpu c) (fun _ => rfl) hv hc (by simp [usage]) rfl hd hr with ⟨h1, h2⟩ | ⟨y, w1, q', ht, hu, h1, h2, h3⟩
  · refine ⟨fun out he => absurd he (h2 out), fun x hx => ?_⟩
    have := h1.good (hn x hx).1 (hn x hx).2
    exact ⟨fun p hp => .inl fun pt hpt => ⟨p, (this.points hp pt hpt).alive, .inl rfl⟩, .inl this.holds, fun _ _ _ => .inl this⟩
  · have hset := Setup.of h1
    have hw1 := h1.sane hw
    have hcp := Takes.canPut hW hT ht
    obtain ⟨hst, hg⟩ := hn y ht
    have hg1 := hset.good hst hg
    obtain ⟨p, hp, _⟩ := hg.prog
    obtain ⟨hdur, haft⟩ := Pin.C31_update_partial hw1.wf hg1.toStored hp hcp.copy h2
    have hl := Pin.C32_update_partial hw1.wf hg1 hcp.packable hcp.fits hcp.copy h2
    refine ⟨fun out he => ?_, fun x hx => ?_⟩
    · obtain ⟨r, rfl, er⟩ := h3 _ he
      obtain ⟨rfl, rfl⟩ := ended_ok er
      obtain ⟨s, hs⟩ := Takes.asks hW ht
      obtain ⟨h', g1⟩ := (hl.2 _ rfl).1 rfl
      obtain ⟨p', n, g2, _, g3⟩ := (haft _ rfl).ok rfl
      exact ⟨rfl, s, y, h', p', hs, g1, g1.holds, g2.progOf, g3⟩
    · cases hu x hx
      refine ⟨fun p' hp' => ?_, hl.1.imp id fun ⟨n, a, g⟩ => ⟨n, a, g.earlier hset.hist⟩, fun e he hf => ?_⟩
      · rw [hp] at hp'
        cases hp'
        refine hdur.covered.imp (fun g pt hpt => ?_) fun g => g.earlier hset.hist
        obtain ⟨q, g1, g2⟩ := g pt hpt
        exact ⟨q, g1, g2.imp id fun g => g.progOf⟩
      · obtain ⟨r, rfl, er⟩ := h3 e he
        exact ((hl.2 r rfl).2 (ended_fails (by rw [he, er]) hf)).imp id fun g => g.earlier hset.hist

end Bf.Cli
