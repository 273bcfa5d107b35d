import Verif.Props.C51_Named
import Verif.Props.C27_UpdateSet
/-!
# C51: `bfcli chain get` and `bfcli chain update-set`
-/
namespace Bf.Pin

variable {α β : Type} {T : Target} {w w1 w' : K}

theorem Reported.bind {p : P α} {f : α → P β} {a : α} {q : P β} {m i : Nat} {x : Ctr} (h : Reported w p w1 (.ret a) m i x) (h' : Run w1 (f a) w' q) :
    Reported w (p >>= f) w' q m i x := by
  obtain ⟨g, ⟨v, k, h1, h2, h3⟩, h4⟩ := h
  exact ⟨g, ⟨v, _, h1.bind, h2.bind.trans h', h3⟩, h4⟩

theorem Reported.after {p p1 q : P α} {m i : Nat} {x : Ctr} (h : Run w p w1 p1) (h' : Reported w1 p1 w' q m i x) : Reported w p w' q m i x := by
  obtain ⟨g, ⟨v, k, h1, h2, h3⟩, h4⟩ := h'
  exact ⟨g, ⟨v, k, h.trans h1, h2, h3⟩, h4⟩

end Bf.Pin

namespace Bf.Cli
open Spec
open Pin (K P Setup Holds Absent Since staging Reported)

variable {H : Host} {a1 : List Arg1} {a2 : List (Flag × List Char)} {words : List String} {w w' : K} {q : P Ended} {n : String} {c : Chain} {h : Pin.Handle}

theorem after_split {α : Type} {x : Run α} {f : α → P Ended} (h : Pin.Run w (after x f) w' q) :
    (w'.erase = w.erase ∧ Fails q) ∨ ∃ a, x = some (.ok a) ∧ Pin.Run w (f a) w' q := by
  unfold after at h
  split at h
  · obtain ⟨rfl, he⟩ := Pin.Run.ret_split h
    exact .inl ⟨he, fun out e => by cases e⟩
  · exact .inr ⟨_, rfl, h⟩
  · obtain ⟨rfl, he⟩ := Pin.Run.ret_split h
    exact .inl ⟨he, fun out e => by cases e⟩
  · obtain ⟨rfl, he⟩ := Pin.Run.ret_split h
    exact .inl ⟨he, fun out e => by cases e⟩

/-- The counters that are shown for a chain: sums, over the CPUs, of what was counted at instants of the run. -/
structure Shows (H : Host) (a1 : List Arg1) (a2 : List (Flag × List Char)) (words : List String) (w w' : K) (q : P Ended) (m : Nat) (c : Chain) (k : Counts) : Prop where
  rules : ∀ (i : Nat) (r : Rule), c.rules[i]? = some r → r.hasCounters = true → ∃ x, k.rule i = (x.1.toNat, x.2.toNat) ∧ Reported w (main H a1 a2 words) w' q m r.index x
  policy : ∃ x, k.policy = (x.1.toNat, x.2.toNat) ∧ Reported w (main H a1 a2 words) w' q m c.rules.length x
  errors : ∃ x, k.error = (x.1.toNat, x.2.toNat) ∧ Reported w (main H a1 a2 words) w' q m (c.rules.length + 1) x

/-- `m` is where the program of the chain counts: `p` is the program of `h`, made from the chain, for the maps of `h`, with `m`, which is one of the maps of `h`, for its counters (one for each rule, and two), and it is what
the hooks that `h` is attached to run, without the process that set it. -/
def CountsAt (T : Pin.Target) (w : K) (c : Chain) (h : Pin.Handle) (m : Nat) : Prop :=
  ∃ p img b, h.prog = some p ∧ h.cmap = some b ∧ b.id = m ∧ b.d.nElems = c.rules.length + 2 ∧ w.objs[p]? = some (.prog c img m) ∧ h.mapFds.counters = BitVec.ofNat 32 m ∧ compile c T.thr T.slen h.mapFds = .ok img ∧
    ∀ pt ∈ h.points, w.die.runs pt p

theorem countsAt {T : Pin.Target} (hg : Pin.Good T w n c h) : ∃ m, h.cmap = some m ∧ CountsAt T w c h m.id := by
  obtain ⟨p, hp, _⟩ := hg.prog
  obtain ⟨img, m, t1, t2, t3, t4, _⟩ := hg.tied p hp
  exact ⟨m, t1, p, img, m, hp, t1, rfl, by rw [t4 m t1]; rfl, t2, by simp [Pin.Handle.mapFds, t1, Pin.mapFd], t3, hg.points hp⟩

/-- The run stays in what `bf_ctx_setup` and reading do. -/
theorem same_good {T : Pin.Target} {w1 : K} (e : w'.erase = w1.erase) (hg : Pin.Good T w1 n c h) : Pin.Good T w' n c h :=
  Pin.Good.erase.mp (by rw [e]; exact Pin.Good.erase.mpr hg)

/-- C51, `bfcli chain get`.  At every instant the chain is as it was, and so are the pins.  If it exits with status 0, it prints the chain, the options it is attached with, and
what the program of the chain, which its hook runs, counted; the elements of the sets, unless `--no-set-content` is given. -/
theorem C51_get (hv : Valid a1 a2 words) (hc : Commands a1 .chain .get) (hn : Spec.named a2 = some n) (hs : staging n = false) (hw : w.Sane)
    (hg : Pin.Good H.T w n c h) (hr : Pin.Run w (main H a1 a2 words) w' q) :
    Pin.Good H.T w' n c h ∧ Holds H.T w' n c ∧ (∀ d x, staging d = false → w'.pinned d x = w.pinned d x) ∧
    ∀ out, q = .ret (.exits .ok out) → ∃ m k elide, CountsAt H.T w c h m ∧ chainDump H.env.text c (h.link.map (·.d.opts)) k elide = .ok out ∧
      (elide = true ↔ given .noSetContent a2 ≠ []) ∧ Shows H a1 a2 words w w' q m c k := by
  obtain ⟨m, hm, hcounts⟩ := countsAt hg
  obtain ⟨n', hn', hh⟩ := named_split (f := chainGetCmd H) (fun _ => rfl) hv hc (by simp [usage]) hr
  rw [hn] at hn'
  cases hn'
  rcases hh with ⟨h1, h2⟩ | ⟨o, w1, hk, h1, h0, h2⟩
  · have := h1.good hs hg
    exact ⟨this, this.holds, fun d x hd => h1.pinned hd x, fun out he => absurd he (h2 out)⟩
  · have hset := Setup.of h1
    have hw1 := h1.sane hw
    have hg1 := hset.good hs hg
    have h2' := h2
    unfold chainGetCmd at h2
    rcases Pin.Run.bind_split h2 with ⟨c', k', h3, rfl⟩ | ⟨r, w2, h3, h4⟩
    · obtain ⟨g1, g2, _⟩ := Pin.get_keeps hw1.wf hg1 hm h3
      exact ⟨g1, g1.holds, fun d x hd => (by unfold K.pinned; rw [g2] : w'.pinned d x = w1.pinned d x).trans (hset.pinned hd x), fun out he => by cases he⟩
    · obtain ⟨g1, g2, _⟩ := Pin.get_keeps hw1.wf hg1 hm h3
      have fin : w'.erase = w2.erase → Pin.Good H.T w' n c h ∧ Holds H.T w' n c ∧ (∀ d x, staging d = false → w'.pinned d x = w.pinned d x) := fun e => by
        have := same_good e g1
        refine ⟨this, this.holds, fun d x hd => ?_⟩
        rw [← Pin.K.erase_pinned, e, Pin.K.erase_pinned, ← hset.pinned hd x]
        unfold K.pinned
        rw [g2]
      have h4' := h4
      rcases after_split h4 with ⟨e, hf⟩ | ⟨g, hg2, h5⟩
      · obtain ⟨f1, f2, f3⟩ := fin e
        exact ⟨f1, f2, f3, fun out he => absurd he (hf out)⟩
      · cases hg2
        rcases after_split h5 with ⟨e, hf⟩ | ⟨out, hd, h6⟩
        · obtain ⟨f1, f2, f3⟩ := fin e
          exact ⟨f1, f2, f3, fun out he => absurd he (hf out)⟩
        · obtain ⟨rfl, e⟩ := Pin.Run.ret_split h6
          obtain ⟨f1, f2, f3⟩ := fin e
          refine ⟨f1, f2, f3, fun out' he => ?_⟩
          cases he
          obtain ⟨c1, c2, c3, c4, c5, c6⟩ := Pin.C33_get hw1.wf hg1.toStored hm h3
          have lift : ∀ {i x}, Reported w1 (Pin.chainGet n) w2 (.ret (.ok g)) m.id i x → Reported w (main H a1 a2 words) w' (.ret (.exits .ok out)) m.id i x := fun hx =>
            Reported.after h0 (Reported.bind hx h4')
          injection hd with hd
          rw [c1, c2] at hd
          refine ⟨m.id, countsOf g, o.noSetContent, hcounts, hd, hk.noSetContent, ⟨fun i r hr' hcn => ?_, ⟨_, rfl, lift c5⟩, ⟨_, rfl, lift c6⟩⟩⟩
          have := c4 i r hr'
          rw [if_pos hcn] at this
          obtain ⟨x, x1, x2⟩ := this
          refine ⟨x, ?_, lift x2⟩
          show (g.rules[i]?.join.map pairOf).getD (0, 0) = _
          rw [x1]
          rfl

end Bf.Cli
