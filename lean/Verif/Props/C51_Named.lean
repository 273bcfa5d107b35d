import Verif.Props.C51_Effects
import Verif.Props.C39_Set
/-!
# C51: the commands that take `--name`
-/
namespace Bf.Pin

variable {T : Target} {w w' : K} {dir : String} {c : Chain} {h : Handle}

/-- `bf_chain_attach` of a chain that is attached, or that fails: the chain is there as it was. -/
theorem attach_failed {o : HookOpts} (hw : w.Wf) (hg : Good T w dir c h) (hl : h.link = none) (ho : OptsOk o) (hx : w.pinned dir "bf_link_extra" = none) {r : Res Unit}
    (hr : Run w (chainAttach dir o) w' (.ret r)) (hn : r ≠ .ok ()) : Good T w' dir c h := by
  have hs : Safe (fun _ => True) (fun r v => r ≠ .ok () → Good T v dir c h) (chainAttach dir o) w.erase :=
    chainAttach_safe (v := w.erase) hw.erase (Good.erase.mpr hg) hl ho hx (fun _ _ => trivial) (fun r v _ hg _ => hg) fun l v _ _ _ e => absurd rfl e
  exact Good.erase.mp (hs.end hr hn)

theorem attach_twice {o : HookOpts} (hw : w.Wf) (hg : Good T w dir c h) {l : Link} (hl : h.link = some l) {p' : P (Res Unit)}
    (hr : Run w (chainAttach dir o) w' p') : Good T w' dir c h ∧ p' ≠ .ret (.ok ()) := by
  have hge := Good.erase.mpr hg
  have hs : Safe (fun v => Good T v dir c h) (fun r _ => r ≠ .ok ()) (chainAttach dir o) w.erase := by
    unfold chainAttach
    refine withStored_safe hw.erase hge.toStored (fun v' ids ho => ho.good hge) (fun r v' hr _ => hr ()) fun v1 ho1 hw1 => ?_
    dsimp only
    rw [hl]
    rw [if_pos (by rfl)]
    have g1 := ho1.good hge
    refine ⟨g1, ?_⟩
    refine cgenFree_closed (fun v2 os hc => hc.good g1) fun v2 hc => ?_
    have g2 := hc.good g1
    refine safe_void g2 fun a v3 hs => ?_
    exact ⟨hs.released.good g2, by simp⟩
  refine ⟨Good.erase.mp (hs.sound hr).inv, ?_⟩
  rintro rfl
  exact hs.end hr rfl

/-- `bf_chain_get` changes nothing. -/
theorem get_keeps {m : BMap} (hw : w.Wf) (hg : Good T w dir c h) (hm : h.cmap = some m) {p' : P (Res Got)} (hr : Run w (chainGet dir) w' p') :
    Good T w' dir c h ∧ w'.pins = w.pins ∧ w'.dirs = w.dirs ∧ w'.erase.objs = w.erase.objs := by
  have hs : Safe (fun v => ∃ ids, Open dir ids w.erase v) (fun _ _ => True) (chainGet dir) w.erase :=
    chainGet_safe hw.erase (Good.erase.mpr hg).toStored hm (fun v ids ho => ⟨ids, ho⟩) (fun _ _ _ _ => trivial) fun _ _ _ _ => trivial
  obtain ⟨ids, ho⟩ := (hs.sound hr).inv
  exact ⟨Good.erase.mp (ho.good (Good.erase.mpr hg)), ho.pins, ho.dirs, ho.objs⟩

end Bf.Pin

namespace Bf.Cli
open Spec
open Pin (K P Setup Holds Absent Since staging)

variable {H : Host} {a1 : List Arg1} {a2 : List (Flag × List Char)} {words : List String} {w w' : K} {q : P Ended} {n : String} {c : Chain} {h : Pin.Handle}

/-- `bf_ctx_setup` is the first part of the run. -/
theorem main_setup {o : CmdLine} {c : Cmd} {w1 : K} (ho : optsParse a1 a2 words = .go (o, c)) (hd : o.dryRun = false) (h : Pin.Run w ctxSetup w1 (.ret (.ok ()))) :
    Pin.Run w (main H a1 a2 words) w1 (runCmd H o c.object c.action) := by
  unfold main
  rw [ho]
  dsimp only
  unfold mainCmd
  rw [hd, if_neg (by simp)]
  exact h.bind

/-- A command that takes `--name`: before the operation, only what `bf_ctx_setup` does is done. -/
theorem named_split {a : Action} {f : CmdLine → String → P Ended} (hr : ∀ o, runCmd H o .chain a = named o (f o)) (hv : Valid a1 a2 words) (hc : Commands a1 .chain a)
    (hu : ∃ u, usage .chain a = some u ∧ u.source = false ∧ Flag.name ∈ u.needs ∧ Flag.dryRun ∉ u.needs ∧ Flag.dryRun ∉ u.may) (h : Pin.Run w (main H a1 a2 words) w' q) :
    ∃ n, Spec.named a2 = some n ∧
      ((Setup w w' ∧ Fails q) ∨ ∃ o w1, Kept a2 o ∧ Pin.Run w ctxSetup w1 (.ret (.ok ())) ∧ Pin.Run w (main H a1 a2 words) w1 (f o n) ∧
        Pin.Run w1 (f o n) w' q) := by
  obtain ⟨o, c, ho⟩ := C51_taken hv
  obtain ⟨hk, hn, _, u, hu', hR⟩ := C51_kept ho
  obtain ⟨u2, hu2, hs, hnm, hd1, hd2⟩ := hu
  obtain ⟨e1, e2⟩ := Commands.unique hc hn (by rw [hu2]; rfl) (by rw [hu']; rfl)
  rw [← e1, ← e2, hu2] at hu'
  cases hu'
  have hdr : o.dryRun = false := by
    cases hx : o.dryRun with
    | false => rfl
    | true =>
      obtain ⟨b, hb, e⟩ := given_ne.mp (hk.dryRun.mp hx)
      rcases hR.known b hb with h | h | ⟨h, _⟩
      · rw [e] at h; exact absurd h hd1
      · rw [e] at h; exact absurd h hd2
      · rw [hs] at h; cases h
  have hne := hR.needs _ hnm
  have hlast : ∃ x, (given .name a2).getLast? = some x := by
    cases hg : (given .name a2).getLast? with
    | none => exact absurd (List.getLast?_eq_none_iff.mp hg) hne
    | some x => exact ⟨x, rfl⟩
  obtain ⟨x, hx⟩ := hlast
  refine ⟨String.ofList x, by unfold Spec.named; rw [hx]; rfl, ?_⟩
  rcases main_split ho hdr h with ⟨h1, h2⟩ | ⟨w1, h1, h2⟩
  · refine .inl ⟨h1, fun out he => ?_⟩
    obtain ⟨er, he⟩ := h2 _ he
    cases he
  · rw [← e1, ← e2, hr] at h2
    have : named o (f o) = f o (String.ofList x) := by unfold named; rw [hk.name, hx]
    rw [this] at h2
    refine .inr ⟨o, w1, hk, h1, ?_, h2⟩
    have h0 := main_setup (H := H) ho hdr h1
    rwa [← e1, ← e2, hr, this] at h0

/-- C51, `bfcli chain attach`, of a chain that is not attached.  If it exits with status 0, the chain is attached with the options the command line gives, which are those
its hook needs; if not, it is as it was.  At every instant it is there. -/
theorem C51_attach (hv : Valid a1 a2 words) (hc : Commands a1 .chain .attach) (hn : Spec.named a2 = some n) (hs : staging n = false)
    (ha : ∀ x ∈ given .option a2, x.length < 2 ^ 32 ∧ ∀ c ∈ x, 0 < c.toNat ∧ c.toNat < 256) (hw : w.Sane) (hg : Pin.Good H.T w n c h) (hl : h.link = none)
    (hx : w.pinned n "bf_link_extra" = none) (hr : Pin.Run w (main H a1 a2 words) w' q) :
    Holds H.T w' n c ∧ (∀ e, q = .ret e → Fails q → Pin.Good H.T w' n c h) ∧
    ∀ out, q = .ret (.exits .ok out) → out = [] ∧ ∃ o l, parseOpts .new (given .option a2) = .ok o ∧ validate o c.hook = .ok () ∧
      Pin.Good H.T w' n c { h with link := some l } ∧ l.d.hook = c.hook ∧ l.d.opts = o := by
  obtain ⟨n', hn', hh⟩ := named_split (f := fun o n => do let r ← Pin.chainAttach n o.hookopts; pure (ended r)) (fun _ => rfl) hv hc (by simp [usage]) hr
  rw [hn] at hn'
  cases hn'
  rcases hh with ⟨h1, h2⟩ | ⟨o, w1, hk, h1, _, h2⟩
  · have := h1.good hs hg
    exact ⟨this.holds, fun _ _ _ => this, fun out he => absurd he (h2 out)⟩
  · have hset := Setup.of h1
    have hw1 := h1.sane hw
    have hg1 := hset.good hs hg
    have hx1 : w1.pinned n "bf_link_extra" = none := by rw [hset.pinned hs]; exact hx
    have ho : OptsOk o.hookopts := parseOpts_ok hk.hookopts ⟨by decide, by decide, by decide, by decide⟩ fun x hx => .of (ha x hx).2 (ha x hx).1
    obtain ⟨q', h3, h4⟩ := Pin.Run.bind_pure h2
    obtain ⟨g1, g2⟩ := Pin.C32_attach hw1.wf hg1 hl ho hx1 h3
    refine ⟨g1, fun e he hf => ?_, fun out he => ?_⟩
    · obtain ⟨r, rfl, er⟩ := h4 e he
      exact Pin.attach_failed hw1.wf hg1 hl ho hx1 h3 (ended_fails (by rw [he, er]) hf)
    · obtain ⟨r, rfl, er⟩ := h4 _ he
      obtain ⟨rfl, rfl⟩ := ended_ok er
      obtain ⟨l, k1, k2, k3, k4⟩ := g2 rfl
      exact ⟨rfl, _, l, hk.hookopts, k4, k1, k2, k3⟩

/-- C51, `bfcli chain attach`, of a chain that is attached: it fails, and the chain is as it was at every instant. -/
theorem C51_attach_twice (hv : Valid a1 a2 words) (hc : Commands a1 .chain .attach) (hn : Spec.named a2 = some n) (hs : staging n = false) (hw : w.Sane)
    (hg : Pin.Good H.T w n c h) {l : Pin.Link} (hl : h.link = some l) (hr : Pin.Run w (main H a1 a2 words) w' q) :
    Pin.Good H.T w' n c h ∧ Holds H.T w' n c ∧ Fails q := by
  obtain ⟨n', hn', hh⟩ := named_split (f := fun o n => do let r ← Pin.chainAttach n o.hookopts; pure (ended r)) (fun _ => rfl) hv hc (by simp [usage]) hr
  rw [hn] at hn'
  cases hn'
  rcases hh with ⟨h1, h2⟩ | ⟨o, w1, hk, h1, _, h2⟩
  · have := h1.good hs hg
    exact ⟨this, this.holds, h2⟩
  · have hset := Setup.of h1
    have hw1 := h1.sane hw
    obtain ⟨q', h3, h4⟩ := Pin.Run.bind_pure h2
    obtain ⟨g1, g2⟩ := Pin.attach_twice hw1.wf (hset.good hs hg) hl h3
    refine ⟨g1, g1.holds, fun out he => ?_⟩
    obtain ⟨r, hq', er⟩ := h4 _ he
    exact g2 (by rw [hq', (ended_ok er).1])

/-- C51, `bfcli chain flush`.  If it does not exit with status 0, the chain is as it was; if it does, and no call that removes a pin or detaches a link failed, nothing of the
chain is pinned, and nothing of it runs.  At every instant the chain, or no chain, is there, unless its description could not be removed. -/
theorem C51_flush (hv : Valid a1 a2 words) (hc : Commands a1 .chain .flush) (hn : Spec.named a2 = some n) (hs : staging n = false) (hw : w.Sane)
    (hg : Pin.Good H.T w n c h) (hr : Pin.Run w (main H a1 a2 words) w' q) :
    (Holds H.T w' n c ∨ Absent w' n ∨ ∃ e, e ≠ .ENOENT ∧ Since w w' (.unlink n "bf_ctx", .fail e)) ∧
    (∀ e, q = .ret e → Fails q → Pin.Good H.T w' n c h) ∧
    ∀ out, q = .ret (.exits .ok out) → out = [] ∧
      (∀ m, h.owns m → w'.pinned n m = none ∨ ∃ e, e ≠ .ENOENT ∧ Since w w' (.unlink n m, .fail e)) ∧
      (∀ l ∈ h.linkFds, (∀ pt q, w'.objs[l]? ≠ some (.link pt q false)) ∨ ∃ e, e ≠ .ENOENT ∧ Since w w' (.linkDetach l, .fail e)) ∧
      (∀ d m, ¬ (d = n ∧ h.owns m) → staging d = false → w'.pinned d m = w.pinned d m) ∧
      ((∀ m e, e ≠ .ENOENT → ¬ Since w w' (.unlink n m, .fail e)) → (∀ l ∈ h.linkFds, ∀ e, e ≠ .ENOENT → ¬ Since w w' (.linkDetach l, .fail e)) →
        ∀ pt q, w'.die.runs pt q → ∃ l d m, l ∉ h.linkFds ∧ w.objs[l]? = some (.link pt q false) ∧ w.pinned d m = some l ∧ ¬ (d = n ∧ h.owns m)) := by
  obtain ⟨n', hn', hh⟩ := named_split (f := fun _ n => do let r ← Pin.chainFlush n; pure (ended r)) (fun _ => rfl) hv hc (by simp [usage]) hr
  rw [hn] at hn'
  cases hn'
  rcases hh with ⟨h1, h2⟩ | ⟨o, w1, hk, h1, _, h2⟩
  · have := h1.good hs hg
    exact ⟨.inl this.holds, fun _ _ _ => this, fun out he => absurd he (h2 out)⟩
  · have hset := Setup.of h1
    have hw1 := h1.sane hw
    have hg1 := hset.good hs hg
    obtain ⟨q', h3, h4⟩ := Pin.Run.bind_pure h2
    refine ⟨?_, fun e he hf => ?_, fun out he => ?_⟩
    · rcases Pin.C32_flush hw1.wf hg1 h3 with g | g | ⟨e, g1, g2⟩
      · exact .inl g
      · exact .inr (.inl g)
      · exact .inr (.inr ⟨e, g1, g2.earlier hset.hist⟩)
    · obtain ⟨r, rfl, er⟩ := h4 e he
      exact ((Pin.C42_flush hw1.wf hg1 h3).1 (ended_fails (by rw [he, er]) hf)).1
    · obtain ⟨r, rfl, er⟩ := h4 _ he
      obtain ⟨rfl, rfl⟩ := ended_ok er
      obtain ⟨k1, k2, _, k4, _, k6⟩ := (Pin.C42_flush hw1.wf hg1 h3).2 rfl
      refine ⟨rfl, fun m hm => (k1 m hm).imp id fun ⟨_, e, e1, e2⟩ => ⟨e, e1, e2.earlier hset.hist⟩, fun l hl => (k2 l hl).imp id fun ⟨e, e1, e2⟩ => ⟨e, e1, e2.earlier hset.hist⟩,
        fun d m hd hst => (k4 d m hd).trans (hset.pinned hst m), fun f1 f2 pt q hr => ?_⟩
      obtain ⟨l, d, m, l1, l2, l3, l4⟩ := (k6 (fun m _ e _ he hs => f1 m e he (hs.earlier hset.hist)) (fun l hl e he hs => f2 l hl e he (hs.earlier hset.hist)) pt q).mp hr
      refine ⟨l, d, m, l1, ?_, ?_, l4⟩
      · have := congrArg (·[l]?) hset.objs
        rw [← Pin.K.erase_link] at l2 ⊢
        exact this.symm.trans l2
      · have := hset.gone d m
        simp only [Pin.K.erase_pinned] at this
        rcases this with e | e
        · rw [← e]; exact l3
        · rw [e] at l3; cases l3

end Bf.Cli
