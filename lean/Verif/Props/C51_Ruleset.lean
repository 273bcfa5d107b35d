import Verif.Props.C51_Get
import Verif.Props.C44_Ruleset
/-!
# C51: `bfcli ruleset set`, `get` and `flush`
-/
namespace Bf.Cli
open Spec
open Pin (K P Setup Holds Absent Since staging Chains Bad Owned)

variable {H : Host} {a1 : List Arg1} {a2 : List (Flag × List Char)} {words : List String} {w w' : K} {q : P Ended} {L : List (Chain × Pin.Handle)}

/-- A command on the ruleset, when the run is not dry. -/
theorem ruleset_split {a : Action} (hv : Valid a1 a2 words) (hc : Commands a1 .ruleset a) (hu : (usage .ruleset a).isSome) (hd : given .dryRun a2 = [])
    (h : Pin.Run w (main H a1 a2 words) w' q) :
    (Setup w w' ∧ Fails q) ∨ ∃ o u w1, Kept a2 o ∧ o.dryRun = false ∧ usage .ruleset a = some u ∧ u.Right a2 ∧ Pin.Run w ctxSetup w1 (.ret (.ok ())) ∧
      Pin.Run w (main H a1 a2 words) w1 (runCmd H o .ruleset a) ∧ Pin.Run w1 (runCmd H o .ruleset a) w' q := by
  obtain ⟨o, c, ho⟩ := C51_taken hv
  obtain ⟨hk, hn, _, u, hu', hR⟩ := C51_kept ho
  obtain ⟨e1, e2⟩ := Commands.unique hc hn hu (by rw [hu']; rfl)
  rw [← e1, ← e2] at hu'
  have hdr : o.dryRun = false := by
    cases hx : o.dryRun with
    | false => rfl
    | true => exact absurd hd (hk.dryRun.mp hx)
  rcases main_split ho hdr h with ⟨h1, h2⟩ | ⟨w1, h1, h2⟩
  · refine .inl ⟨h1, fun out he => ?_⟩
    obtain ⟨er, he⟩ := h2 _ he
    cases he
  · have h0 := main_setup (H := H) ho hdr h1
    rw [← e1, ← e2] at h2 h0
    exact .inr ⟨o, u, w1, hk, hdr, hu', hR, h1, h0, h2⟩

theorem no_dry {x : Object} {a : Action} {u : Usage} (hu : usage x a = some u) (hs : u.source = false) (h1 : Flag.dryRun ∉ u.needs) (h2 : Flag.dryRun ∉ u.may)
    (hc : Commands a1 x a) (hv : Valid a1 a2 words) : given .dryRun a2 = [] := by
  obtain ⟨x', a', u', hc', hu', hR, _⟩ := hv
  obtain ⟨rfl, rfl⟩ := Commands.unique hc hc' (by rw [hu]; rfl) (by rw [hu']; rfl)
  rw [hu] at hu'
  cases hu'
  cases hg : given .dryRun a2 with
  | nil => rfl
  | cons y ys =>
    obtain ⟨b, hb, e⟩ := given_ne.mp (by rw [hg]; simp : given .dryRun a2 ≠ [])
    rcases hR.known b hb with h | h | ⟨h, _⟩
    · rw [e] at h; exact absurd h h1
    · rw [e] at h; exact absurd h h2
    · rw [hs] at h; cases h

/-- The chains that are there are as they were. -/
def AllKept (T : Pin.Target) (L : List (Chain × Pin.Handle)) (w' : K) : Prop := ∀ x ∈ L, Pin.Good T w' x.1.name x.1 x.2 ∧ Holds T w' x.1.name x.1

theorem allKept_of {T : Pin.Target} (h : Chains T w' L) : AllKept T L w' := fun x hx => ⟨h.good x hx, (h.good x hx).holds⟩

theorem Setup.kept {T : Pin.Target} (h : Setup w w') (hL : Chains T w L) : AllKept T L w' := allKept_of (h.chains hL)

theorem same_kept {T : Pin.Target} {w1 : K} (e : w'.erase = w1.erase) (hL : AllKept T L w1) : AllKept T L w' := fun x hx => by
  have := same_good e (hL x hx).1
  exact ⟨this, this.holds⟩

/-- C51, `bfcli ruleset set`.  If it exits with status 0, the chains that the text says are there, each attached as it says; and, if no call that reads or removes something failed,
no other chain is, and the links of those that were there attach nothing.  If it does not, and no such call failed, the chains that were there are as they were, or there is no chain.
Missing, and false of the code: that a failure leaves the chains that were there (`C44_fails`), and what success means when such calls fail (`C44_leaves`). -/
theorem C51_ruleset_set_partial (hv : Valid a1 a2 words) (hc : Commands a1 .ruleset .set) (hd : given .dryRun a2 = []) (hW : Written H a2) (hT : H.T.printed < 2 ^ 64) (hw : w.Sane)
    (hL : Chains H.T w L) (hn : (L.map (·.1.name)).Nodup) (hst : ∀ t rs, Source H a2 t → bfcParse H.env t = some (.ok rs) → ∀ x ∈ rs, staging x.1.name = false)
    (hr : Pin.Run w (main H a1 a2 words) w' q) :
    (∀ out, q = .ret (.exits .ok out) → out = [] ∧ ∃ t cs rs, Source H a2 t ∧ Writes t cs ∧ Each (ChainSays H.env.text H.env.rate) cs rs ∧
      (∀ y ∈ rs, ∃ h, Pin.Good H.T w' y.1.name y.1 h ∧ Holds H.T w' y.1.name y.1 ∧ AttachedAs h y) ∧ (rs.map (·.1.name)).Nodup ∧
      (¬ Bad w w' → (∀ d, (∀ y ∈ rs, y.1.name ≠ d) → Absent w' d) ∧ ∀ x ∈ L, ∀ l ∈ x.2.linkFds, ∀ pt q, w'.objs[l]? ≠ some (.link pt q false))) ∧
    (∀ e, q = .ret e → Fails q → ¬ Bad w w' → AllKept H.T L w' ∨ ∀ d, Absent w' d) := by
  rcases ruleset_split hv hc rfl hd hr with ⟨h1, h2⟩ | ⟨o, u, w1, hk, hdr, hu, hR, h1, _, h2⟩
  · exact ⟨fun out he => absurd he (h2 out), fun _ _ _ _ => .inl (Setup.kept h1 hL)⟩
  · have hset := Setup.of h1
    have hw1 := h1.sane hw
    have hL1 := hset.chains hL
    cases hu
    have hsrc := hR.source rfl
    rcases after_split (f := fun rs => if o.dryRun then .ret (.exits .ok []) else Pin.rulesetSet H.T rs >>= fun r => pure (ended r)) h2 with ⟨e, hf⟩ | ⟨rs, hrs, h3⟩
    · exact ⟨fun out he => absurd he (hf out), fun _ _ _ _ => .inl (same_kept e (allKept_of hL1))⟩
    · rw [hdr, if_neg (by simp)] at h3
      obtain ⟨t, ht, hp⟩ := (rulesetSource_some hk hsrc).mp hrs
      obtain ⟨hl, cs, hwr⟩ := hW t ht
      have hcs : ∀ x ∈ rs, Pin.CanPut H.T x := fun x hx => by
        obtain ⟨g1, g2, g3, g4⟩ := from_text hwr hl hp hx
        exact ⟨g1, g4 H.T hT, g2, g3⟩
      obtain ⟨q', h4, h5⟩ := Pin.Run.bind_pure h3
      refine ⟨fun out he => ?_, fun e he hf hb => ?_⟩
      · obtain ⟨r, rfl, er⟩ := h5 _ he
        obtain ⟨rfl, rfl⟩ := ended_ok er
        obtain ⟨k1, k2, k3⟩ := (Pin.C44_set_partial hw1 hL1 hn hcs (hst t rs ht hp) h4).1 rfl
        exact ⟨rfl, t, cs, rs, ht, hwr, C45_read hwr hp (read_small hwr (by omega) hp), k1, k2, fun hb => k3 fun hb' => hb (hb'.earlier hset.hist)⟩
      · obtain ⟨r, rfl, er⟩ := h5 _ he
        rcases (Pin.C44_set_partial hw1 hL1 hn hcs (hst t rs ht hp) h4).2 (ended_fails (by rw [he, er]) hf) fun hb' => hb (hb'.earlier hset.hist) with g | g
        · exact .inl g.good
        · exact .inr g.absent

/-- C51, `bfcli ruleset flush`.  At every instant, what is not of a chain is untouched.  If it does not exit with status 0, the chains are as they were; if it does, and no call that
reads or removes something failed, no chain is left. -/
theorem C51_ruleset_flush (hv : Valid a1 a2 words) (hc : Commands a1 .ruleset .flush) (hw : w.Sane) (hL : Chains H.T w L) (hn : (L.map (·.1.name)).Nodup)
    (hr : Pin.Run w (main H a1 a2 words) w' q) :
    (∀ d n, ¬ Owned L d n → staging d = false → w'.pinned d n = w.pinned d n) ∧
    (∀ e, q = .ret e → Fails q → AllKept H.T L w') ∧
    ∀ out, q = .ret (.exits .ok out) → out = [] ∧ (¬ Bad w w' → (∀ d, Absent w' d) ∧ ∀ d n, Owned L d n → w'.pinned d n = none) := by
  rcases ruleset_split hv hc rfl (no_dry rfl rfl (by simp) (by simp) hc hv) hr with ⟨h1, h2⟩ | ⟨o, u, w1, hk, hdr, hu, hR, h1, _, h2⟩
  · exact ⟨fun d n _ hd => h1.pinned hd n, fun _ _ _ => Setup.kept h1 hL, fun out he => absurd he (h2 out)⟩
  · have hset := Setup.of h1
    have hw1 := h1.sane hw
    have hL1 := hset.chains hL
    obtain ⟨q', h4, h5⟩ := Pin.Run.bind_pure (p := Pin.rulesetFlush) (f := ended) h2
    obtain ⟨k1, _, k3⟩ := Pin.C44_flush hw1 hL1 hn h4
    refine ⟨fun d n ho hd => (k1 d n ho).trans (hset.pinned hd n), fun e he hf => ?_, fun out he => ?_⟩
    · obtain ⟨r, rfl, er⟩ := h5 _ he
      exact ((k3 r rfl).1 (ended_fails (by rw [he, er]) hf)).good
    · obtain ⟨r, rfl, er⟩ := h5 _ he
      obtain ⟨rfl, rfl⟩ := ended_ok er
      refine ⟨rfl, fun hb => ?_⟩
      have := (k3 _ rfl).2 rfl fun hb' => hb (hb'.earlier hset.hist)
      exact ⟨this.absent, this.owned⟩

theorem catAll_zip {env : TextEnv} {elide : Bool} : ∀ {gs : List Pin.Got} {out : List Char},
    catAll (((gs.map fun g => (g.chain, countsOf g)).zip (gs.map (·.opts))).map fun x => chainDump env x.1.1 x.2 x.1.2 elide) = .ok out →
    ∃ outs, Each (fun (g : Pin.Got) (t : List Char) => chainDump env g.chain g.opts (countsOf g) elide = .ok t) gs outs ∧ out = outs.flatten
  | [], out, h => by cases h; exact ⟨[], .nil, rfl⟩
  | g :: gs, out, h => by
    simp only [List.map_cons, List.zip_cons_cons] at h
    unfold catAll at h
    obtain ⟨t, h1, h⟩ := Res.bind_eq_ok h
    obtain ⟨ts, h2, h⟩ := Res.bind_eq_ok h
    cases h
    obtain ⟨outs, e1, rfl⟩ := catAll_zip h2
    exact ⟨t :: outs, .cons h1 e1, rfl⟩

theorem each_choose {α β : Type} {R : α → β → Prop} : ∀ {l : List α}, (∀ a ∈ l, ∃ b, R a b) → ∃ m, Each R l m
  | [], _ => ⟨[], .nil⟩
  | a :: l, h => by
    obtain ⟨b, hb⟩ := h a List.mem_cons_self
    obtain ⟨m, hm⟩ := each_choose fun x hx => h x (List.mem_cons_of_mem _ hx)
    exact ⟨b :: m, .cons hb hm⟩

theorem each_zip {α β γ : Type} {R : α → β → Prop} {S : α → γ → Prop} {U : β → γ → Prop} {l : List α} {m : List β} (h : Each R l m) :
    ∀ {n : List γ}, Each S l n → (∀ a b c, R a b → S a c → U b c) → Each U m n := by
  induction h with
  | nil => intro n h' _; cases h'; exact .nil
  | cons h _ ih =>
    intro n h' f
    cases h' with
    | cons h1 h2 => exact .cons (f _ _ _ h h1) (ih h2 f)

theorem named_inj (hn : (L.map (·.1.name)).Nodup) {x y : Chain × Pin.Handle} (hx : x ∈ L) (hy : y ∈ L) (e : x.1 = y.1) : x = y := by
  induction L with
  | nil => cases hx
  | cons z L ih =>
    rw [List.map_cons, List.nodup_cons] at hn
    rcases List.mem_cons.mp hx with rfl | hx2
    · rcases List.mem_cons.mp hy with rfl | hy
      · rfl
      · exact absurd (List.mem_map.mpr ⟨y, hy, by rw [e]⟩) hn.1
    · rcases List.mem_cons.mp hy with rfl | hy
      · exact absurd (List.mem_map.mpr (⟨x, hx2, congrArg Chain.name e⟩ : ∃ a ∈ L, a.1.name = y.1.name)) hn.1
      · exact ih hn.2 hx2 hy

/-- C51, `bfcli ruleset get`.  At every instant the chains are as they were.  If it exits with status 0, it prints different chains, each with the options it is attached with and
its counters; all of them, if no call that reads something failed. -/
theorem C51_ruleset_get (hv : Valid a1 a2 words) (hc : Commands a1 .ruleset .get) (hw : w.Sane) (hL : Chains H.T w L) (hn : (L.map (·.1.name)).Nodup)
    (hr : Pin.Run w (main H a1 a2 words) w' q) :
    AllKept H.T L w' ∧ (∀ d x, staging d = false → w'.pinned d x = w.pinned d x) ∧
    ∀ out, q = .ret (.exits .ok out) → ∃ (ys : List (Chain × Pin.Handle)) (outs : List (List Char)) (elide : Bool), (∀ y ∈ ys, y ∈ L) ∧ (ys.map (·.1.name)).Nodup ∧
      (¬ Bad w w' → ∀ x ∈ L, x ∈ ys) ∧ (elide = true ↔ given .noSetContent a2 ≠ []) ∧ out = outs.flatten ∧
      Each (fun (y : Chain × Pin.Handle) t => ∃ m k, CountsAt H.T w y.1 y.2 m ∧ chainDump H.env.text y.1 (y.2.link.map (·.d.opts)) k elide = .ok t ∧
        Shows H a1 a2 words w w' q m y.1 k) ys outs := by
  have hm : ∀ x ∈ L, x.2.cmap.isSome = true := fun x hx => by
    obtain ⟨m, e, _⟩ := countsAt (hL.good x hx)
    rw [e]; rfl
  rcases ruleset_split hv hc rfl (no_dry rfl rfl (by simp) (by simp) hc hv) hr with ⟨h1, h2⟩ | ⟨o, u, w1, hk, hdr, hu, hR, h1, h0, h2⟩
  · exact ⟨Setup.kept h1 hL, fun d x hd => h1.pinned hd x, fun out he => absurd he (h2 out)⟩
  · have hset := Setup.of h1
    have hw1 := h1.sane hw
    have hL1 := hset.chains hL
    rcases Pin.Run.bind_split (p := Pin.rulesetGet) (f := fun r => afterRes r fun gs => printed (rulesetDump H.env.text o.noSetContent (gs.map fun g => (g.chain, countsOf g)) (gs.map (·.opts)))) h2
      with ⟨c', k', h3, rfl⟩ | ⟨r, w2, h3, h4⟩
    · have g := (Pin.C44_get hw1 hL1 hn hm h3).1
      exact ⟨g.good, fun d x hd => (by unfold K.pinned; rw [g.pins] : w'.pinned d x = w1.pinned d x).trans (hset.pinned hd x), fun out he => by cases he⟩
    · obtain ⟨g, hgs⟩ := Pin.C44_get hw1 hL1 hn hm h3
      have fin : w'.erase = w2.erase → AllKept H.T L w' ∧ (∀ d x, staging d = false → w'.pinned d x = w.pinned d x) := fun e => by
        refine ⟨same_kept e g.good, fun d x hd => ?_⟩
        rw [← Pin.K.erase_pinned, e, Pin.K.erase_pinned, ← hset.pinned hd x]
        unfold K.pinned
        rw [g.pins]
      have h4' := h4
      rcases after_split h4 with ⟨e, hf⟩ | ⟨gs, eg, h5⟩
      · obtain ⟨f1, f2⟩ := fin e
        exact ⟨f1, f2, fun out he => absurd he (hf out)⟩
      · cases eg
        rcases after_split h5 with ⟨e, hf⟩ | ⟨out, ed, h6⟩
        · obtain ⟨f1, f2⟩ := fin e
          exact ⟨f1, f2, fun out he => absurd he (hf out)⟩
        · obtain ⟨rfl, e⟩ := Pin.Run.ret_split h6
          obtain ⟨f1, f2⟩ := fin e
          refine ⟨f1, f2, fun out' he => ?_⟩
          cases he
          injection ed with ed
          unfold rulesetDump at ed
          rw [if_neg (by simp)] at ed
          obtain ⟨outs, o1, rfl⟩ := catAll_zip ed
          obtain ⟨k1, k2, k3⟩ := hgs gs rfl
          have lift : ∀ {m i x}, Pin.Reported w1 Pin.rulesetGet w2 (.ret (.ok gs)) m i x → Pin.Reported w (main H a1 a2 words) w' (.ret (.exits .ok outs.flatten)) m i x := fun hx =>
            Pin.Reported.after h0 (Pin.Reported.bind hx h4')
          obtain ⟨ys, y1⟩ := each_choose (R := fun (g : Pin.Got) (x : Chain × Pin.Handle) => x ∈ L ∧ Pin.Reads w1 w2 Pin.rulesetGet (.ret (.ok gs)) x g) k1
          have names : ys.map (·.1.name) = gs.map (·.chain.name) := by
            have key : ∀ {R : Pin.Got → Chain × Pin.Handle → Prop}, (∀ g x, R g x → g.chain = x.1) → ∀ {l ys}, Each R l ys → ys.map (·.1.name) = l.map (·.chain.name) := by
              intro R hR l ys h
              induction h with
              | nil => rfl
              | cons h _ ih => rw [List.map_cons, List.map_cons, ih, hR _ _ h]
            exact key (fun _ _ h => h.2.chain) y1
          refine ⟨ys, outs, o.noSetContent, fun y hy => ?_, by rw [names]; exact k2, fun hb x hx => ?_, hk.noSetContent, rfl, ?_⟩
          · obtain ⟨_, _, h⟩ := each_mem y1 hy
            exact h.1
          · obtain ⟨g', hg', hx'⟩ := k3 (fun hb' => hb ((hb'.earlier hset.hist).later (by
              have := h6.hist
              exact this))) x hx
            obtain ⟨y, hy, hyL, hyR⟩ := each_mem' y1 hg'
            have : y = x := named_inj hn hyL hx (by rw [← hyR.chain, ← hx'.chain])
            rw [← this]; exact hy
          · refine each_zip y1 o1 fun g' y t hR' ht' => ?_
            obtain ⟨m, em, hp⟩ := hR'.2.policy
            obtain ⟨m2, em2, he⟩ := hR'.2.errors
            rw [em] at em2
            cases em2
            obtain ⟨m', em', hcounts⟩ := countsAt (hL.good y hR'.1)
            rw [em] at em'
            cases em'
            refine ⟨m.id, countsOf g', hcounts, by rw [← hR'.2.chain, ← hR'.2.opts]; exact ht', ⟨fun i r hr' hcn => ?_, ⟨_, rfl, lift hp⟩, ⟨_, rfl, lift he⟩⟩⟩
            have := hR'.2.rules i r hr'
            rw [if_pos hcn] at this
            obtain ⟨m3, x, em3, x1, x2⟩ := this
            rw [em] at em3
            cases em3
            refine ⟨x, ?_, lift x2⟩
            show (g'.rules[i]?.join.map pairOf).getD (0, 0) = _
            rw [x1]
            rfl

end Bf.Cli
