import Verif.Cgen.FairChain
import Verif.Spec.AskedFor
import Verif.Props.C52_History
import Verif.Props.C51_Ruleset
import Verif.Props.C51_UpdateSet
/-!
# C53: what commands put in place was asked for
-/
namespace Bf.Cli
open Spec
open Pin (K P staging Lawful Knows Described)

variable {A : Issued → Prop} {i : Issued} {o : CmdLine} {n : String} {t : Pin.Tags} {c c' new : Chain}

/-- What the commands asked for. -/
def wish (A : Issued → Prop) : Pin.Wish := ⟨fun n c => AskedFor A c ∧ c.name = n, AskedAt A, fun T => ∃ i, A i ∧ i.H.T = T⟩

theorem wish_copies : (wish A).Copies := fun n c c' hc h => ⟨.again hc.1 h, by rw [Pin.chainCopy_name h]; exact hc.2⟩

/-- What `update-set` makes. -/
theorem changed_of {a r : BSet} {s : String} (hp : Packable c) (h : updateSet c a r = .ok new) (a1 : a.name = some s) (hab : SetBuilt a) (hrb : SetBuilt r) :
    ∃ (c' : Chain) (i : Nat) (old : BSet) (es : List (List Byte)), chainCopy c = .ok c' ∧ SetNamed c' s i old ∧ a.key = old.key ∧ r.key = old.key ∧ es.Nodup ∧
      (∀ x, x ∈ es ↔ (x ∈ old.elems ∨ x ∈ a.elems) ∧ x ∉ r.elems) ∧ new = { c' with sets := c'.sets.set i { old with elems := es } } ∧
      ((∀ s ∈ new.sets, s.elems.length < 2 ^ 32) → Packable new) := by
  unfold updateSet at h
  split at h
  · cases h
  · rw [a1] at h
    dsimp only at h
    obtain ⟨c', hcp, h⟩ := Res.bind_eq_ok h
    have hp' := Pin.packable_copy hp hcp
    split at h
    · cases h
    · next i hi =>
      split at h
      · cases h
      · next old ho =>
        obtain ⟨s1, e1, h⟩ := Res.bind_eq_ok h
        obtain ⟨s2, e2, h⟩ := Res.bind_eq_ok h
        cases h
        have hmem := List.mem_of_getElem? ho
        have hb := hp'.built old hmem
        have hsb : SetBuilt s2 := .removeMany (.addMany hb hab e1) hrb e2
        unfold setAddMany at e1
        split at e1
        · next k1 =>
          cases e1
          unfold setRemoveMany at e2
          split at e2
          · next k2 =>
            cases e2
            have n1 : (a.elems.foldl addElem old.elems).Nodup := by rw [addElem_eq]; exact CHash.nodup_foldl_withElem hb.shape.nodup
            refine ⟨c', i, old, _, hcp, setNamed_of hi ho, (of_decide_eq_true k1).symm, (of_decide_eq_true k2).symm, CHash.foldl_erase_nodup n1, fun x => ?_, rfl, fun hl => ?_⟩
            · rw [CHash.mem_foldl_erase n1, mem_addElems]
            · refine ⟨hp'.name, ?_, ?_, hp'.payloads, hp'.index, ?_, hp'.lens.2.1, hl, hp'.lens.2.2.2⟩
              · intro s' hs'
                rcases List.mem_or_eq_of_mem_set hs' with h | rfl
                · exact hp'.setNames s' h
                · exact hp'.setNames old hmem
              · intro s' hs'
                rcases List.mem_or_eq_of_mem_set hs' with h | rfl
                · exact hp'.built s' h
                · exact hsb
              · rw [List.length_set]; exact hp'.lens.1
          · cases e2
        · cases e1

theorem led_after {α : Type} {W : Pin.Want} {ok : Ended → Prop} {x : Run α} {f : α → P Ended} (hok : ∀ e, (∀ out, e ≠ .exits .ok out) → ok e)
    (h : ∀ a, x = some (.ok a) → (f a).Led W ok t) : (after x f).Led W ok t := by
  unfold after
  split
  · exact hok _ (by simp)
  · exact h _ rfl
  · exact hok _ (by simp [fails])
  · exact hok _ (by simp)

theorem led_named {W : Pin.Want} {ok : Ended → Prop} {a2 : List (Flag × List Char)} {f : String → P Ended} (hk : Kept a2 o) (hok : ∀ e, (∀ out, e ≠ .exits .ok out) → ok e)
    (h : ∀ n, Spec.named a2 = some n → (f n).Led W ok t) : (named o f).Led W ok t := by
  unfold named
  split
  · exact hok _ (by simp)
  · next n hn =>
    refine h _ ?_
    unfold Spec.named
    rw [← hk.name, hn]
    rfl

theorem led_chainCmd {W : Pin.Want} {H : Host} {ok : Ended → Prop} {a2 : List (Flag × List Char)} {act : Chain → Option HookOpts → P (Res Unit)} (hk : Kept a2 o) (hok : ∀ e, ok e)
    (hs : (given .fromStr a2 ≠ [] ∧ given .fromFile a2 = []) ∨ (given .fromStr a2 = [] ∧ given .fromFile a2 ≠ []))
    (h : given .dryRun a2 = [] → ∀ x, Takes H a2 x → (act x.1 x.2).Led W (fun _ => True) t) : (chainCmd H o act).Led W ok t := by
  rcases chainCmd_cases H o act with ⟨e, h1, _, _⟩ | ⟨rs, x, h1, h2, h3⟩
  · rw [h1]; exact hok _
  · rw [h3]
    split
    · exact hok _
    · next hd =>
      refine Pin.Led.bind (h ?_ x ((takes_iff hk hs).mp ⟨rs, h1, h2⟩)) fun _ _ _ => hok _
      cases hg : given .dryRun a2 with
      | nil => rfl
      | cons x l => exact absurd (hk.dryRun.mpr (by rw [hg]; simp)) hd

/-- What is read is as it is made. -/
theorem checked_of {e : PEnv} {text : List Char} {cs : List ChainS} (hw : Writes text cs) (hl : text.length < 2 ^ 32) {rs : List (Chain × Option HookOpts)}
    (h : bfcParse e text = some (.ok rs)) {c : Chain × Option HookOpts} (hc : c ∈ rs) : Checked c.1 :=
  ⟨(from_text hw hl h hc).2.1, (bfcParse_made h c hc).1, (bfcParse_made h c hc).2.1⟩

/-- What is taken from a text can be put, and is asked for. -/
theorem takes_put {i : Issued} (hA : A i) (hS : Sensible A) (hd : given .dryRun i.a2 = []) (hc : Commands i.a1 .chain .set) {x : Chain × Option HookOpts} (hx : Takes i.H i.a2 x) :
    Puts i x := by
  obtain ⟨t, cs, rs, s, k, h1, hl, h2, hp, _, hk, h3, h4⟩ := Takes.index (hS.text i hA) hx
  exact ⟨hd, checked_of h2 (by omega) hp (List.mem_of_getElem? hk), t, cs, s, h1, h2, h4, .inr ⟨hc, h3⟩⟩

theorem takes_load {i : Issued} (hA : A i) (hS : Sensible A) (hd : given .dryRun i.a2 = []) (hc : Commands i.a1 .chain .load ∨ Commands i.a1 .chain .update)
    {x : Chain × Option HookOpts} (hx : Takes i.H i.a2 x) : Loads i x.1 := by
  obtain ⟨t, cs, rs, s, k, h1, hl, h2, hp, _, hk, h3, h4⟩ := Takes.index (hS.text i hA) hx
  exact ⟨hd, checked_of h2 (by omega) hp (List.mem_of_getElem? hk), t, cs, s, x.2, h1, h2, h4, hc, h3⟩

theorem attaches_put {i : Issued} (hA : A i) {x : Chain × Option HookOpts} (hx : Puts i x) (ho : ∀ y, x.2 = some y → OptsOk y) : Pin.Attaches (wish A) x.1.name x.1 x.2 := fun y hy =>
  ⟨ho y hy, fun pt hpt => .put hA (by rw [← hy]; exact hx) hpt⟩

/-- What a command that says it succeeded reports. -/
def Reports (A : Issued → Prop) (i : Issued) (x : Object) (a : Action) (e : Ended) : Prop := ∀ out, e = .exits .ok out →
  (x = .chain → a = .get → ∃ c o k el, AskedFor A c ∧ Spec.named i.a2 = some c.name ∧ chainDump i.H.env.text c o k el = .ok out) ∧
  (x = .ruleset → a = .get → ∃ (cs : List Chain) (outs : List (List Char)), out = outs.flatten ∧
    Each (fun c t => AskedFor A c ∧ ∃ o k el, chainDump i.H.env.text c o k el = .ok t) cs outs)

theorem led_updateSetCmd (hA : A i) (hS : Sensible A) (hk : Kept i.a2 o) (hc : Commands i.a1 .chain .updateSet) (hn : Spec.named i.a2 = some n) {s : List Char} (hs : o.setName = some s)
    {ok : Ended → Prop} (hok : ∀ e, ok e) : (updateSetCmd i.H o n s).Led (wish A).want ok t := by
  unfold updateSetCmd
  split
  · exact hok _
  · refine Pin.Led.bind (Pin.Led.of_reads Pin.reads_chainGet) fun r t _ => led_after (fun e _ => hok e) fun g _ => ?_
    split
    · exact hok _
    · split
      · exact hok _
      · next dest _ =>
        refine led_after (fun e _ => hok e) fun d ed => ?_
        refine Pin.Led.bind (Pin.Led.of_fair (n := n) (fun S _ => Pin.within_chainUpdateSet (D := fun d => d = n) rfl)
          (Pin.fair_chainUpdateSet wish_copies ⟨i, hA, rfl⟩ fun c new hc' hp hu => ?_)) fun _ _ _ => hok _
        obtain ⟨as, rs, d1, d2, d3, d4, d5, d6, d7, d8, d9, d10⟩ := delta_spec ed
        rw [hk.add] at d1
        rw [hk.remove] at d2
        obtain ⟨c', j, old, es, k1, k2, k3, k4, k5, k6, k7, k8⟩ := changed_of hp hu d3 d9 d10
        have hnm : c'.name = n := by rw [Pin.chainCopy_name k1]; exact hc'.2
        have hask : AskedFor A new := by
          refine .changed hA (.again hc'.1 k1) ⟨hc, by rw [hn, hnm], s, by rw [← hk.setName, hs], j, old, as, rs, es, k2, ?_, ?_, k5, fun x => ?_, k7⟩
          · rw [← k3, d5]; exact d1
          · rw [← k4, d6]; exact d2
          · rw [k6, d7, d8, mem_addElems, mem_addElems]; simp
        have hpk := k8 (hS.sets _ hask)
        exact ⟨⟨hask, by rw [k7]; exact hnm⟩, hpk, fits_of (hS.printed i hA) hpk.lens.1 hpk.lens.2.2.1 hpk.built⟩

theorem led_runCmd (hA : A i) (hS : Sensible A) (hk : Kept i.a2 o) {x : Object} {a : Action} {u : Usage} (hc : Commands i.a1 x a) (hu : usage x a = some u) (hR : u.Right i.a2) :
    (runCmd i.H o x a).Led (wish A).want (Reports A i x a) t := by
  have hT : (wish A).target i.H.T := ⟨i, hA, rfl⟩
  have hfail : ∀ e, (∀ out, e ≠ .exits .ok out) → Reports A i x a e := fun e h out he => absurd he (h out)
  cases x <;> cases a
  all_goals first
    | cases hu; done
    | skip
  case ruleset.set =>
    show (rulesetSetCmd i.H o).Led _ _ t
    have hok : ∀ e, Reports A i .ruleset .set e := fun e out _ => ⟨fun h => (by cases h), fun _ h => by cases h⟩
    refine led_after (fun e _ => hok e) fun rs hrs => ?_
    split
    · exact hok _
    · next hd =>
      have hd : given .dryRun i.a2 = [] := by
        cases hg : given .dryRun i.a2 with
        | nil => rfl
        | cons x l => exact absurd (hk.dryRun.mpr (by rw [hg]; simp)) hd
      obtain ⟨tx, ht, hp⟩ := (rulesetSource_some hk (hR.source (by cases hu; rfl))).mp hrs
      obtain ⟨hl, cs, hw⟩ := hS.text i hA tx ht
      refine Pin.Led.bind (Pin.led_rulesetSet wish_copies hT fun x hx => ?_) fun _ _ _ => hok _
      obtain ⟨g1, g2, g3, g4⟩ := from_text hw hl hp hx
      obtain ⟨s, hs, hsay⟩ := each_mem (C45_read hw hp (read_small hw (by omega) hp)) hx
      have hput : Puts i x := ⟨hd, checked_of hw hl hp hx, tx, cs, s, ht, hw, hsay, .inl ⟨hc, hs⟩⟩
      exact ⟨⟨.put hA hput, rfl⟩, g1, g4 _ (hS.printed i hA), attaches_put hA hput g3⟩
  case ruleset.flush =>
    unfold runCmd Pin.rulesetFlush
    have hok : ∀ e, Reports A i .ruleset .flush e := fun e out _ => ⟨fun h => (by cases h), fun _ h => by cases h⟩
    refine Pin.Led.bind (ok := fun _ => True) (Pin.Led.bind (Pin.Led.of_reads (Pin.calls_try rfl)) fun r t _ => ?_) fun _ _ _ => hok _
    split
    · exact Pin.Led.of_tame Pin.tame_flushAll
    · trivial
  case ruleset.get =>
    show (rulesetGetCmd i.H o).Led _ _ t
    refine Pin.Led.bind (Pin.led_rulesetGet wish_copies) fun r t hr => led_after hfail fun gs eg => led_after hfail fun out ed => ?_
    cases eg
    injection ed with ed
    unfold rulesetDump at ed
    rw [if_neg (by simp)] at ed
    obtain ⟨outs, o1, rfl⟩ := catAll_zip ed
    intro out' he
    cases he
    refine ⟨fun h => (by cases h), fun _ _ => ⟨gs.map (·.chain), outs, rfl, ?_⟩⟩
    have hg := hr gs rfl
    clear ed hr
    induction o1 with
    | nil => exact .nil
    | @cons g t' gs outs h _ ih =>
      obtain ⟨n, h1, _⟩ := hg g List.mem_cons_self
      exact .cons ⟨h1, g.opts, _, _, h⟩ (ih fun g' hg' => hg g' (List.mem_cons_of_mem _ hg'))
  case chain.set =>
    have hok : ∀ e, Reports A i .chain .set e := fun e out _ => ⟨fun _ h => (by cases h), fun h => by cases h⟩
    refine led_chainCmd hk hok (hR.source (by cases hu; rfl)) fun hd y hy => ?_
    have hput := takes_put hA hS hd hc hy
    have hcp := Takes.canPut (hS.text i hA) (hS.printed i hA) hy
    exact Pin.Led.of_fair (n := y.1.name) (fun S _ => Pin.within_chainSet rfl) (Pin.fair_chainSet wish_copies ⟨.put hA hput, rfl⟩ hcp.packable hT hcp.fits (attaches_put hA hput hcp.opts))
  case chain.load =>
    have hok : ∀ e, Reports A i .chain .load e := fun e out _ => ⟨fun _ h => (by cases h), fun h => by cases h⟩
    refine led_chainCmd (act := fun c _ => Pin.chainLoad i.H.T c) hk hok (hR.source (by cases hu; rfl)) fun hd y hy => ?_
    have hput := takes_load hA hS hd (.inl hc) hy
    have hcp := Takes.canPut (hS.text i hA) (hS.printed i hA) hy
    exact Pin.Led.of_fair (n := y.1.name) (fun S _ => Pin.within_chainLoad rfl) (Pin.fair_chainLoad wish_copies ⟨.load hA hput, rfl⟩ hcp.packable hT hcp.fits)
  case chain.update =>
    have hok : ∀ e, Reports A i .chain .update e := fun e out _ => ⟨fun _ h => (by cases h), fun h => by cases h⟩
    refine led_chainCmd (act := fun c _ => Pin.chainUpdate i.H.T i.H.ncpu c) hk hok (hR.source (by cases hu; rfl)) fun hd y hy => ?_
    have hput := takes_load hA hS hd (.inr hc) hy
    have hcp := Takes.canPut (hS.text i hA) (hS.printed i hA) hy
    exact Pin.Led.of_fair (n := y.1.name) (fun S _ => Pin.within_chainUpdate rfl) (Pin.fair_chainUpdate wish_copies ⟨.load hA hput, rfl⟩ hcp.packable hT hcp.fits)
  case chain.get =>
    refine led_named hk hfail fun n h => ?_
    unfold chainGetCmd
    refine Pin.Led.bind (Pin.Led.of_fair (n := n) (fun S _ => Pin.within_chainGet (D := fun d => d = n) rfl) (Pin.fair_chainGet wish_copies)) fun r t hr =>
      led_after hfail fun g eg => led_after hfail fun out ed => ?_
    cases eg
    injection ed with ed
    obtain ⟨h1, h2⟩ := hr g rfl
    intro out' he
    cases he
    exact ⟨fun _ _ => ⟨g.chain, g.opts, _, _, h1, by rw [h, h2], ed⟩, fun h => by cases h⟩
  case chain.logs =>
    have hok : ∀ e, Reports A i .chain .logs e := fun e out _ => ⟨fun _ h => (by cases h), fun h => by cases h⟩
    exact led_named hk hfail fun n h => Pin.Led.mono (Pin.Led.of_reads reads_logsCmd) fun e _ => hok e
  case chain.attach =>
    have hok : ∀ e, Reports A i .chain .attach e := fun e out _ => ⟨fun _ h => (by cases h), fun h => by cases h⟩
    refine led_named (f := fun n => do let r ← Pin.chainAttach n o.hookopts; pure (ended r)) hk hfail fun n h => ?_
    have ho : OptsOk o.hookopts := parseOpts_ok hk.hookopts ⟨by decide, by decide, by decide, by decide⟩ fun x hx => .of (hS.options i hA x hx).2 (hS.options i hA x hx).1
    exact Pin.Led.bind (Pin.Led.of_fair (n := n) (fun S _ => Pin.within_chainAttach (D := fun d => d = n) rfl)
      (Pin.fair_chainAttach wish_copies ho fun c hc' pt hpt => by
        obtain ⟨h1, rfl⟩ := hc'
        exact .attach hA hc h hk.hookopts h1 hpt)) fun _ _ _ => hok _
  case chain.flush =>
    have hok : ∀ e, Reports A i .chain .flush e := fun e out _ => ⟨fun _ h => (by cases h), fun h => by cases h⟩
    exact led_named (f := fun n => do let r ← Pin.chainFlush n; pure (ended r)) hk hfail fun n h =>
      Pin.Led.bind (Pin.Led.of_fair (n := n) (fun S _ => Pin.within_chainFlush (D := fun d => d = n) rfl) (Pin.fair_chainFlush wish_copies)) fun _ _ _ => hok _
  case chain.updateSet =>
    have hok : ∀ e, Reports A i .chain .updateSet e := fun e out _ => ⟨fun _ h => (by cases h), fun h => by cases h⟩
    unfold runCmd
    refine led_named hk hfail fun n h => ?_
    split
    · exact hok _
    · next s hs => exact led_updateSetCmd hA hS hk hc h hs hok

theorem tame_sweepLoop : ∀ {ns : List String}, (sweepLoop ns).Calls Pin.Call.tame
  | [] => trivial
  | n :: ns => by
    unfold sweepLoop
    split
    · refine Pin.Calls.bind (Pin.calls_try rfl) fun r => ?_
      split
      · exact Pin.Calls.bind (Pin.calls_void rfl) fun _ => tame_sweepLoop
      · exact tame_sweepLoop
    · exact tame_sweepLoop

theorem tame_setup : ctxSetup.Calls Pin.Call.tame := by
  unfold ctxSetup sweep
  refine Pin.Calls.bind (Pin.calls_try rfl) fun r => ?_
  split
  · refine Pin.Calls.bind ?_ fun _ => trivial
    refine Pin.Calls.bind (Pin.calls_try rfl) fun r => ?_
    split
    · refine ⟨rfl, fun a => ?_⟩
      dsimp only
      split
      · exact tame_sweepLoop
      · exact trivial
    · exact trivial
  · exact trivial

theorem led_main (hA : A i) (hS : Sensible A) :
    (main i.H i.a1 i.a2 i.words).Led (wish A).want (fun e => Valid i.a1 i.a2 i.words → ∀ x a, Commands i.a1 x a → (usage x a).isSome → Reports A i x a e) t := by
  unfold main
  cases ho : optsParse i.a1 i.a2 i.words with
  | exit s =>
    intro hv
    obtain ⟨o, c, h⟩ := C51_taken hv
    rw [h] at ho
    cases ho
  | go p =>
    obtain ⟨o, c⟩ := p
    obtain ⟨hk, hn, _, u, hu, hR⟩ := C51_kept ho
    have key : ∀ t, (runCmd i.H o c.object c.action).Led (wish A).want (fun e => Valid i.a1 i.a2 i.words → ∀ x a, Commands i.a1 x a → (usage x a).isSome → Reports A i x a e) t := fun t =>
      Pin.Led.mono (led_runCmd hA hS hk hn hu hR) fun e he _ x a h1 h2 => by
        obtain ⟨rfl, rfl⟩ := Commands.unique h1 hn h2 (by rw [hu]; rfl)
        exact he
    dsimp only
    unfold mainCmd
    split
    · exact key _
    · refine Pin.Led.bind (Pin.Led.of_tame tame_setup) fun r _ _ => ?_
      split
      · exact key _
      · exact fun _ x a _ _ out he => by cases he
      · exact fun _ x a _ _ out he => by cases he

end Bf.Cli
