import Verif.Props.C56_Maps
import Verif.Props.C54_Sample
/-!
# C56: with the maps of the kernel, packets are decided as the text of a command says
-/
namespace Bf.Cli
open Spec
open Pin (K P)

variable {A : Issued → Prop} {env : TextEnv} {w w0 : K} {ps : List (Issued × P Ended)} {pt : Pin.Point} {p : Nat} {c : Chain}

theorem madeSet_elems {s : BSet} (es : List (List Byte)) (h : MadeSet s) : MadeSet { s with elems := es } := h

/-- What is asked for is as the API makes it. -/
theorem askedFor_made (h : AskedFor A c) : ApiChain c ∧ (∀ s ∈ c.sets, MadeSet s) ∧ ∀ r ∈ c.rules, ∀ m ∈ r.matchers, RefSized m := by
  induction h with
  | put _ hx => exact ⟨.new hx.2.1.new, hx.2.1.sets, hx.2.1.refs⟩
  | load _ hx => exact ⟨.new hx.2.1.new, hx.2.1.sets, hx.2.1.refs⟩
  | changed _ _ hc ih =>
    obtain ⟨_, _, sn, _, k, old, as, rs, es, ⟨g1, _⟩, _, _, _, _, rfl⟩ := hc
    refine ⟨.setElems es ih.1 g1, fun s hs => ?_, ih.2.2⟩
    rcases List.mem_or_eq_of_mem_set hs with h | rfl
    · exact ih.2.1 s h
    · exact madeSet_elems es (ih.2.1 old (List.mem_of_getElem? g1))
  | @again x x' _ hc ih =>
    have api := ApiChain.new hc
    unfold chainNew at hc
    split at hc
    · cases hc
    · obtain ⟨_, _, c3, c4, _⟩ := checkRules_list hc
      simp only [List.nil_append, List.length_nil, Nat.zero_add] at c3 c4
      refine ⟨api, by rw [c3]; exact ih.2.1, fun r hr => ?_⟩
      rw [c4] at hr
      obtain ⟨i, hi, rfl⟩ := List.mem_mapIdx.mp hr
      exact ih.2.2 x.rules[i] (List.getElem_mem hi)

theorem tells_text {i : Issued} {s : ChainS} (h : Tells i s) : ChainText s := by
  obtain ⟨_, t, cs, _, hw, h⟩ := h
  refine hw.2.1 s ?_
  rcases h with ⟨_, h⟩ | ⟨_, h⟩
  · exact h
  · exact picks_mem h

theorem stands_matchers {s : ChainS} (h : Stands A s) : ∀ sr ∈ s.rules, ∀ m ∈ sr.matchers, MatcherText m := by
  induction h with
  | told _ hs => exact fun sr hsr => ((tells_text hs).rules sr hsr).matchers
  | revised _ _ _ _ _ _ _ _ _ ih => exact ih

/-- A sentence whose sets have keys of 64 bytes at most, with less than 262144 sets and 2^28 rules. -/
structure Moderate (s : ChainS) : Prop where
  keys : KeysFit 64 s
  sets : s.sets.length + (inlineSets s.rules).length < 262144
  rules : s.rules.length < 268435456

theorem stands_moderate (ht : ∀ i s, A i → Tells i s → Moderate s) {s : ChainS} (h : Stands A s) : Moderate s := by
  have hb : s.sets.length + (inlineSets s.rules).length < 262144 ∧ s.rules.length < 268435456 := ?_
  · exact ⟨stands_keys (fun i s hi hs => (ht i s hi hs).keys) h, hb.1, hb.2⟩
  induction h with
  | told hi hs => exact ⟨(ht _ _ hi hs).sets, (ht _ _ hi hs).rules⟩
  | revised _ _ _ _ _ _ _ _ _ ih =>
    obtain ⟨h1, h2⟩ := ih
    exact ⟨by rw [List.length_set]; exact h1, h2⟩

/-- The program, that has these maps, does of every packet it can read what the sentence says. -/
def DoesOn (env : TextEnv) (s : ChainS) (w : K) (c : Chain) (img : List Insn) (M : Maps) : Prop :=
  ∀ base, base.flavor = c.hook.flavor → ∀ u, ∃ r u', Runs (onKernel w M base) img u r u' ∧
    (¬ Unreadable base c → (∀ sr ∈ s.rules, ∀ m ∈ sr.matchers, InScope (inputOf base c.hook) s.sets m) →
      (∃ v, Rules env (inputOf base c.hook) s.sets s.policy u.mark.toNat s.rules v) ∧
      ∀ v, Rules env (inputOf base c.hook) s.sets s.policy u.mark.toNat s.rules v → Obeys env base c.hook.flavor r v)

/-- ... of every socket operation. -/
def SockDoesOn (env : TextEnv) (s : ChainS) (w : K) (c : Chain) (img : List Insn) (M : Maps) : Prop :=
  ∀ base, base.flavor = c.hook.flavor → SockAbi base.sock → ∀ u, ∃ r u', Runs (onKernel w M base) img u r u' ∧
    ((∀ sr ∈ s.rules, ∀ m ∈ sr.matchers, SockInScope base.sock s.sets m) →
      (∃ v, SockRules base.sock s.sets s.policy u.mark.toNat s.rules v) ∧
      ∀ v, SockRules base.sock s.sets s.policy u.mark.toNat s.rules v → Obeys env base c.hook.flavor r v)

/-- ... of whatever arrives at its hook. -/
def DecidesOn (env : TextEnv) (s : ChainS) (w : K) (c : Chain) (img : List Insn) (M : Maps) : Prop :=
  (c.hook.flavor ≠ .sockAddr → DoesOn env s w c img M) ∧ (c.hook.flavor = .sockAddr → SockDoesOn env s w c img M)

/-- C56: on a machine where nothing was pinned, commands of `A` are given, together, whatever calls fail and whenever they are stopped.  Whatever program runs, at whatever point,
finds in the maps of the kernel what it needs, and does what a sentence says of every packet, or socket operation; the sentence is in the text of one of the commands, but for the elements of its sets,
changed as `update-set` commands say.  Nothing is supposed of the maps of the program, or of what is in them.
Missing: as C54; sentences are moderate, and there are less than 2^32 objects, so that descriptors fit in instructions. -/
theorem C56_decided_partial (hS : Sensible A) (h0 : NothingYet w0) (h : Moves A w0 [] w ps) (hl : w.objs.length + 2 < 4294967296) (he : ∀ i, A i → i.H.env.text = env)
    (hu : (∀ i, A i → ¬ Commands i.a1 .chain .updateSet) ∨ (∀ i, A i → ∀ t ∈ given .add i.a2, PlainElem t) ∧ ∀ s, Stands A s → ∀ d ∈ s.sets, elemTexts d.payload ≠ [])
    (hm : ∀ i s, A i → Tells i s → Moderate s) (hr : w.runs pt p) :
    ∃ i s c img M, A i ∧ Stands A s ∧ s.hook = (Doc.hook c.hook).toList ∧ AskedAt A (String.ofList s.name) pt ∧ w.objs[p]? = some (.prog c img M.counters) ∧
      HasMaps w i.H.T.thr i.H.T.slen c img M ∧ DecidesOn env s w c img M := by
  obtain ⟨i, c, img, M, hi, h1, h2, h3, h4⟩ := C56_maps hS h0 h hl hr
  obtain ⟨s, rate, o, g1, g2, g3, g4⟩ := said_of he hu h1
  obtain ⟨api, m1, m2⟩ := askedFor_made h1
  have mod := stands_moderate hm g1
  have hname : c.name = String.ofList s.name := g2.name
  refine ⟨i, s, c, img, M, hi, g1, g2.hook, by rw [← hname]; exact h2, h3, h4, ?_⟩
  obtain ⟨decl, inl, e1, e2, _, e3⟩ := g2.sets
  have e1 : c.sets = decl ++ inl := e1
  have hmw : ∀ r ∈ c.rules, ∀ m ∈ r.matchers, MatcherWf m := fun r hr m hmm => by
    obtain ⟨sr, hsr, k1⟩ := each_mem g2.rules hr
    obtain ⟨x, hx, k2⟩ := each_mem k1.matchers hmm
    exact (matcher_wf (stands_matchers g1 sr hsr x hx) (m2 r hr m hmm) k2).1
  have hsw : SetsWf c.sets := by
    refine ⟨fun x hx => ?_, ?_⟩
    · have hx' := hx
      rw [e1] at hx'
      rcases List.mem_append.mp hx' with h | h
      · obtain ⟨d, hd, k⟩ := each_mem e2 h
        exact set_wf (m1 x hx) k (mod.keys d.key (.inl ⟨d, hd, rfl⟩) _ k.2.1)
      · obtain ⟨d, hd, k⟩ := each_mem e3 h
        exact set_wf (m1 x hx) k (mod.keys d.1 (.inr ⟨d, hd, rfl⟩) _ k.2.1)
    · have := mod.sets
      rw [e1, List.length_append, ← each_length e2, ← each_length e3]
      exact this
  have hlen : c.rules.length = s.rules.length := (each_length g2.rules).symm
  refine ⟨fun hf base hb u => ?_, fun hf base hb hs u => ?_⟩
  · have hload := h4.loaded (base := base) api hmw hsw (by rw [hlen]; exact mod.rules) hb fun h => absurd h hf
    exact doesAs_of g2 g3 g4 hf _ _ (onKernel w M base) hload u
  · have hload := h4.loaded (base := base) api hmw hsw (by rw [hlen]; exact mod.rules) hb fun _ => hs
    exact sockDoesAs_of g2 g3 g4 hf _ _ (onKernel w M base) hload u

end Bf.Cli
