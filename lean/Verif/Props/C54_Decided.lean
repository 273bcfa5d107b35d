import Verif.Props.C54_Texts
import Verif.Props.C49_Sock
/-!
# C54: at every instant, packets are decided as the text of a command says

C53 and C49 together: whatever commands were given, whatever failed and whenever they were stopped, whatever program runs does what a text says.
-/
namespace Bf.Cli
open Spec
open Pin (K P)

variable {A : Issued → Prop} {env : TextEnv} {w w0 : K} {ps : List (Issued × P Ended)} {pt : Pin.Point} {p : Nat}

/-- The program does, of every packet it can read, what the sentence says.  The packet is one for which the texts of the matchers mean what they say (C49). -/
def DoesAs (env : TextEnv) (s : ChainS) (c : Chain) (thr : Nat → BitVec 32) (img : List Insn) : Prop :=
  ∀ E, IsLoaded E c thr img → ∀ u, ∃ r u', Runs E img u r u' ∧ (¬ Unreadable E c → (∀ sr ∈ s.rules, ∀ m ∈ sr.matchers, InScope (inputOf E c.hook) s.sets m) →
    (∃ v, Rules env (inputOf E c.hook) s.sets s.policy u.mark.toNat s.rules v) ∧
    ∀ v, Rules env (inputOf E c.hook) s.sets s.policy u.mark.toNat s.rules v → Obeys env E c.hook.flavor r v)

theorem doesAs_of {rate : List Char → Option Nat} {s : ChainS} {c : Chain} {o : Option HookOpts} (h : ChainSays env rate s (c, o)) (hv : ∀ sr ∈ s.rules, VerdictText sr.verdict)
    (hb : ∀ q ∈ c.rules, q.disabled = true → Inert c.sets q) (hf : c.hook.flavor ≠ .sockAddr) (thr : Nat → BitVec 32) (img : List Insn) : DoesAs env s c thr img := by
  intro E hl u
  obtain ⟨r, u', hr⟩ := C01_returns hl u
  refine ⟨r, u', hr, fun hu hsc => ?_⟩
  have hd : SetsAre env s.sets c.sets := by
    obtain ⟨decl, inl, e1, e2, _, e3⟩ := h.sets
    refine ⟨decl, inl, e1, e2, fun x hx => ?_⟩
    obtain ⟨_, _, h⟩ := each_mem e3 hx
    exact h.1
  obtain ⟨v, h1, h2⟩ := decides_says hd h.rules h.policy h.terminal hv hb hl hf hr hu hsc
  exact ⟨⟨v, h1⟩, fun v' h' => by rw [C49_one h' h1]; exact h2⟩

/-- The program does, of every socket operation, what the sentence says. -/
def SockDoesAs (env : TextEnv) (s : ChainS) (c : Chain) (thr : Nat → BitVec 32) (img : List Insn) : Prop :=
  ∀ E, IsLoaded E c thr img → ∀ u, ∃ r u', Runs E img u r u' ∧ ((∀ sr ∈ s.rules, ∀ m ∈ sr.matchers, SockInScope E.sock s.sets m) →
    (∃ v, SockRules E.sock s.sets s.policy u.mark.toNat s.rules v) ∧
    ∀ v, SockRules E.sock s.sets s.policy u.mark.toNat s.rules v → Obeys env E c.hook.flavor r v)

theorem sockDoesAs_of {rate : List Char → Option Nat} {s : ChainS} {c : Chain} {o : Option HookOpts} (h : ChainSays env rate s (c, o)) (hv : ∀ sr ∈ s.rules, VerdictText sr.verdict)
    (hb : ∀ q ∈ c.rules, q.disabled = true → Inert c.sets q) (hf : c.hook.flavor = .sockAddr) (thr : Nat → BitVec 32) (img : List Insn) : SockDoesAs env s c thr img := by
  intro E hl u
  obtain ⟨r, u', hr⟩ := C01_returns hl u
  refine ⟨r, u', hr, fun hsc => ?_⟩
  have hd : SetsAre env s.sets c.sets := by
    obtain ⟨decl, inl, e1, e2, _, e3⟩ := h.sets
    refine ⟨decl, inl, e1, e2, fun x hx => ?_⟩
    obtain ⟨_, _, h⟩ := each_mem e3 hx
    exact h.1
  obtain ⟨v, h1, h2⟩ := sock_decides_says hd h.rules h.policy h.terminal hv hb hl hf hr hsc
  exact ⟨⟨v, h1⟩, fun v' h' => by rw [rulesBy_one h' h1]; exact h2⟩

/-- The program does, of whatever arrives at its hook, what the sentence says. -/
def Decides (env : TextEnv) (s : ChainS) (c : Chain) (thr : Nat → BitVec 32) (img : List Insn) : Prop :=
  (c.hook.flavor ≠ .sockAddr → DoesAs env s c thr img) ∧ (c.hook.flavor = .sockAddr → SockDoesAs env s c thr img)

/-- C54: on a machine where nothing was pinned, commands of `A` are given, together, whatever calls fail and whenever they are stopped.  Whatever program runs, at whatever point,
does what a sentence says of every packet, or socket operation; the sentence is in the text of one of the commands, but for the elements of its sets, changed as `update-set` commands say; it is about
this hook, and the commands asked for the chain of that name to be attached there.
Missing: packets and socket operations out of the scope of C49.  An `update-set` of a set that was empty does not make its rules active (finding 2): no set may be empty if there are such
commands. -/
theorem C54_decided_partial (hS : Sensible A) (h0 : NothingYet w0) (h : Moves A w0 [] w ps) (he : ∀ i, A i → i.H.env.text = env)
    (hu : (∀ i, A i → ¬ Commands i.a1 .chain .updateSet) ∨ (∀ i, A i → ∀ t ∈ given .add i.a2, PlainElem t) ∧ ∀ s, Stands A s → ∀ d ∈ s.sets, elemTexts d.payload ≠ [])
    (hr : w.runs pt p) :
    ∃ i s c img m, A i ∧ Stands A s ∧ s.hook = (Doc.hook c.hook).toList ∧ AskedAt A (String.ofList s.name) pt ∧ w.objs[p]? = some (.prog c img m) ∧
      Decides env s c i.H.T.thr img := by
  obtain ⟨i, c, hi, h1, h2, img, m, M, h3, _⟩ := C53_runs hS h0 h hr
  obtain ⟨s, rate, o, g1, g2, g3, g4⟩ := said_of he hu h1
  refine ⟨i, s, c, img, m, hi, g1, g2.hook, ?_, h3, fun hf => doesAs_of g2 g3 g4 hf _ _, fun hf => sockDoesAs_of g2 g3 g4 hf _ _⟩
  have : c.name = String.ofList s.name := g2.name
  rw [← this]
  exact h2

/-- Without `update-set`, sentences stand as they were told. -/
theorem stands_told (hn : ∀ i, A i → ¬ Commands i.a1 .chain .updateSet) {s : ChainS} (h : Stands A s) : ∃ i, A i ∧ Tells i s := by
  cases h with
  | told hi ht => exact ⟨_, hi, ht⟩
  | revised hi _ hc => exact absurd hc (hn _ hi)

/-- C54, without `update-set`: what decides is, word for word, a sentence of the text of one of the commands. -/
theorem C54_told_partial (hS : Sensible A) (h0 : NothingYet w0) (h : Moves A w0 [] w ps) (he : ∀ i, A i → i.H.env.text = env) (hn : ∀ i, A i → ¬ Commands i.a1 .chain .updateSet)
    (hr : w.runs pt p) :
    ∃ i j s c img m, A i ∧ A j ∧ Tells j s ∧ s.hook = (Doc.hook c.hook).toList ∧ AskedAt A (String.ofList s.name) pt ∧ w.objs[p]? = some (.prog c img m) ∧
      Decides env s c i.H.T.thr img := by
  obtain ⟨i, s, c, img, m, h1, h2, h3⟩ := C54_decided_partial hS h0 h he (.inl hn) hr
  obtain ⟨j, hj, ht⟩ := stands_told hn h2
  exact ⟨i, j, s, c, img, m, h1, hj, ht, h3⟩

/-- C54, for commands one after the other. -/
theorem C54_history_partial {is : List Issued} (hS : Sensible (· ∈ is)) (h0 : NothingYet w0) (h : Issue w0 is w) (he : ∀ i ∈ is, i.H.env.text = env)
    (hn : ∀ i ∈ is, ¬ Commands i.a1 .chain .updateSet) (hr : w.runs pt p) :
    ∃ i ∈ is, ∃ j ∈ is, ∃ s c img m, Tells j s ∧ s.hook = (Doc.hook c.hook).toList ∧ AskedAt (· ∈ is) (String.ofList s.name) pt ∧ w.objs[p]? = some (.prog c img m) ∧
      Decides env s c i.H.T.thr img := by
  obtain ⟨i, j, s, c, img, m, h1, h2, h3⟩ := C54_told_partial hS h0 (issue_moves h fun _ h => h) he hn hr
  exact ⟨i, h1, j, h2, s, c, img, m, h3⟩

/-- If nothing is ever removed from sets that are written with an element, no set is empty. -/
theorem stands_some (ht : ∀ i s, A i → Tells i s → ∀ d ∈ s.sets, elemTexts d.payload ≠ []) (hr : ∀ i, A i → given .remove i.a2 = []) {s : ChainS} (h : Stands A s) :
    ∀ d ∈ s.sets, elemTexts d.payload ≠ [] := by
  induction h with
  | told hi hs => exact ht _ _ hi hs
  | @revised i s k d key p hi _ _ _ _ hk _ _ hv ih =>
    intro d' hd'
    rcases List.mem_or_eq_of_mem_set hd' with h | rfl
    · exact ih d' h
    · have hd := ih d (List.mem_of_getElem? hk)
      cases ht : elemTexts d.payload with
      | nil => exact absurd ht hd
      | cons t l =>
        rcases hv.kept t (.inl (by rw [ht]; exact List.mem_cons_self)) with ⟨r, hr', _⟩ | ⟨t', h', _⟩
        · rw [hr i hi] at hr'; cases hr'
        · exact fun he => by
            have he : elemTexts p = [] := he
            rw [he] at h'; cases h'

end Bf.Cli
