import Verif.Exec.Main4
import Verif.Spec.Sim
/-!
# A chain's program, loaded and run

The setting of the properties about filtering.  `IsLoaded` says what it is for a program to be that of a
chain, `Runs` what it is to run it on a packet or a socket operation.  `program_ok` is the theorem all
properties about filtering derive from.
-/
namespace Bf

/-- The image `img` is the program of a chain, in an environment providing what the chain was loaded
with (its maps, the right kind of hook). -/
structure IsLoaded (E : Env) (chain : Chain) (thr : Nat → BitVec 32) (img : List Insn) : Prop where
  /-- the chain was built through the API -/
  api : ApiChain chain
  /-- its matchers have an operator their type supports, and a payload of the right size -/
  matchers : ∀ r ∈ chain.rules, ∀ m ∈ r.matchers, MatcherWf m
  /-- its sets have elements of the right size -/
  sets : SetsWf chain.sets
  /-- `img` is what the chain compiles to -/
  prog : ∃ (slen : Stub → Nat) (M : MapFds), compile chain thr slen M = .ok img ∧ FdsOk E M (buildGroups chain.sets)
  /-- the environment has the chain's maps -/
  env : EnvOk E ⟨chain, buildGroups chain.sets, thr⟩

/-- Run from state `w`, the program ends, after at most as many steps as it has instructions, without
any invalid access, returning `r` and leaving state `w'`. -/
def Runs (E : Env) (img : List Insn) (w : World) (r : BitVec 64) (w' : World) : Prop :=
  ∀ fuel, img.length ≤ fuel → run E img fuel 0 (initSt E w) = .exit r w'

theorem Runs.unique {E : Env} {img : List Insn} {w w1 w2 : World} {r1 r2 : BitVec 64}
    (h1 : Runs E img w r1 w1) (h2 : Runs E img w r2 w2) : r1 = r2 ∧ w1 = w2 := by
  have a := h1 _ (Nat.le_refl _)
  have b := h2 _ (Nat.le_refl _)
  rw [a] at b
  cases b
  exact ⟨rfl, rfl⟩

/-- The packet can't be read by the program of a chain: the kernel does not give access to its bytes, or
a header it announces is truncated. -/
def Unreadable (E : Env) (chain : Chain) : Prop :=
  chain.hook.flavor ≠ .sockAddr ∧ Spec.understand (Spec.inputOf E chain.hook) chain.flagNexthdr = none

/-- What the program of a chain sees of what arrives at its hook. -/
inductive Sees (E : Env) (chain : Chain) (thr : Nat → BitVec 32) : Spec.Sem → Prop
  | packet {v : Spec.View} {cap : Spec.Capture} : chain.hook.flavor ≠ .sockAddr →
      Spec.understand (Spec.inputOf E chain.hook) chain.flagNexthdr = some v →
      CaptureOk E (Spec.inputOf E chain.hook) v cap →
      Sees E chain thr (Spec.pktSem chain.hook.flavor (Spec.inputOf E chain.hook) v (kernelOf E) chain.sets thr cap)
  | sock : chain.hook.flavor = .sockAddr →
      Sees E chain thr (Spec.sockSem chain.hook (Spec.sockView E.sock) (kernelOf E) chain.sets thr)

variable {E : Env} {chain : Chain} {thr : Nat → BitVec 32} {img : List Insn} {w w' : World} {r : BitVec 64}

theorem IsLoaded.cfg (h : IsLoaded E chain thr img) : CfgOk ⟨chain, buildGroups chain.sets, thr⟩ :=
  ⟨h.api.ok, h.sets, h.matchers, rfl⟩

/-- What a program does, as a property of its code. -/
def Outcome (E : Env) (chain : Chain) (thr : Nat → BitVec 32) (w : World) (r : BitVec 64) (w' : World) : Prop :=
  (Unreadable E chain ∧ (r, w') = Spec.evalError chain.hook.flavor (Spec.inputOf E chain.hook).size chain.rules.length w) ∨
  ∃ c, Sees E chain thr c ∧ Spec.Decides c chain.policy chain.rules w r w'

theorem genMain_ok (h : IsLoaded E chain thr img) :
    GenN (FixOk ⟨chain, buildGroups chain.sets, thr⟩) (genMain ⟨chain, buildGroups chain.sets, thr⟩) (fun _ x =>
      0 < x.length ∧ ∀ w, wp E (buildGroups chain.sets) x 0 ⟨fun _ => False, fun _ => False, Outcome E chain thr w⟩
        (initSt E w)) := by
  by_cases hfl : chain.hook.flavor = .sockAddr
  · refine GenN.mono (genMain_sock h.env h.cfg hfl) (fun _ h => h) fun _ x hx => ⟨hx.1, fun w => ?_⟩
    refine wp_mono (hx.2 w) (fun _ h => h) (fun _ h => h) fun r w' e => Or.inr ⟨_, .sock hfl, ?_⟩
    exact Spec.decides_iff.mpr e.symm
  · refine GenN.mono (genMain_pkt h.env h.cfg hfl) (fun _ h => h) fun _ x hx => ⟨hx.1, fun w => ?_⟩
    refine wp_mono (hx.2 w) (fun _ h => h) (fun _ h => h) fun r w' ⟨capture, hc, e⟩ => ?_
    unfold Spec.evalPacket at e
    cases hv : Spec.understand (Spec.inputOf E chain.hook) chain.flagNexthdr with
    | none =>
      rw [hv] at e
      exact Or.inl ⟨⟨hfl, hv⟩, e⟩
    | some v =>
      rw [hv] at e
      exact Or.inr ⟨_, .packet hfl hv (hc v hv), Spec.decides_iff.mpr e.symm⟩

/-- **The program of a chain does what the chain specifies**: on every packet or socket operation and in
every state it ends, and either the packet can't be read and the program does what is specified then,
or the rules and the policy decide as specified. -/
theorem program_ok (h : IsLoaded E chain thr img) (w : World) :
    ∃ r w', Runs E img w r w' ∧ Outcome E chain thr w r w' := by
  obtain ⟨slen, M, hc, hfd⟩ := h.prog
  obtain ⟨f, hf, hres, _, hlen⟩ := loaded hc (genMain_ok h) h.api.ok.rate
  rcases wp_run (hf w) with ⟨_, _, hx⟩ | ⟨_, _, hx⟩ | ⟨r, w', hr, hx⟩
  · exact hx.elim
  · exact hx.elim
  · refine ⟨r, w', fun fuel hfuel => ?_, hx⟩
    exact run_of_runT hfd [] f hres 0 _ r w' hr fuel (by omega)

/-- The outcome of a run. -/
theorem IsLoaded.outcome (h : IsLoaded E chain thr img) (hr : Runs E img w r w') : Outcome E chain thr w r w' := by
  obtain ⟨r1, w1, h1, h2⟩ := program_ok h w
  obtain ⟨rfl, rfl⟩ := hr.unique h1
  exact h2

theorem Sees.readable {c : Spec.Sem} (h : Sees E chain thr c) : ¬ Unreadable E chain := by
  rintro ⟨h1, h2⟩
  cases h with
  | packet _ hv _ => rw [h2] at hv; cases hv
  | sock hf => exact h1 hf

/-- Everything a program sees is determined, except what it captures for the log. -/
theorem Sees.alike {c c' : Spec.Sem} (h : Sees E chain thr c) (h' : Sees E chain thr c') : Spec.Alike c c' := by
  cases h with
  | packet h1 h2 _ =>
    cases h' with
    | packet _ h4 _ =>
      rw [h2] at h4
      cases h4
      exact ⟨rfl, rfl, rfl, rfl, rfl, rfl⟩
    | sock h3 => exact absurd h3 h1
  | sock h1 =>
    cases h' with
    | packet h3 _ _ => exact absurd h1 h3
    | sock _ => exact ⟨rfl, rfl, rfl, rfl, rfl, rfl⟩

theorem Sees.flavor {c : Spec.Sem} (h : Sees E chain thr c) : c.flavor = chain.hook.flavor := by cases h <;> rfl
theorem Sees.kernel {c : Spec.Sem} (h : Sees E chain thr c) : c.kernel = kernelOf E := by cases h <;> rfl
theorem Sees.sets {c : Spec.Sem} (h : Sees E chain thr c) : c.sets = chain.sets := by cases h <;> rfl

/-- A packet is unreadable, or seen. -/
theorem unreadable_or_sees (E : Env) (chain : Chain) (thr : Nat → BitVec 32) :
    Unreadable E chain ∨ ∃ c, Sees E chain thr c := by
  by_cases hf : chain.hook.flavor = .sockAddr
  · exact Or.inr ⟨_, .sock hf⟩
  · cases hv : Spec.understand (Spec.inputOf E chain.hook) chain.flagNexthdr with
    | none => exact Or.inl ⟨hf, hv⟩
    | some v =>
      refine Or.inr ⟨_, .packet (cap := ⟨some (E.pkt.take 14), v.l3.map (·.2), v.l4.map (·.2)⟩) hf hv ⟨?_, ?_, ?_⟩⟩
      · intro _ _; rfl
      · intro n h e; rw [e]; rfl
      · intro n h e; rw [e]; rfl

/-- The outcome of a run, for what the program sees; log entries aside. -/
theorem IsLoaded.course (h : IsLoaded E chain thr img) (hr : Runs E img w r w') {c : Spec.Sem} (hc : Sees E chain thr c) :
    ∃ logs, Spec.Decides c chain.policy chain.rules w r { w' with logs := logs } := by
  rcases h.outcome hr with ⟨hu, _⟩ | ⟨c', hc', hd⟩
  · exact absurd hu hc.readable
  · have e := Spec.decides_iff.mp hd
    obtain ⟨e1, e2⟩ := (hc.alike hc').evalView chain.policy chain.rules w
    rw [e] at e1 e2
    refine ⟨(Spec.evalView c chain.policy chain.rules w).2.logs, Spec.decides_iff.mpr ?_⟩
    rw [e2, show r = _ from e1]

/-! ### Loading a chain -/

/-- Distinct file descriptors. -/
def stdFds : MapFds := ⟨1, 2, 3, fun g => BitVec.ofNat 32 (g + 4)⟩

/-- Content of the map of a group. -/
def setLookupOf (sets : List BSet) (g : Nat) (k : List Byte) : Option (List Byte) :=
  match (buildGroups sets)[g]? with
  | none => none
  | some grp => match groupHead sets grp with
    | none => none
    | some h => if h.useTrie then lpmLookup (groupEntries sets grp) k else hashLookup (groupEntries sets grp) k

/-- The environment in which a chain has been loaded: `base` gives what arrives and the kernel's
services. -/
def envOf (base : Env) (chain : Chain) : Env :=
  { base with
    flavor := chain.hook.flavor
    nCounters := chain.rules.length + 2
    nState := chain.rules.length
    setKeySize := fun g => (((buildGroups chain.sets)[g]?.bind (groupHead chain.sets)).map (·.elemSize)).getD 0
    setLookup := setLookupOf chain.sets
    fds := fun fd => if fd = 1 then some .counters else if fd = 2 then some .log else if fd = 3 then some .state
      else some (.set (fd.toNat - 4)) }

theorem findGroup_lt {gs : Groups} {i g : Nat} (h : findGroup gs i = some g) : g < gs.length := by
  unfold findGroup at h
  exact (List.findIdx?_eq_some_iff_getElem.mp h).1

theorem FdsOk.std {base : Env} {chain : Chain} (hs : (buildGroups chain.sets).length < 4294967292) :
    FdsOk (envOf base chain) stdFds (buildGroups chain.sets) := by
  intro ty fd h
  cases ty with
  | cmap => cases h; rfl
  | lmap => cases h; rfl
  | smap => cases h; rfl
  | setMap i =>
    simp only [MapFds.fd] at h
    simp only [mapOf]
    cases hg : findGroup (buildGroups chain.sets) i with
    | none => rw [hg] at h; cases h
    | some g =>
      rw [hg] at h
      have hl := findGroup_lt hg
      cases h
      have e : (BitVec.ofNat 32 (g + 4)).toNat = g + 4 := by rw [BitVec.toNat_ofNat]; omega
      have ne : ∀ n : BitVec 32, n.toNat < 4 → BitVec.ofNat 32 (g + 4) ≠ n := by
        intro n hn h
        rw [← h, e] at hn
        omega
      simp only [envOf, stdFds]
      rw [if_neg (ne 1 (by decide)), if_neg (ne 2 (by decide)), if_neg (ne 3 (by decide)), e]
      simp
  | _ => simp [MapFds.fd] at h

/-- Every compiled chain has an environment in which it is loaded. -/
theorem IsLoaded.of_compile {base : Env} {chain : Chain} {thr : Nat → BitVec 32} {slen : Stub → Nat} {img : List Insn}
    (api : ApiChain chain) (hm : ∀ r ∈ chain.rules, ∀ m ∈ r.matchers, MatcherWf m) (hs : SetsWf chain.sets)
    (hr : chain.rules.length < 268435456) (hg : (buildGroups chain.sets).length < 4294967292)
    (hsock : chain.hook.flavor = .sockAddr → Spec.SockAbi base.sock)
    (hc : compile chain thr slen stdFds = .ok img) : IsLoaded (envOf base chain) chain thr img where
  api := api
  matchers := hm
  sets := hs
  prog := ⟨slen, stdFds, hc, FdsOk.std hg⟩
  env := {
    flavor := rfl
    counters := rfl
    state := rfl
    few := hr
    sock := hsock
    sets := by
      intro g grp h h1 h2
      refine ⟨?_, fun k _ => ?_⟩
      · simp only [envOf]
        have h1 : (buildGroups chain.sets)[g]? = some grp := h1
        have h2 : groupHead chain.sets grp = some h := h2
        rw [h1]
        simp [h2]
      · simp only [envOf, setLookupOf]
        have h1 : (buildGroups chain.sets)[g]? = some grp := h1
        have h2 : groupHead chain.sets grp = some h := h2
        rw [h1]
        simp only [h2] }

end Bf
