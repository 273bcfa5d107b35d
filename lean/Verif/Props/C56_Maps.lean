import Verif.Cgen.BindsMoves
import Verif.Props.C53_History
import Verif.Props.Program
/-!
# C56: the maps of a program that runs are those of its chain
-/
namespace Bf

/-! ### Descriptors that are not needed do not matter -/

theorem fixVal_congr {F F' : FixEnv} (hs : F.stubLoc = F'.stubLoc) {n : Nat} {f : Fixup} {i : Insn} (h : F.fd f.ty = F'.fd f.ty) : fixVal F n f i = fixVal F' n f i := by
  unfold fixVal
  split
  · rfl
  · rw [hs]
  · rw [h]

theorem fixupLoop_congr {F F' : FixEnv} (hs : F.stubLoc = F'.stubLoc) {sel : FixTy → Bool} (h : ∀ ty, sel ty = true → F.fd ty = F'.fd ty) :
    ∀ (fs : List Fixup) (img : List Insn), fixupLoop F sel fs img = fixupLoop F' sel fs img
  | [], _ => rfl
  | f :: fs, img => by
    unfold fixupLoop
    split
    · next hf =>
      have : fixOne F img f = fixOne F' img f := by
        unfold fixOne
        split
        · rfl
        · rw [fixVal_congr hs (h _ hf)]
      rw [this]
      congr 1
      funext img'
      exact fixupLoop_congr hs h fs img'
    · rw [fixupLoop_congr hs h fs img]

theorem fixup_congr {F F' : FixEnv} (hs : F.stubLoc = F'.stubLoc) {sel : FixTy → Bool} (h : ∀ ty, sel ty = true → F.fd ty = F'.fd ty) (p : Prog) : fixup F sel p = fixup F' sel p := by
  unfold fixup
  rw [fixupLoop_congr hs h]

theorem compile_congr {c : Chain} {thr : Nat → BitVec 32} {slen : Stub → Nat} {M M' : MapFds} (h1 : M.counters = M'.counters) (h2 : c.flagLog = true → M.log = M'.log)
    (h3 : c.flagRate = true ∧ c.rules ≠ [] → M.state = M'.state) (h4 : ∀ g < (buildGroups c.sets).length, M.set g = M'.set g) : compile c thr slen M = compile c thr slen M' := by
  unfold compile
  dsimp only
  congr 1
  funext p
  unfold loadFixups
  dsimp only
  rw [fixup_congr (F := ⟨M.fd (buildGroups c.sets), fun _ => 0⟩) (F' := ⟨M'.fd (buildGroups c.sets), fun _ => 0⟩) rfl (fun ty hty => ?_)]
  · congr 1
    funext r1
    rw [fixup_congr (F := ⟨M.fd (buildGroups c.sets), fun _ => 0⟩) (F' := ⟨M'.fd (buildGroups c.sets), fun _ => 0⟩) rfl (fun ty hty => ?_)]
    · congr 1
      funext r2
      have e3 : (if c.flagLog = true then fixup ⟨M.fd (buildGroups c.sets), fun _ => 0⟩ (· == .lmap) r2.2 else .ok r2) =
          (if c.flagLog = true then fixup ⟨M'.fd (buildGroups c.sets), fun _ => 0⟩ (· == .lmap) r2.2 else .ok r2) := by
        split
        · next h =>
          refine fixup_congr (F := ⟨M.fd (buildGroups c.sets), fun _ => 0⟩) (F' := ⟨M'.fd (buildGroups c.sets), fun _ => 0⟩) (sel := (· == .lmap)) rfl (fun ty hty => ?_) _
          have hty : ty = .lmap := by simpa using hty
          subst hty
          simp [MapFds.fd, h2 h]
        · rfl
      rw [e3]
      congr 1
      funext r3
      have e4 : (if c.flagRate = true ∧ c.rules ≠ [] then fixup ⟨M.fd (buildGroups c.sets), fun _ => 0⟩ (· == .smap) r3.2 else .ok r3) =
          (if c.flagRate = true ∧ c.rules ≠ [] then fixup ⟨M'.fd (buildGroups c.sets), fun _ => 0⟩ (· == .smap) r3.2 else .ok r3) := by
        split
        · next h =>
          refine fixup_congr (F := ⟨M.fd (buildGroups c.sets), fun _ => 0⟩) (F' := ⟨M'.fd (buildGroups c.sets), fun _ => 0⟩) (sel := (· == .smap)) rfl (fun ty hty => ?_) _
          have hty : ty = .smap := by simpa using hty
          subst hty
          simp [MapFds.fd, h3 h]
        · rfl
      rw [e4]
    · have hty : ty = .cmap := by simpa using hty
      subst hty
      simp [MapFds.fd, h1]
  · cases ty with
    | setMap i =>
      simp only [MapFds.fd]
      split
      · next g hg => rw [h4 g (findGroup_lt hg)]
      · rfl
    | _ => cases hty

end Bf

namespace Bf.Spec
open Pin (K)

/-! ### A program with its maps is loaded -/

theorem findIdx_nodup {l : List Nat} (hn : l.Nodup) {g o : Nat} (h : l[g]? = some o) : l.findIdx? (fun x => decide (x = o)) = some g := by
  rw [List.findIdx?_eq_some_iff_getElem]
  obtain ⟨hg, e⟩ := List.getElem?_eq_some_iff.mp h
  refine ⟨hg, by simp [e], fun j hj => ?_⟩
  have hj' : j < l.length := by omega
  simp only [decide_eq_true_eq]
  intro e'
  exact absurd (e'.trans e.symm) (List.pairwise_iff_getElem.mp hn j g hj' hg hj)

theorem HasMaps.fds {w : K} {thr : Nat → BitVec 32} {slen : Stub → Nat} {c : Chain} {img : List Insn} {M : Maps} (h : HasMaps w thr slen c img M) {base : Env} :
    FdsOk (onKernel w M base) M.fds (buildGroups c.sets) := by
  have hd := h.distinct
  unfold Maps.all at hd
  simp only [List.nodup_cons, List.mem_cons, not_or] at hd
  obtain ⟨⟨d1, d2, d3⟩, ⟨d4, d5⟩, d6, d7⟩ := hd
  have fit : ∀ o ∈ M.all, (BitVec.ofNat 32 o).toNat = o := fun o ho => by rw [BitVec.toNat_ofNat]; exact Nat.mod_eq_of_lt (h.fit o ho)
  have f1 := fit M.counters (by simp [Maps.all])
  have f2 := fit M.log (by simp [Maps.all])
  have f3 := fit M.state (by simp [Maps.all])
  intro ty fd hf
  cases ty with
  | cmap => cases hf; simp [onKernel, Maps.named, Maps.fds, f1, mapOf]
  | lmap => cases hf; simp [onKernel, Maps.named, Maps.fds, f2, mapOf, Ne.symm d1]
  | smap => cases hf; simp [onKernel, Maps.named, Maps.fds, f3, mapOf, Ne.symm d2, Ne.symm d4]
  | setMap i =>
    simp only [MapFds.fd] at hf
    simp only [mapOf]
    cases hg : findGroup (buildGroups c.sets) i with
    | none => rw [hg] at hf; cases hf
    | some g =>
      rw [hg] at hf
      have hl : g < M.sets.length := by rw [h.groups]; exact findGroup_lt hg
      cases hf
      have e : M.sets[g]? = some M.sets[g] := List.getElem?_eq_getElem hl
      have hm : M.sets[g] ∈ M.sets := List.getElem_mem hl
      have f4 := fit M.sets[g] (by simp [Maps.all])
      have n1 : M.sets[g] ≠ M.counters := fun e => d3 (e ▸ hm)
      have n2 : M.sets[g] ≠ M.log := fun e => d5 (e ▸ hm)
      have n3 : M.sets[g] ≠ M.state := fun e => d6 (e ▸ hm)
      simp only [onKernel, Maps.named, Maps.fds, e, Option.getD_some, f4, if_neg n1, if_neg n2, if_neg n3]
      rw [findIdx_nodup d7 e]
  | _ => simp [MapFds.fd] at hf

/-- C56: a program with its maps is loaded, in the sense of all that is said of programs (C01 to C23, C40, C41, C47 to C49), in the environment that the maps of the kernel make. -/
theorem HasMaps.loaded {w : K} {thr : Nat → BitVec 32} {slen : Stub → Nat} {c : Chain} {img : List Insn} {M : Maps} (h : HasMaps w thr slen c img M) {base : Env}
    (api : ApiChain c) (hm : ∀ r ∈ c.rules, ∀ m ∈ r.matchers, MatcherWf m) (hs : SetsWf c.sets) (hr : c.rules.length < 268435456) (hf : base.flavor = c.hook.flavor)
    (hsock : c.hook.flavor = .sockAddr → SockAbi base.sock) : IsLoaded (onKernel w M base) c thr img where
  api := api
  matchers := hm
  sets := hs
  prog := ⟨slen, M.fds, h.image, h.fds⟩
  env := {
    flavor := hf
    counters := by
      obtain ⟨h1, d, h2, _, h3, _⟩ := h.counters
      simp [onKernel, kernelSize, h1, h2, h3]
    state := by
      by_cases hc : c.flagRate = true ∧ c.rules ≠ []
      · obtain ⟨h1, d, h2, _, h3, _⟩ := h.state hc
        simp [onKernel, kernelSize, h1, h2, h3]
      · have := h.noState hc
        simp only [onKernel, kernelSize]
        rw [if_neg (by omega)]
        obtain ⟨h1, d, h2, _, h3, _⟩ := h.counters
        simp [h1, h2, h3]
    few := hr
    sock := hsock
    sets := by
      intro g grp x h1 h2
      have h1 : (buildGroups c.sets)[g]? = some grp := h1
      have h2 : groupHead c.sets grp = some x := h2
      have hl : g < M.sets.length := by rw [h.groups]; exact (List.getElem?_eq_some_iff.mp h1).1
      have e : M.sets[g]? = some M.sets[g] := List.getElem?_eq_getElem hl
      obtain ⟨g1, g2, d, y, g3, g4, g5, g6, _⟩ := h.sets g _ grp e h1
      rw [h2] at g4
      cases g4
      refine ⟨?_, fun k _ => ?_⟩
      · simp only [onKernel, e, kernelSize, if_pos g1, g3]
        exact g6
      · simp only [onKernel, e, kernelLookup, g3, g2, g5]
        cases x.useTrie <;> simp }

end Bf.Spec

namespace Bf.Pin
open Spec

variable {w : K} {Ts : Target → Prop} {G : Know}

theorem kind_ne {o o' : Nat} {d d' : MapD} (h : G.kind o d) (h' : G.kind o' d') (hd : d.type ≠ d'.type) : o ≠ o' := by
  rintro rfl
  obtain ⟨k, e, rfl⟩ := h
  obtain ⟨k', e', rfl⟩ := h'
  rw [e] at e'
  cases e'
  exact hd rfl

theorem True_.kind (h : True_ G w) {o : Nat} {d : MapD} (hk : G.kind o d) : o < w.objs.length ∧ madeAs o w.hist = some d := by
  obtain ⟨k, e, rfl⟩ := hk
  exact ⟨h.lt e, h.made o k e⟩

theorem Bound.hasMaps {c : Chain} {img : List Insn} {m : Nat} (hT : True_ G w) (hb : Bound Ts G c img m) (hl : w.objs.length + 2 < 4294967296) :
    ∃ (T : Target) (M : Maps), Ts T ∧ M.counters = m ∧ HasMaps w T.thr T.slen c img M := by
  obtain ⟨T, M0, h1, h2, h3, ⟨dc, k1, k2, k3⟩, h6, h7, ids, h8, h9, h10⟩ := hb.prop
  obtain ⟨c1, c2⟩ := hT.kind k1
  -- the log
  have ⟨lo, l1, l2, l3⟩ : ∃ lo, (c.flagLog = true → M0.log = BitVec.ofNat 32 lo ∧ ∃ d, G.kind lo d ∧ d.type = .log ∧ d.bpfType = 27) ∧ (c.flagLog = false → lo = w.objs.length) ∧
      lo < w.objs.length + 2 := by
    cases e : c.flagLog with
    | false => exact ⟨w.objs.length, by simp, by simp, by omega⟩
    | true =>
      obtain ⟨o, d, g1, g2, g3⟩ := h6 e
      exact ⟨o, fun _ => ⟨g1, d, g2, g3⟩, by simp, Nat.lt_of_lt_of_le (hT.kind g2).1 (by omega)⟩
  have ⟨st, s1, s2, s3⟩ : ∃ st, (c.flagRate = true ∧ c.rules ≠ [] → M0.state = BitVec.ofNat 32 st ∧ ∃ d, G.kind st d ∧ d.type = .state ∧ d.valueSize = c.rules.length * 8 ∧ d.bpfType = 2 ∧ d.keySize = 4 ∧ d.nElems = 1) ∧
      (¬ (c.flagRate = true ∧ c.rules ≠ []) → st = w.objs.length + 1) ∧ st < w.objs.length + 2 := by
    by_cases e : c.flagRate = true ∧ c.rules ≠ []
    · obtain ⟨o, d, g1, g2, g3⟩ := h7 e
      exact ⟨o, fun _ => ⟨g1, d, g2, g3⟩, fun h => absurd e h, Nat.lt_of_lt_of_le (hT.kind g2).1 (by omega)⟩
    · exact ⟨w.objs.length + 1, fun h => absurd h e, fun _ => rfl, by omega⟩
  have set : ∀ o ∈ ids, ∃ grp, G.group c grp o := fun o ho => by
    obtain ⟨g, hg⟩ := List.getElem?_of_mem ho
    obtain ⟨_, grp, _, hx⟩ := h10 g o hg
    exact ⟨grp, hx⟩
  have setk : ∀ o ∈ ids, ∃ d, G.kind o d ∧ d.type = .set := fun o ho => by
    obtain ⟨grp, d, x, g1, _, g2, _⟩ := set o ho
    exact ⟨d, ⟨_, g1, rfl⟩, g2⟩
  have lts : ∀ o ∈ ids, o < w.objs.length := fun o ho => by
    obtain ⟨d, g, _⟩ := setk o ho
    exact (hT.kind g).1
  -- kinds differ
  have cl : m ≠ lo := by
    cases e : c.flagLog with
    | false => rw [l2 e]; omega
    | true =>
      obtain ⟨_, d, g1, g2, g2'⟩ := l1 e
      exact kind_ne k1 g1 (by rw [k2, g2]; simp)
  have cs : m ≠ st := by
    by_cases e : c.flagRate = true ∧ c.rules ≠ []
    · obtain ⟨_, d, g1, g2, _⟩ := s1 e
      exact kind_ne k1 g1 (by rw [k2, g2]; simp)
    · rw [s2 e]; omega
  have ls : lo ≠ st := by
    cases e : c.flagLog with
    | false =>
      rw [l2 e]
      by_cases e : c.flagRate = true ∧ c.rules ≠ []
      · obtain ⟨_, d, g1, g2, _⟩ := s1 e
        have := (hT.kind g1).1
        omega
      · rw [s2 e]; omega
    | true =>
      obtain ⟨_, d, g1, g2, g2'⟩ := l1 e
      by_cases e : c.flagRate = true ∧ c.rules ≠ []
      · obtain ⟨_, d, g3, g4, _⟩ := s1 e
        exact kind_ne g1 g3 (by rw [g2, g4]; simp)
      · rw [s2 e]
        have := (hT.kind g1).1
        omega
  have cn : m ∉ ids := fun h => by
    obtain ⟨d, g1, g2⟩ := setk m h
    exact kind_ne k1 g1 (by rw [k2, g2]; simp) rfl
  have ln : lo ∉ ids := fun h => by
    cases e : c.flagLog with
    | false => rw [l2 e] at h; have := lts _ h; omega
    | true =>
      obtain ⟨_, d', g3, g4, _⟩ := l1 e
      obtain ⟨d, g1, g2⟩ := setk lo h
      exact kind_ne g3 g1 (by rw [g4, g2]; simp) rfl
  have sn : st ∉ ids := fun h => by
    by_cases e : c.flagRate = true ∧ c.rules ≠ []
    · obtain ⟨_, d', g3, g4, _⟩ := s1 e
      obtain ⟨d, g1, g2⟩ := setk st h
      exact kind_ne g3 g1 (by rw [g4, g2]; simp) rfl
    · rw [s2 e] at h; have := lts _ h; omega
  refine ⟨T, ⟨m, lo, st, ids⟩, h1, rfl, ?_, ?_, fun o ho => ?_, ⟨c1, dc, c2, k2, k3⟩, fun e => ?_, fun e => ?_, fun e => ?_, fun e => ?_, h9, fun g o grp hg hgrp => ?_⟩
  · rw [← h2]
    refine compile_congr h3.symm (fun e => (l1 e).1.symm) (fun e => (s1 e).1.symm) fun g hg => ?_
    have hg' : g < ids.length := by omega
    have e : ids[g]? = some ids[g] := List.getElem?_eq_getElem hg'
    show BitVec.ofNat 32 (ids[g]?.getD 0) = _
    rw [e, (h10 g _ e).1]
    rfl
  · unfold Maps.all
    simp only [List.nodup_cons, List.mem_cons, not_or]
    exact ⟨⟨cl, cs, cn⟩, ⟨ls, ln⟩, sn, h8⟩
  · unfold Maps.all at ho
    simp only [List.mem_cons] at ho
    rcases ho with rfl | rfl | rfl | ho
    · omega
    · omega
    · omega
    · have := lts o ho; omega
  · obtain ⟨_, d, g1, g2, g2'⟩ := l1 e
    exact ⟨d, (hT.kind g1).2, g2, g2'⟩
  · rw [show (⟨m, lo, st, ids⟩ : Maps).log = lo from rfl, l2 e]; exact Nat.le_refl _
  · obtain ⟨_, d, g1, g2, g3, g4⟩ := s1 e
    exact ⟨(hT.kind g1).1, d, (hT.kind g1).2, g2, by omega, g4⟩
  · rw [show (⟨m, lo, st, ids⟩ : Maps).state = st from rfl, s2 e]; omega
  · obtain ⟨_, grp', e, d, x, g1, g2, _, g3, g4, g5, g6⟩ := h10 g o hg
    rw [hgrp] at e
    cases e
    obtain ⟨y, e1, e2⟩ := hT.obj o _ g1
    have e2 : y = .map (.keyed d (groupEntries c.sets grp)) := e2
    subst e2
    have e3 : entriesOf w o = groupEntries c.sets grp := by simp [entriesOf, e1]
    refine ⟨(List.getElem?_eq_some_iff.mp e1).1, e3, d, x, hT.made o _ g1, g2, g3, g4, fun y hy => ?_, by rw [e3, g6]⟩
    rw [e3] at hy
    rw [g5]
    obtain ⟨z, _, rfl⟩ := List.mem_map.mp hy
    exact elemValue_length _ _ _

end Bf.Pin

namespace Bf.Spec
open Pin (K)

variable {w : K} {thr : Nat → BitVec 32} {slen : Stub → Nat} {c : Chain} {img : List Insn} {M : Maps}

/-- A bit of a value. -/
def bitOf (v : List Byte) (b : Nat) : Bool := (byteAt v (b / 8)).getLsbD (b % 8)

theorem addUnique_nodup : ∀ {es acc : List (List Byte)}, acc.Nodup → (addUnique acc es).Nodup
  | [], _, h => h
  | e :: es, acc, h => by
    unfold addUnique
    refine addUnique_nodup ?_
    split
    · exact h
    · next hc =>
      refine List.nodup_append.mpr ⟨h, by simp, fun a ha b hb e' => ?_⟩
      rw [List.mem_singleton.mp hb] at e'
      subst e'
      exact hc (by simpa using ha)

theorem uniqueElems_nodup {sets : List BSet} : ∀ {g : List Nat} {acc : List (List Byte)}, acc.Nodup → (uniqueElems sets g acc).Nodup
  | [], _, h => h
  | _ :: g, _, h => uniqueElems_nodup (g := g) (addUnique_nodup h)

/-- C56: every set that has elements has a map, where it has a bit: its elements are the keys whose value has this bit. -/
theorem C56_elements (h : HasMaps w thr slen c img M) {k : Nat} {s : BSet} (hs : c.sets[k]? = some s) (hne : s.elems ≠ []) :
    ∃ o ∈ M.sets, ∃ b, ∀ e, e ∈ s.elems ↔ ∃ v, (e, v) ∈ entriesOf w o ∧ bitOf v b = true := by
  obtain ⟨grp, hg, hk⟩ := (buildGroups_ok c.sets).cover k s (List.getElem?_eq_some_iff.mp hs).1 hs hne
  obtain ⟨g, hg⟩ := List.getElem?_of_mem hg
  have hl : g < M.sets.length := by rw [h.groups]; exact (List.getElem?_eq_some_iff.mp hg).1
  obtain ⟨_, e1, _⟩ := h.sets g _ grp (List.getElem?_eq_getElem hl) hg
  obtain ⟨b, hb⟩ := List.getElem?_of_mem hk
  refine ⟨_, List.getElem_mem hl, b, fun e => ?_⟩
  have hm : memberElems c.sets k = s.elems := by simp [memberElems, hs]
  have hbit := elemValue_bit (sets := c.sets) (e := e) hb
  rw [hm] at hbit
  rw [e1]
  constructor
  · intro he
    refine ⟨elemValue c.sets grp e, List.mem_map.mpr ⟨e, mem_uniqueElems.mpr (.inr ⟨k, hk, by rw [hm]; exact he⟩), rfl⟩, ?_⟩
    unfold bitOf
    rw [hbit]
    simpa using he
  · rintro ⟨v, hv, hb'⟩
    obtain ⟨e', _, he'⟩ := List.mem_map.mp hv
    cases he'
    unfold bitOf at hb'
    rw [hbit] at hb'
    simpa using hb'

/-- C56: there is nothing else in these maps, and no key twice. -/
theorem C56_only (h : HasMaps w thr slen c img M) {o : Nat} (ho : o ∈ M.sets) :
    ((entriesOf w o).map (·.1)).Nodup ∧ ∀ e v, (e, v) ∈ entriesOf w o → ∃ s ∈ c.sets, e ∈ s.elems := by
  obtain ⟨g, hg⟩ := List.getElem?_of_mem ho
  have hl : g < (buildGroups c.sets).length := by rw [← h.groups]; exact (List.getElem?_eq_some_iff.mp hg).1
  obtain ⟨_, e1, _⟩ := h.sets g o _ hg (List.getElem?_eq_getElem hl)
  rw [e1]
  refine ⟨?_, fun e v hv => ?_⟩
  · unfold groupEntries
    rw [List.map_map]
    have : ((fun x : List Byte × List Byte => x.1) ∘ fun e => (e, elemValue c.sets (buildGroups c.sets)[g] e)) = id := rfl
    rw [this, List.map_id]
    exact uniqueElems_nodup List.nodup_nil
  · obtain ⟨e', he, h'⟩ := List.mem_map.mp hv
    cases h'
    rcases mem_uniqueElems.mp he with he | ⟨i, _, he⟩
    · cases he
    · unfold memberElems at he
      split at he
      · next s hs => exact ⟨s, List.mem_of_getElem? hs, he⟩
      · cases he

/-- C56: what is in these maps has the sizes that they were made for. -/
theorem C56_sizes (h : HasMaps w thr slen c img M) (hw : SetsWf c.sets) {o : Nat} (ho : o ∈ M.sets) :
    ∃ d, madeAs o w.hist = some d ∧ (entriesOf w o).length ≤ d.nElems ∧ ∀ x ∈ entriesOf w o, x.1.length = d.keySize ∧ x.2.length = d.valueSize := by
  obtain ⟨g, hg⟩ := List.getElem?_of_mem ho
  have hl : g < (buildGroups c.sets).length := by rw [← h.groups]; exact (List.getElem?_eq_some_iff.mp hg).1
  obtain ⟨_, e1, d, x, e2, e3, _, e4, e5, e6⟩ := h.sets g o _ hg (List.getElem?_eq_getElem hl)
  refine ⟨d, e2, Nat.le_of_eq e6, fun y hy => ⟨?_, e5 y hy⟩⟩
  rw [e1] at hy
  obtain ⟨e, he, rfl⟩ := List.mem_map.mp hy
  rw [e4]
  obtain ⟨a, t, hs, f1, f2, _, f3⟩ := (buildGroups_ok c.sets).wf _ (List.getElem_mem hl)
  have hx : x = hs := by
    have : groupHead c.sets (a :: t) = some x := f1 ▸ e3
    simp only [groupHead, List.head?_cons, Option.bind_some] at this
    rw [f2] at this
    cases this
    rfl
  subst hx
  have size : ∀ {s : BSet}, s ∈ c.sets → s.elemSize = (s.key.map fun ty => ty.refSize .in_).sum := fun hm => by
    obtain ⟨s0, k1, k2, _⟩ := (hw.each _ hm).new
    rw [k2]
    exact (setNew_facts k1).2.2.2.1
  rcases mem_uniqueElems.mp he with he | ⟨i, hi, he⟩
  · cases he
  · unfold memberElems at he
    split at he
    · next s hs' =>
      have hin := List.mem_of_getElem? hs'
      show e.length = _
      rw [(hw.each s hin).elems e he, size hin, size (List.mem_of_getElem? f2)]
      have hkey : s.key = x.key := by
        rw [f1] at hi
        rcases List.mem_cons.mp hi with rfl | hi
        · rw [f2] at hs'; cases hs'; rfl
        · obtain ⟨_, s', k1, k2, _⟩ := f3 i hi
          rw [hs'] at k1
          cases k1
          exact k2
      rw [hkey]
    · cases he

end Bf.Spec

namespace Bf.Cli
open Spec
open Pin (K P Know True_ AllBound)

variable {A : Issued → Prop} {w w' w0 : K} {ps ps' : List (Issued × P Ended)}

/-- The machines of the commands. -/
def TargetOf (A : Issued → Prop) (T : Pin.Target) : Prop := ∃ i, A i ∧ i.H.T = T

/-- All that is known is true, programs made since there were `n` objects have maps that are known, and so will those of the commands that run. -/
def Tracked (A : Issued → Prop) (n : Nat) (G : Know) (w : K) (ps : List (Issued × P Ended)) : Prop :=
  True_ G w ∧ AllBound (TargetOf A) n G w ∧ ∃ qs : List ((Issued × P Ended) × Know), qs.map (·.1) = ps ∧
    (∀ q ∈ qs, q.1.2.Binds (TargetOf A) Pin.AnyKn q.2 ∧ q.2.In G) ∧ qs.Pairwise fun a b => a.2.Apart b.2

theorem Apart.symm {s t : Know} (h : s.Apart t) : t.Apart s := fun o => (h o).symm

theorem tracked_step {n : Nat} {G : Know} {l r : List (Issued × P Ended)} {i : Issued} {c : Pin.Call} {k : Pin.Ans → P Ended} {a : Pin.Ans}
    (h : Tracked A n G w (l ++ (i, .call c k) :: r)) (hs : Pin.Step w c a w') : Tracked A n (G.after c a) w' (l ++ (i, k a) :: r) := by
  obtain ⟨hT, hB, qs, hm, hq, hp⟩ := h
  obtain ⟨ql, qr', rfl, rfl, e⟩ := List.map_eq_append_iff.mp hm
  obtain ⟨⟨q, s⟩, qr, rfl, e1, rfl⟩ := List.map_eq_cons_iff.mp e
  have e1 : q = (i, .call c k) := e1
  subst e1
  obtain ⟨⟨hA, hk⟩, hin⟩ := hq ((i, .call c k), s) (by simp)
  have hF := hT.fresh hs
  rw [List.pairwise_append, List.pairwise_cons] at hp
  obtain ⟨p1, ⟨p2, p3⟩, p4⟩ := hp
  have apl : ∀ x ∈ ql, s.Apart x.2 := fun x hx => Apart.symm (p4 x hx _ List.mem_cons_self)
  have apr : ∀ x ∈ qr, s.Apart x.2 := fun x hx => p2 x hx
  refine ⟨hT.step hin hA hs, hB.step hT hin hA hs, ql ++ ((i, k a), s.after c a) :: qr, by simp, fun x hx => ?_, ?_⟩
  · have old : ∀ x, (x ∈ ql ∨ x ∈ qr) → x.1.2.Binds (TargetOf A) Pin.AnyKn x.2 ∧ x.2.In (G.after c a) := fun x hx => by
      have hx' := hq x (by rcases hx with hx | hx <;> simp [hx])
      exact ⟨hx'.1, Pin.After.others hx'.2 (by rcases hx with hx | hx; exact apl x hx; exact apr x hx) hA hF⟩
    rcases List.mem_append.mp hx with hx | hx
    · exact old x (.inl hx)
    · rcases List.mem_cons.mp hx with rfl | hx
      · refine ⟨hk a fun d o e1 e2 => ?_, Pin.After.in hin hA⟩
        cases e : s o with
        | none => exact e
        | some kn =>
          have h1 : G o = some kn := hin o kn e
          rw [hF d o e1 e2] at h1
          cases h1
      · exact old x (.inr hx)
  · rw [List.pairwise_append, List.pairwise_cons]
    refine ⟨p1, ⟨fun x hx => Pin.After.apart (hq x (by simp [hx])).2 (apr x hx) hF, p3⟩, fun x hx y hy => ?_⟩
    rcases List.mem_cons.mp hy with rfl | hy
    · exact Apart.symm (Pin.After.apart (hq x (by simp [hx])).2 (apl x hx) hF)
    · exact p4 x hx y (List.mem_cons_of_mem _ hy)

theorem tracked_moves {n : Nat} (h : Moves A w ps w' ps') : ∀ {G : Know}, Tracked A n G w ps → ∃ G', Tracked A n G' w' ps' := by
  induction h with
  | refl => exact fun h => ⟨_, h⟩
  | start hi _ ih =>
    rintro G ⟨hT, hB, qs, rfl, hq, hp⟩
    refine ih ⟨hT, hB, (_, fun _ => none) :: qs, rfl, fun x hx => ?_, List.pairwise_cons.mpr ⟨fun _ _ _ => .inl rfl, hp⟩⟩
    rcases List.mem_cons.mp hx with rfl | hx
    · exact ⟨binds_main ⟨_, hi, rfl⟩, fun o k e => by cases e⟩
    · exact hq x hx
  | step hs _ ih => exact fun h => ih (tracked_step h hs)
  | packets hp _ ih => exact fun ⟨hT, hB, hq⟩ => ih ⟨hT.packets hp, hB.packets hp, hq⟩
  | @stop w w' l r ps' x f hf _ ih =>
    rintro G ⟨hT, hB, qs, hm, hq, hp⟩
    obtain ⟨ql, qr', rfl, rfl, e⟩ := List.map_eq_append_iff.mp hm
    obtain ⟨y, qr, rfl, _, rfl⟩ := List.map_eq_cons_iff.mp e
    refine ih (G := G) ⟨⟨hT.obj, hT.made⟩, hB, ql ++ qr, by simp, fun z hz => hq z ?_, ?_⟩
    · rcases List.mem_append.mp hz with hz | hz <;> simp [hz]
    · exact hp.sublist (List.Sublist.append (List.Sublist.refl _) (List.sublist_cons_self ..))

/-- C56: on a machine where nothing was pinned, commands of `A` are given, together, whatever calls fail and whenever they are stopped.  Whatever program runs, at whatever point, is
the complete program of a chain that they asked for, and its maps are those of this chain: the descriptors in its instructions are those of distinct maps, of the right kinds and sizes;
the maps of sets hold all the elements of the sets, and nothing else.  (There are less than 2^32 objects, so that descriptors fit.) -/
theorem C56_maps (hS : Sensible A) (h0 : NothingYet w0) (h : Moves A w0 [] w ps) (hl : w.objs.length + 2 < 4294967296) {pt : Pin.Point} {p : Nat} (hr : w.runs pt p) :
    ∃ i c img M, A i ∧ AskedFor A c ∧ AskedAt A c.name pt ∧ w.objs[p]? = some (.prog c img M.counters) ∧ HasMaps w i.H.T.thr i.H.T.slen c img M := by
  obtain ⟨_, c, _, h2, h3, img, m, _, h4, _⟩ := C53_runs hS h0 h hr
  obtain ⟨G, hT, hB, _⟩ := tracked_moves (n := w0.objs.length) h (G := fun _ => none)
    ⟨⟨fun o k e => (by cases (e : none = some k)), fun o k e => (by cases (e : none = some k))⟩, fun p c img m hn hx => absurd (List.getElem?_eq_some_iff.mp hx).1 (by omega), [], rfl, by simp, by simp⟩
  obtain ⟨_, M, ⟨i, hi, rfl⟩, rfl, hM⟩ := (hB p c img m (runs_new hS h0 h hr) h4).hasMaps hT hl
  exact ⟨i, c, img, M, hi, h2, h3, h4, hM⟩

end Bf.Cli
