import Verif.Props.C01_Verdict
/-!
# Comparing the programs of two chains
-/
namespace Bf
open Spec

/-- The same packet or socket operation arrives in two environments, with the same kernel services.
(Their maps, and what the stack contains initially, may differ.) -/
structure SameArrival (E E' : Env) : Prop where
  pkt : E'.pkt = E.pkt
  dynptrOk : E'.dynptrOk = E.dynptrOk
  linLen : E'.linLen = E.linLen
  skbLen : E'.skbLen = E.skbLen
  ifindex : E'.ifindex = E.ifindex
  inIfindex : E'.inIfindex = E.inIfindex
  outIfindex : E'.outIfindex = E.outIfindex
  family : E'.family = E.family
  pf : E'.pf = E.pf
  hash : E'.hash = E.hash
  rng : E'.rng = E.rng
  clk : E'.clk = E.clk
  ringOk : E'.ringOk = E.ringOk
  sock : E'.sock = E.sock
  redirectRet : E'.redirectRet = E.redirectRet

variable {E E' : Env} {chain chain' : Chain} {thr : Nat → BitVec 32}

theorem SameArrival.input (h : SameArrival E E') (hook : Hook) : inputOf E' hook = inputOf E hook := by
  unfold inputOf
  rw [h.pkt, h.dynptrOk, h.linLen, h.skbLen, h.ifindex, h.inIfindex, h.outIfindex, h.family, h.pf, h.hash]

theorem SameArrival.kernel (h : SameArrival E E') : kernelOf E' = kernelOf E := by
  unfold kernelOf
  rw [h.rng, h.clk, h.ringOk, h.redirectRet]

theorem SameArrival.unreadable (h : SameArrival E E') (hh : chain'.hook = chain.hook)
    (hn : chain'.flagNexthdr = chain.flagNexthdr) : Unreadable E' chain' ↔ Unreadable E chain := by
  unfold Unreadable
  rw [hh, hn, h.input]

/-- The two programs see the same. -/
theorem SameArrival.alike (h : SameArrival E E') (hh : chain'.hook = chain.hook)
    (hn : chain'.flagNexthdr = chain.flagNexthdr) (hs : chain'.sets = chain.sets) {c c' : Sem}
    (hc : Sees E chain thr c) (hc' : Sees E' chain' thr c') : Alike c c' := by
  cases hc with
  | packet h1 h2 _ =>
    cases hc' with
    | packet _ h4 _ =>
      rw [hh, hn, h.input, h2] at h4
      cases h4
      rw [hh, hs, h.input, h.kernel]
      exact ⟨rfl, rfl, rfl, rfl, rfl, rfl⟩
    | sock h3 => rw [hh] at h3; exact absurd h3 h1
  | sock h1 =>
    cases hc' with
    | packet h3 _ _ => rw [hh] at h3; exact absurd h1 h3
    | sock _ =>
      rw [hh, hs, h.kernel, h.sock]
      exact ⟨rfl, rfl, rfl, rfl, rfl, rfl⟩

end Bf
