import Verif.Props.C55_Sock
/-!
# C55: `bfcli chain logs` after a run
-/
namespace Bf.Cli
open Spec

/-- What is printed, `u`, for rule `j`, `q`, says what happened: the packet or the socket operation in `E`. -/
def ReportOf (clock : Int → List Char) (E : Env) (chain : Chain) (ts pid : Nat) (name : List Char) (j : Nat) (q : Rule) (u : List Char) : Prop :=
  if chain.hook.flavor = .sockAddr then
    SockReport clock ts j q.verdict (AddrsText chain.hook (sockView E.sock)) (sockView E.sock).proto (Spec.beNat (sockView E.sock).dport) pid name u
  else ∃ v, understand (inputOf E chain.hook) chain.flagNexthdr = some v ∧
    PacketReport clock ts j q.verdict (inputOf E chain.hook).size.toNat
      (Asked (q.log.getLsbD 0) (LinkLine (linkHeader E chain.hook))) (Asked (q.log.getLsbD 1) (OrUnknown "  Internet  : " InetText v.l3))
      (Asked (q.log.getLsbD 2) (OrUnknown "  Transport : " TransText v.l4)) u

/-- A socket of the family of the hook, with an ordinary protocol, of a process whose name has no escape character. -/
def Ordinary (E : Env) (chain : Chain) (s : LogSlot) : Prop :=
  chain.hook.flavor = .sockAddr → (sockView E.sock).net = some (hookNet chain.hook) ∧ (sockView E.sock).proto < 256 ∧ '\x1b' ∉ commText s

theorem entry_reports {E : Env} {chain : Chain} {j : Nat} {q : Rule} {e : LogRec} {t : Term} {s : LogSlot} (hd : Describes E chain j q e)
    (hs : s.Holds e) (abi : chain.hook.flavor = .sockAddr → SockAbi E.sock) (hp : Ordinary E chain s) (hc : ∀ n, '\x1b' ∉ t.clock n)
    (hts : e.ts.toNat < 2 ^ 63) (hj : j < 2 ^ 32) :
    ∃ u, Coloured (printLog t s) u ∧ ReportOf t.clock E chain e.ts.toNat s.pid.toNat (commText s) j q u := by
  unfold ReportOf
  by_cases hk : chain.hook.flavor = .sockAddr
  · simp only [if_pos hk]
    obtain ⟨h1, h2, h3⟩ := hp hk
    exact C55_sock_partial hd hs hk (abi hk) h1 h2 h3 hc hts hj
  · simp only [if_neg hk]
    obtain ⟨v, u, h1, h2, h3⟩ := C55_packet_partial hd hs hk hc hts hj
    exact ⟨u, h2, v, h1, h3⟩

/-- The entries of the log buffer, as `bfcli` finds them. -/
def Buffered (slots : List LogSlot) (entries : List LogRec) : Prop :=
  slots.length = entries.length ∧ ∀ (i : Nat) s e, slots[i]? = some s → entries[i]? = some e → s.Holds e

theorem buffered_cons {s : LogSlot} {slots : List LogSlot} {e : LogRec} {es : List LogRec} (h : Buffered (s :: slots) (e :: es)) :
    s.Holds e ∧ Buffered slots es :=
  ⟨h.2 0 s e rfl rfl, by simpa using h.1, fun i a b ha hb => h.2 (i + 1) a b (by simpa using ha) (by simpa using hb)⟩

theorem logs_reports {E : Env} {chain : Chain} {t : Term} (abi : chain.hook.flavor = .sockAddr → SockAbi E.sock) (hc : ∀ n, '\x1b' ∉ t.clock n)
    (hlen : chain.rules.length < 2 ^ 32) : ∀ (js : List Req) (slots : List LogSlot), Buffered slots (js.filterMap (·.2)) → (∀ s ∈ slots, Ordinary E chain s) →
    (∀ e ∈ js.filterMap (·.2), e.ts.toNat < 2 ^ 63) →
    (∀ q ∈ js, ∀ e, q.2 = some e → ∃ rule, chain.rules[q.1]? = some rule ∧ Describes E chain q.1 rule e) →
    ∃ us : List (List Char), Coloured (printLogs t slots) us.flatten ∧ us.length = slots.length ∧
      ∀ (i : Nat) j s u, ((js.filter (·.2.isSome)).map (·.1))[i]? = some j → slots[i]? = some s → us[i]? = some u →
        ∃ q, chain.rules[j]? = some q ∧ ReportOf t.clock E chain s.ts.toNat s.pid.toNat (commText s) j q u := by
  intro js
  induction js with
  | nil =>
    intro slots hb _ _ _
    have : slots = [] := List.length_eq_zero_iff.mp hb.1
    subst this
    exact ⟨[], .nil, rfl, by simp⟩
  | cons p js ih =>
    intro slots hb hp hts hd
    obtain ⟨j, o⟩ := p
    cases o with
    | none =>
      obtain ⟨us, h1, h2, h3⟩ := ih slots (by simpa using hb) hp (by simpa using hts) (fun q hq => hd q (List.mem_cons_of_mem _ hq))
      exact ⟨us, h1, h2, by simpa using h3⟩
    | some e =>
      simp only [List.filterMap_cons] at hb hts
      cases slots with
      | nil => have := hb.1; simp at this
      | cons s slots =>
        obtain ⟨hs, hb'⟩ := buffered_cons hb
        obtain ⟨us, h1, h2, h3⟩ := ih slots hb' (fun s' h' => hp s' (List.mem_cons_of_mem _ h')) (fun e' h' => hts e' (List.mem_cons_of_mem _ h'))
          (fun q hq => hd q (List.mem_cons_of_mem _ hq))
        obtain ⟨rule, hr, hde⟩ := hd (j, some e) List.mem_cons_self e rfl
        have hj : j < 2 ^ 32 := Nat.lt_trans (List.getElem?_eq_some_iff.mp hr).1 hlen
        obtain ⟨u, hu, hrep⟩ := entry_reports (t := t) hde hs abi (hp s List.mem_cons_self) hc (hts e List.mem_cons_self) hj
        refine ⟨u :: us, ?_, by simp [h2], ?_⟩
        · have := coloured_append hu h1
          simpa [printLogs] using this
        · intro i j' s' u' hj' hs' hu'
          cases i with
          | zero =>
            simp at hj' hs' hu'
            subst hj' hs' hu'
            exact ⟨rule, hr, by rw [hs.ts]; exact hrep⟩
          | succ i => exact h3 i j' s' u' (by simpa using hj') (by simpa using hs') (by simpa using hu')

/-- **C55**, what is proved of it.  Whatever packet (or socket operation) arrives, what `bfcli chain logs` prints of the entries it gave rise to is, but for
colours, one report for each, in the order of the rules: each is by a rule that asked for it, and says the number and the verdict of that rule, and what that
packet has; and there is one for every rule that asked, if the buffer has room. -/
theorem C55_logs_partial {E : Env} {chain : Chain} {thr : Nat → BitVec 32} {img : List Insn} {w w' : World} {r : BitVec 64} (h : IsLoaded E chain thr img)
    (hr : Runs E img w r w') {t : Term} (hc : ∀ n, '\x1b' ∉ t.clock n) {new : List LogRec} (hnew : w'.logs = w.logs ++ new) {slots : List LogSlot}
    (hsl : Buffered slots new) (hp : ∀ s ∈ slots, Ordinary E chain s) (hts : ∀ e ∈ new, e.ts.toNat < 2 ^ 63) :
    (Unreadable E chain ∧ printLogs t slots = []) ∨
    ∃ c, Sees E chain thr c ∧ ∃ (js : List Nat) (us : List (List Char)), Coloured (printLogs t slots) us.flatten ∧
      js.length = slots.length ∧ us.length = slots.length ∧ js.Pairwise (· < ·) ∧ (∀ j ∈ js, Requests c chain.rules w j) ∧
      ((∀ n, E.ringOk n = true) → ∀ j, Requests c chain.rules w j → j ∈ js) ∧
      ∀ (i : Nat) j s u, js[i]? = some j → slots[i]? = some s → us[i]? = some u →
        ∃ q, chain.rules[j]? = some q ∧ ReportOf t.clock E chain s.ts.toNat s.pid.toNat (commText s) j q u := by
  rcases C20_log_partial h hr with ⟨hu, hl, _⟩ | ⟨c, hs, js, h1, h2, h3, h4, h5, h6⟩
  · refine Or.inl ⟨hu, ?_⟩
    rw [hl] at hnew
    have : new = [] := by simpa using hnew
    subst this
    have : slots = [] := List.length_eq_zero_iff.mp hsl.1
    subst this
    rfl
  · refine Or.inr ⟨c, hs, ?_⟩
    have e : new = js.filterMap (·.2) := List.append_cancel_left (hnew.symm.trans h3)
    subst e
    obtain ⟨us, g1, g2, g3⟩ := logs_reports (t := t) h.env.sock hc (Nat.lt_trans h.env.few (by decide)) js slots hsl hp hts h6
    have hl : ∀ l : List Req, ((l.filter (·.2.isSome)).map (·.1)).length = (l.filterMap (·.2)).length := by
      intro l
      induction l with
      | nil => rfl
      | cons p l ih => obtain ⟨a, o⟩ := p; cases o <;> simp_all
    refine ⟨(js.filter (·.2.isSome)).map (·.1), us, g1, by rw [hl, hsl.1], g2, ?_, ?_, ?_, g3⟩
    · exact h2.sublist (List.filter_sublist.map _)
    · intro j hj
      obtain ⟨p, hp, rfl⟩ := List.mem_map.mp hj
      exact (h1 p.1).mp (List.mem_map.mpr ⟨p, (List.mem_filter.mp hp).1, rfl⟩)
    · intro hok j hj
      obtain ⟨p, hp, rfl⟩ := List.mem_map.mp ((h1 j).mpr hj)
      obtain ⟨i, hi, he⟩ := List.mem_iff_getElem.mp hp
      have := h5 i p (by rw [← he]; exact List.getElem?_eq_getElem hi)
      rw [hok] at this
      exact List.mem_map.mpr ⟨p, List.mem_filter.mpr ⟨hp, this⟩, rfl⟩

end Bf.Cli
