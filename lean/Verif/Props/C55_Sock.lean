import Verif.Props.C55_Entry
/-!
# C55: what `bfcli chain logs` prints of socket operations
-/
namespace Bf.Cli
open Spec

/-- The addresses of a socket operation, as the hook gives them. -/
def sockDst (h : Hook) (v : SockView) : List Byte := match h with | .connect4 | .sendmsg4 => v.daddr4 | _ => v.daddr6
def sockSrc (h : Hook) (v : SockView) : Option (List Byte) := match h with | .sendmsg4 => some v.saddr4 | .sendmsg6 => some v.saddr6 | _ => none

/-- The hooks of IPv4. -/
def hookNet (h : Hook) : Net := match h with | .connect4 | .sendmsg4 => .ip4 | _ => .ip6

/-- The name of the process in the entry. -/
def commText (s : LogSlot) : List Char := ((s.comm.take 16).takeWhile (· ≠ 0)).map fun b => Char.ofNat b.toNat

/-- The line of the addresses. -/
def AddrsText (h : Hook) (v : SockView) : List Char → Prop :=
  match hookNet h with
  | .ip4 => SockAddrText Ip4Text "  IPv4      : " (sockSrc h v) (sockDst h v) v.proto
  | .ip6 => SockAddrText Ip6Text "  IPv6      : " (sockSrc h v) (sockDst h v) v.proto

theorem addrs_text {t : Term} {s : LogSlot} {code label lab : String} {get : List Byte → Nat → List Char} {T : List Byte → List Char → Prop}
    {src : Option (List Byte)} {dst : List Byte} {proto : Nat} (hn : proto < 256) (hp : s.l4Proto = BitVec.ofNat 8 proto) (hcode : Code code)
    (hlab : str "  " ++ (padRight 10 (str lab) ++ str ": ") = label.toList) (hesc : '\x1b' ∉ label.toList)
    (hdst : T dst (get s.daddr 0)) (hcap : s.captured.getLsbD 0 = src.isSome) (hsrc : ∀ a, src = some a → T a (get s.saddr 0))
    (hT : ∀ a x, T a x → '\x1b' ∉ x) : Renders (sockNet t s lab code get) (SockAddrText T label src dst proto) := by
  have hpn : s.l4Proto.toNat = proto := by rw [hp, BitVec.toNat_ofNat]; exact Nat.mod_eq_of_lt hn
  obtain ⟨p, hpt, hpc⟩ := proto_text (t := t) (code := "1;95") (pre := "proto=") hn (by decide) (by decide)
  have hs : ∃ x, Coloured (if s.captured.getLsbD 0 then paint t code (get s.saddr 0) ++ [' '] else []) x ∧
      SrcText T src x := by
    rw [hcap]
    cases src with
    | none => exact ⟨[], .nil, rfl⟩
    | some a =>
      have := hsrc a rfl
      exact ⟨_, coloured_append (coloured_paint (coloured_same (hT _ _ this)) hcode) (coloured_same (by decide)), _, this, rfl⟩
  obtain ⟨x, hx, hx2⟩ := hs
  refine ⟨_, ?_, x, _, p, hx2, hdst, hpt, rfl⟩
  unfold sockNet
  rw [hpn]
  have key := coloured_append (coloured_same hesc) (coloured_append hx (coloured_append (coloured_str "→ ") (coloured_append
    (coloured_paint (t := t) (coloured_same (hT _ _ hdst)) hcode) (coloured_append (coloured_str " [") (coloured_append hpc (coloured_str "]\n"))))))
  rw [show ∀ z, str "  " ++ (padRight 10 (str lab) ++ (str ": " ++ z)) = label.toList ++ z by intro z; rw [← hlab]; simp]
  cases hq : ipprotoToStr proto with
  | some n => rw [hq] at key; simpa using key
  | none =>
    rw [hq] at key
    have : str " [" ++ (str "proto=" ++ printNat 10 proto ++ str "]\n") = str " [proto=" ++ (printNat 10 proto ++ str "]\n") := by simp [str]
    rw [this] at key
    simpa using key

theorem sockWord_eq {n : Nat} (hn : n < 256) : str "  " ++ (padRight 10 (str (if BitVec.ofNat 8 n = 6 then "TCP" else if BitVec.ofNat 8 n = 17 then "UDP" else "Transport")) ++
    str ": → ") = "  ".toList ++ (sockWord n).toList ++ "→ ".toList ∧ '\x1b' ∉ (sockWord n).toList := by
  have : ∀ n < 256, str "  " ++ (padRight 10 (str (if BitVec.ofNat 8 n = 6 then "TCP" else if BitVec.ofNat 8 n = 17 then "UDP" else "Transport")) ++
    str ": → ") = "  ".toList ++ (sockWord n).toList ++ "→ ".toList ∧ '\x1b' ∉ (sockWord n).toList := by decide +kernel
  exact this n hn

/-- **C55**, socket operations.  What is printed of an entry that a chain published for a socket operation is, but for colours: when, the number and the
verdict of the rule, the addresses, the protocol, the port, the process.  (For sockets of the family of the hook whose protocol is a number below 256: see
`C55_family`, `C55_mptcp`; and for processes whose name has no colours: see `C55_name`.) -/
theorem C55_sock_partial {E : Env} {chain : Chain} {j : Nat} {q : Rule} {e : LogRec} {t : Term} {s : LogSlot} (hd : Describes E chain j q e)
    (hs : s.Holds e) (hk : chain.hook.flavor = .sockAddr) (abi : SockAbi E.sock) (hnet : (sockView E.sock).net = some (hookNet chain.hook))
    (hproto : (sockView E.sock).proto < 256) (hname : '\x1b' ∉ commText s) (hc : ∀ n, '\x1b' ∉ t.clock n) (hts : e.ts.toNat < 2 ^ 63) (hj : j < 2 ^ 32) :
    ∃ u, Coloured (printLog t s) u ∧ SockReport t.clock e.ts.toNat j q.verdict (AddrsText chain.hook (sockView E.sock)) (sockView E.sock).proto
      (Spec.beNat (sockView E.sock).dport) s.pid.toNat (commText s) u := by
  obtain ⟨p3, p4, pport, d4, d6, s4, s6, s0, hcap⟩ := hd.sock hk
  have hkind : e.isPkt = false := by
    cases h : e.isPkt with
    | false => rfl
    | true => exact absurd hk (hd.kind.mp h)
  obtain ⟨sdp, scap, sda, ssa⟩ := hs.sock hkind
  have hty : s.logType = 1 := by rw [hs.logType, hkind]; rfl
  have hlen := abi.size
  have hl4 : s.l4Proto = BitVec.ofNat 8 (sockView E.sock).proto := by rw [hs.l4Proto, p4]
  have hl3 : s.l3Proto = BitVec.ofNat 16 (hookNet chain.hook).etherType := by rw [hs.l3Proto, p3]; unfold SockView.l3Num; rw [hnet]
  have haddr : Renders (if s.l3Proto = 0x0800 then sockNet t s "IPv4" "1;36" ip4Text else if s.l3Proto = 0x86DD then sockNet t s "IPv6" "1;96" ip6Text
      else str "  Internet  : <unknown protocol " ++ (printHex4 s.l3Proto.toNat ++ str ">\n")) (AddrsText chain.hook (sockView E.sock)) := by
    have four : ∀ (src : Option (List Byte)), hookNet chain.hook = .ip4 → e.daddr.take 4 = (sockView E.sock).daddr4 → e.saddr.map (·.take 4) = src →
        (∀ a, src = some a → a.length = 4) →
        Renders (sockNet t s "IPv4" "1;36" ip4Text) (SockAddrText Ip4Text "  IPv4      : " src (sockView E.sock).daddr4 (sockView E.sock).proto) := by
      intro src h4 hda hsrc hsl
      refine addrs_text hproto hl4 (by decide) (by decide) (by decide) ?_ ?_ ?_ (fun a x h => no_dot h)
      · unfold ip4Text
        rw [sda, List.drop_zero, hda]
        exact ntop4_text (by simp [sockView, hlen])
      · rw [scap, hcap, ← hsrc]; simp
      · intro a ha
        rw [ha] at hsrc
        obtain ⟨b, hb, he⟩ := Option.map_eq_some_iff.mp hsrc
        unfold ip4Text
        rw [ssa b hb, List.drop_zero, he]
        exact ntop4_text (hsl a ha)
    have six : ∀ (src : Option (List Byte)), e.daddr = (sockView E.sock).daddr6 → e.saddr = src → (∀ a, src = some a → a.length = 16) →
        Renders (sockNet t s "IPv6" "1;96" ip6Text) (SockAddrText Ip6Text "  IPv6      : " src (sockView E.sock).daddr6 (sockView E.sock).proto) := by
      intro src hda hsrc hsl
      refine addrs_text hproto hl4 (by decide) (by decide) (by decide) ?_ ?_ ?_ (fun a x h => ip6_not h (by decide))
      · unfold ip6Text
        rw [sda, List.drop_zero, hda]
        rw [List.take_of_length_le (by simp [sockView]; omega)]
        exact ntop6_text (by simp [sockView, hlen])
      · rw [scap, hcap, ← hsrc]
      · intro a ha
        unfold ip6Text
        have := hsl a ha
        rw [ssa a (hsrc.trans ha), List.drop_zero, List.take_of_length_le (by omega)]
        exact ntop6_text this
    unfold AddrsText
    cases hh : chain.hook with
    | connect4 =>
      rw [hh] at hl3
      have hl3 : s.l3Proto = 0x0800 := hl3
      rw [if_pos hl3]
      exact four none (by rw [hh]; rfl) (d4 (Or.inl hh)) (by rw [s0 (Or.inl hh)]; rfl) (by intro a h; cases h)
    | sendmsg4 =>
      rw [hh] at hl3
      have hl3 : s.l3Proto = 0x0800 := hl3
      rw [if_pos hl3]
      exact four (some (sockView E.sock).saddr4) (by rw [hh]; rfl) (d4 (Or.inr hh)) (s4 hh) (by intro a h; cases h; simp [sockView, hlen])
    | connect6 =>
      rw [hh] at hl3
      have hl3 : s.l3Proto = 0x86DD := hl3
      rw [if_neg (by rw [hl3]; decide), if_pos hl3]
      exact six none (d6 (Or.inl hh)) (s0 (Or.inr hh)) (by intro a h; cases h)
    | sendmsg6 =>
      rw [hh] at hl3
      have hl3 : s.l3Proto = 0x86DD := hl3
      rw [if_neg (by rw [hl3]; decide), if_pos hl3]
      exact six (some (sockView E.sock).saddr6) (d6 (Or.inr hh)) (s6 hh) (by intro a h; cases h; simp [sockView, hlen])
    | _ => rw [hh] at hk; cases hk
  obtain ⟨l, l1, l2⟩ := haddr
  obtain ⟨a, a1, a2⟩ := header_sock (t := t) (s := s) (v := q.verdict) hc (by rw [hs.ts]; exact hts) (by rw [hty]; decide) (by rw [hs.verdict, hd.verdict])
  have hru : s.ruleId.toNat = j := by rw [hs.ruleId, hd.rule, BitVec.toNat_ofNat]; exact Nat.mod_eq_of_lt hj
  have hpo : s.dport.toNat = Spec.beNat (sockView E.sock).dport := by rw [sdp, pport]
  rw [hru] at a2
  rw [hs.ts] at a1
  obtain ⟨w1, w2⟩ := sockWord_eq hproto
  refine ⟨_, ?_, a, printNat 10 j, l, padRight 5 (printNat 10 s.dport.toNat), printNat 10 s.pid.toNat, a1, numeral_print _, l2,
    filled_pad (by rw [← hpo]; exact numeral_print _), numeral_print _, rfl⟩
  unfold printLog
  rw [if_neg (by rw [hty]; decide), if_pos hty]
  unfold logSock
  rw [hl4]
  have hw : '\x1b' ∉ "  ".toList ++ (sockWord (sockView E.sock).proto).toList ++ "→ ".toList := by
    simp only [List.mem_append, not_or]
    exact ⟨⟨by decide, w2⟩, by decide⟩
  have key := coloured_append a2 (coloured_append l1 (coloured_append (coloured_same hw) (coloured_append (coloured_paint (t := t) (code := "1;93")
    (coloured_padNum 5 s.dport.toNat)) (coloured_append (coloured_str "\n  PID       : ") (coloured_append (coloured_paint (t := t) (code := "1;93")
    (coloured_num s.pid.toNat)) (coloured_append (coloured_str "\n  Process   : ") (coloured_append (coloured_paint (t := t) (code := "1;92")
    (coloured_same hname)) (coloured_str "\n"))))))))
  rw [show ∀ x z, str "  " ++ (padRight 10 x ++ (str ": → " ++ z)) = str "  " ++ (padRight 10 x ++ str ": → ") ++ z by intro x z; simp, w1]
  unfold commText at key ⊢
  simpa [str] using key

end Bf.Cli
