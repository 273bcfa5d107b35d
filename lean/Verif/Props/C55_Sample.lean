import Verif.Props.C55_Logs
import Verif.Props.C40_Sock
/-!
# C55: concrete cases
-/
namespace Bf.Cli.Sample
open Spec

/-- No terminal; the time of the day is the number of seconds. -/
def term : Term := ⟨false, fun n => printNat 10 n.natAbs⟩

theorem term_clock : ∀ n, '\x1b' ∉ term.clock n := fun n => num_esc n.natAbs

/-- An entry in a buffer whose memory is all `b`, by process 1234. -/
def slotOf (b : Byte) (name : List Byte) (e : LogRec) : LogSlot where
  ts := e.ts
  ruleId := e.ruleId
  verdict := e.verdict
  l3Proto := e.l3Proto
  l4Proto := e.l4Proto
  logType := if e.isPkt then 0 else 1
  pktSize := e.pktSize
  reqHeaders := e.reqHeaders.setWidth 4
  headers := e.headers.setWidth 4
  l2hdr := e.l2 ++ List.replicate (16 - e.l2.length) b
  l3hdr := e.l3 ++ List.replicate (40 - e.l3.length) b
  l4hdr := e.l4 ++ List.replicate (24 - e.l4.length) b
  pid := 1234
  dport := e.dport
  captured := e.captured
  comm := name ++ List.replicate (16 - name.length) 0
  saddr := e.saddr.getD (List.replicate 16 b)
  daddr := e.daddr

theorem slotOf_holds (b : Byte) (name : List Byte) (e : LogRec) : (slotOf b name e).Holds e :=
  ⟨rfl, rfl, rfl, rfl, rfl, rfl, fun _ => ⟨rfl, rfl, rfl, ⟨_, rfl⟩, ⟨_, rfl⟩, ⟨_, rfl⟩⟩, fun _ => ⟨rfl, rfl, rfl, fun a h => by simp [slotOf, h]⟩⟩

/-- What is printed of the entries of a run. -/
def prints (b : Byte) (name : List Byte) (w' : World) : List Char := printLogs term (w'.logs.map (slotOf b name))

/-- A chain that logs the three headers of every packet. -/
def full : Chain where
  name := "log"
  hook := .xdp
  policy := .accept
  sets := []
  rules := [{ Bf.Sample.rule [] .drop with log := 7 }]
  flagLog := true
  flagRate := false
  flagNexthdr := false

theorem full_new : chainNew "log" .xdp .accept [] [{ Bf.Sample.rule [] .drop with log := 7 }] = .ok full := rfl

/-- A TCP packet from 192.168.1.20 to 10.0.0.2, port 22. -/
def frame : List Byte :=
  [0x52, 0x54, 0, 0x12, 0x34, 0x56, 0x52, 0x54, 0, 0xAB, 0xCD, 0xEF, 8, 0] ++ [0x45, 0, 0, 40, 0, 0, 0, 0, 64, 6, 0, 0, 192, 168, 1, 20, 10, 0, 0, 2] ++
  [0xCD, 0xEF, 0, 22] ++ [0, 0, 0, 7] ++ [0, 0, 1, 0] ++ [0x50, 0x12, 0x12, 0x0A] ++ [0, 0, 0, 0]

def frameEnv : Env := { Bf.Sample.base with pkt := frame, clk := fun n => BitVec.ofNat 64 (61000042000 + n) }

/-- What is printed of it. -/
theorem C55_shown : ∃ img r w', IsLoaded (envOf frameEnv full) full Bf.Sample.thr img ∧
    Runs (envOf frameEnv full) img { Bf.Sample.w0 with logs := [] } r w' ∧
    prints 0 [] w' = ("\n[61.000042] Rule #0 matched 54 bytes with verdict DROP\n" ++
      "  Ethernet  : 52:54:00:ab:cd:ef → 52:54:00:12:34:56 (ipv4)\n" ++
      "  IPv4      : 192.168.1.20    → 10.0.0.2        [tcp, TTL=64]\n" ++
      "  TCP       : 52719 → 22    [syn,ack]\n              seq=7          ack=256        win=4618 \n").toList := by
  obtain ⟨img, r, w', h1, h2, h3⟩ := Bf.Sample.runs_result (base := frameEnv) (chain := full) (w := { Bf.Sample.w0 with logs := [] })
    (P := fun _ w' => decide (prints 0 [] w' = ("\n[61.000042] Rule #0 matched 54 bytes with verdict DROP\n" ++
      "  Ethernet  : 52:54:00:ab:cd:ef → 52:54:00:12:34:56 (ipv4)\n" ++
      "  IPv4      : 192.168.1.20    → 10.0.0.2        [tcp, TTL=64]\n" ++
      "  TCP       : 52719 → 22    [syn,ack]\n              seq=7          ack=256        win=4618 \n").toList))
    (.new full_new) (by decide) (⟨(by intro s hs; cases hs), (by decide)⟩) (by decide) (by decide) (by intro h; cases h) (by decide +kernel)
  exact ⟨img, r, w', h1, h2, of_decide_eq_true h3⟩

/-- The general theorem applies to it. -/
example : ∃ img r w', Runs (envOf frameEnv full) img { Bf.Sample.w0 with logs := [] } r w' ∧
    ∃ c, Sees (envOf frameEnv full) full Bf.Sample.thr c ∧ ∃ (js : List Nat) (us : List (List Char)), Coloured (prints 0 [] w') us.flatten ∧
      js.length = 1 ∧ us.length = 1 ∧ (∀ j ∈ js, Requests c full.rules { Bf.Sample.w0 with logs := [] } j) := by
  obtain ⟨img, r, w', h1, h2, h3⟩ := Bf.Sample.runs_result (base := frameEnv) (chain := full) (w := { Bf.Sample.w0 with logs := [] })
    (P := fun _ w' => decide (w'.logs.length = 1 ∧ ∀ e ∈ w'.logs, e.ts.toNat < 2 ^ 63))
    (.new full_new) (by decide) (⟨(by intro s hs; cases hs), (by decide)⟩) (by decide) (by decide) (by intro h; cases h) (by decide +kernel)
  obtain ⟨h3, h4⟩ := of_decide_eq_true h3
  refine ⟨img, r, w', h2, ?_⟩
  have hb : Buffered (w'.logs.map (slotOf 0 [])) w'.logs := by
    refine ⟨by simp, fun i s e hs he => ?_⟩
    rw [List.getElem?_map, he] at hs
    cases hs
    exact slotOf_holds 0 [] e
  rcases C55_logs_partial h1 h2 term_clock (new := w'.logs) rfl hb (fun s _ h => by cases h) h4 with ⟨hu, _⟩ | ⟨c, hc, js, us, a, b, d, _, e, _⟩
  · exact absurd hu (by rintro ⟨_, hu⟩; revert hu; decide +kernel)
  · exact ⟨c, hc, js, us, a, by rw [b]; simpa using h3, by rw [d]; simpa using h3, e⟩

/-- **C55 fails** for the link layer where the chain has no access to it: on a netfilter hook, a line with addresses is printed, that are no part of the
packet (it has no link header), nor of any packet (C20). -/
theorem C55_link : ∃ img r w', IsLoaded (envOf Bf.Sample.logBase Bf.Sample.logChain) Bf.Sample.logChain Bf.Sample.thr img ∧
    Runs (envOf Bf.Sample.logBase Bf.Sample.logChain) img { Bf.Sample.w0 with logs := [] } r w' ∧
    (inputOf (envOf Bf.Sample.logBase Bf.Sample.logChain) .nfLocalIn).link ≠ .ethernet ∧
    prints 0xCD [] w' = ("\n[0.000005] Rule #0 matched 68 bytes with verdict CONTINUE\n" ++
      "  Ethernet  : cd:cd:cd:cd:cd:cd → ab:cd:cd:cd:cd:cd (0xcdcd)\n" ++
      "  IPv4      : 10.0.0.1        → 10.0.0.2        [proto=200, TTL=64]\n" ++
      "  Transport : <unknown protocol 0>\n").toList := by
  obtain ⟨img, r, w', h1, h2, h3⟩ := Bf.Sample.runs_result (base := Bf.Sample.logBase) (chain := Bf.Sample.logChain) (w := { Bf.Sample.w0 with logs := [] })
    (P := fun _ w' => decide (prints 0xCD [] w' = ("\n[0.000005] Rule #0 matched 68 bytes with verdict CONTINUE\n" ++
      "  Ethernet  : cd:cd:cd:cd:cd:cd → ab:cd:cd:cd:cd:cd (0xcdcd)\n" ++
      "  IPv4      : 10.0.0.1        → 10.0.0.2        [proto=200, TTL=64]\n" ++
      "  Transport : <unknown protocol 0>\n").toList))
    (.new Bf.Sample.logChain_new) (by decide) (⟨(by intro s hs; cases hs), (by decide)⟩) (by decide) (by decide) (by intro h; cases h) (by decide +kernel)
  exact ⟨img, r, w', h1, h2, by decide, of_decide_eq_true h3⟩

/-! ### Sockets -/

/-- A chain that logs every operation. -/
def ops (h : Hook) : Chain where
  name := "log"
  hook := h
  policy := .accept
  sets := []
  rules := [{ Bf.Sample.rule [] .accept with log := 0xFF }]
  flagLog := true
  flagRate := false
  flagNexthdr := false

/-- What a chain prints of a socket operation. -/
theorem ops_run {h : Hook} {base : Env} {b : Byte} {name : List Byte} {x : List Char} (hn : chainNew "log" h .accept [] [{ Bf.Sample.rule [] .accept with log := 0xFF }] = .ok (ops h))
    (hs : SockAbi base.sock)
    (hx : (match Bf.Sample.result (envOf base (ops h)) (ops h) { Bf.Sample.w0 with logs := [] } with
      | some (_, w') => decide (prints b name w' = x) | none => false) = true) :
    ∃ img r w', IsLoaded (envOf base (ops h)) (ops h) Bf.Sample.thr img ∧ Runs (envOf base (ops h)) img { Bf.Sample.w0 with logs := [] } r w' ∧
      prints b name w' = x := by
  obtain ⟨img, r, w', h1, h2, h3⟩ := Bf.Sample.runs_result (base := base) (chain := ops h) (w := { Bf.Sample.w0 with logs := [] })
    (P := fun _ w' => decide (prints b name w' = x)) (.new hn) (by intro r hr m hm; simp [ops] at hr; subst hr; cases hm)
    (⟨(by intro s hs; cases hs), (by simp [ops])⟩) (by simp [ops]) (by show (buildGroups []).length < _; decide) (fun _ => hs) hx
  exact ⟨img, r, w', h1, h2, of_decide_eq_true h3⟩

/-- A connection to 10.0.0.2, port 80, by `curl`. -/
theorem C55_shown_sock : ∃ img r w', IsLoaded (envOf (Bf.Sample.sock 6) (ops .connect4)) (ops .connect4) Bf.Sample.thr img ∧
    Runs (envOf (Bf.Sample.sock 6) (ops .connect4)) img { Bf.Sample.w0 with logs := [] } r w' ∧
    prints 0 [99, 117, 114, 108] w' = ("\n[0.000005] Rule #0 verdict ACCEPT\n" ++ "  IPv4      : → 10.0.0.2 [tcp]\n" ++ "  TCP       : → 80   \n" ++
      "  PID       : 1234\n" ++ "  Process   : curl\n").toList :=
  ops_run rfl (Bf.Sample.sockAbi 6) (by decide +kernel)

/-- **C55 fails** for the protocols above 255: an MPTCP socket is reported as a TCP one. -/
theorem C55_mptcp : ∃ img r w', IsLoaded (envOf (Bf.Sample.sock 262) (ops .connect4)) (ops .connect4) Bf.Sample.thr img ∧
    Runs (envOf (Bf.Sample.sock 262) (ops .connect4)) img { Bf.Sample.w0 with logs := [] } r w' ∧
    (sockView (Bf.Sample.sock 262).sock).proto = 262 ∧
    prints 0 [99, 117, 114, 108] w' = ("\n[0.000005] Rule #0 verdict ACCEPT\n" ++ "  IPv4      : → 10.0.0.2 [tcp]\n" ++ "  TCP       : → 80   \n" ++
      "  PID       : 1234\n" ++ "  Process   : curl\n").toList := by
  obtain ⟨img, r, w', h1, h2, h3⟩ := ops_run (h := .connect4) (base := Bf.Sample.sock 262) (b := 0) (name := [99, 117, 114, 108])
    (x := ("\n[0.000005] Rule #0 verdict ACCEPT\n" ++ "  IPv4      : → 10.0.0.2 [tcp]\n" ++ "  TCP       : → 80   \n" ++
      "  PID       : 1234\n" ++ "  Process   : curl\n").toList) rfl (Bf.Sample.sockAbi 262) (by decide +kernel)
  exact ⟨img, r, w', h1, h2, by decide, h3⟩

/-- **C55 fails** for the IPv4 datagrams of IPv6 sockets: the address 10.0.0.2 is reported as the IPv6 address a00:2::. -/
theorem C55_family : ∃ img r w', IsLoaded (envOf mapped (ops .sendmsg4)) (ops .sendmsg4) Bf.Sample.thr img ∧
    Runs (envOf mapped (ops .sendmsg4)) img { Bf.Sample.w0 with logs := [] } r w' ∧
    (sockView mapped.sock).daddr4 = [10, 0, 0, 2] ∧
    prints 0 [100, 105, 103] w' = ("\n[0.000005] Rule #0 verdict ACCEPT\n" ++ "  IPv6      : :: → a00:2:: [udp]\n" ++ "  UDP       : → 80   \n" ++
      "  PID       : 1234\n" ++ "  Process   : dig\n").toList := by
  obtain ⟨img, r, w', h1, h2, h3⟩ := ops_run (h := .sendmsg4) (base := mapped) (b := 0) (name := [100, 105, 103])
    (x := ("\n[0.000005] Rule #0 verdict ACCEPT\n" ++ "  IPv6      : :: → a00:2:: [udp]\n" ++ "  UDP       : → 80   \n" ++
      "  PID       : 1234\n" ++ "  Process   : dig\n").toList) rfl ⟨rfl, rfl, by decide⟩ (by decide +kernel)
  exact ⟨img, r, w', h1, h2, by decide, h3⟩

/-- **C55 fails** for the processes whose name has control characters: they are printed as they are.  A name that ends with an escape code that erases the line and
moves up hides lines of the report; one with a newline adds a line to it. -/
theorem C55_name : ∃ img r w', IsLoaded (envOf (Bf.Sample.sock 6) (ops .connect4)) (ops .connect4) Bf.Sample.thr img ∧
    Runs (envOf (Bf.Sample.sock 6) (ops .connect4)) img { Bf.Sample.w0 with logs := [] } r w' ∧
    prints 0 [0x0A, 0x20, 0x20, 0x50, 0x49, 0x44, 0x20, 0x3A, 0x20, 0x31, 0x1B, 0x5B, 0x32, 0x41] w' =
      ("\n[0.000005] Rule #0 verdict ACCEPT\n" ++ "  IPv4      : → 10.0.0.2 [tcp]\n" ++ "  TCP       : → 80   \n" ++
      "  PID       : 1234\n" ++ "  Process   : \n" ++ "  PID : 1\x1b[2A\n").toList :=
  ops_run rfl (Bf.Sample.sockAbi 6) (by decide +kernel)

end Bf.Cli.Sample
