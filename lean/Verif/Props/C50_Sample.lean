import Verif.Props.C50_Raw
/-!
# C50: samples
-/
namespace Bf.Cli
open Bf.Spec

def edgeBad : BSet := ⟨some "bad", [.ip4Saddr, .tcpDport], 6, false, [[1, 2, 3, 4, 0, 22], [1, 2, 3, 5, 0, 80]]⟩
def edgePorts : BSet := ⟨none, [.tcpDport], 2, false, [[0, 22], [1, 0xbb]]⟩

def edge : Chain where
  name := "edge"
  hook := .tcIngress
  policy := .accept
  sets := [edgeBad, edgePorts]
  rules :=
    [⟨0, [⟨.ip6Snet, .eq, net0, true⟩, ⟨.set, .in_, leBytes 4 0, false⟩], 0, 0, 0, true, false, .drop, 0, .egress⟩,
     ⟨1, [⟨.tcpFlags, .any, [0x12], false⟩, ⟨.set, .in_, leBytes 4 1, true⟩, ⟨.metaIface, .eq, [1, 0, 0, 0], false⟩], 0x05, 10000000, 0x100000010, true, false, .redirect, 3, .egress⟩]
  flagLog := true
  flagRate := true
  flagNexthdr := false

def edgeO : HookOpts := { HookOpts.new with usedIfindex := true, ifindex := 2 }
def edgeK : Counts := ⟨(10, 1000), (0, 0), fun _ => (3, 180)⟩
def edgeRate (w : List Char) : Option Nat := if w = "10ms".toList then some 10000000 else none
def edgeEnv : PEnv := ⟨env0, edgeRate, fun _ _ _ => 0xAA, 1000⟩


def edgeText : List Char := "chain edge BF_HOOK_TC_INGRESS{ifindex=2} ACCEPT
    counters policy 10 packets 1000 bytes; error 0 packets 0 bytes
    set bad (ip4.saddr, tcp.dport) in {
        1.2.3.4, 22
        1.2.3.5, 80
    }
    rule
        ip6.snet not eq 2001:db8::/32
        (ip4.saddr, tcp.dport) in bad
        counters 3 packets 180 bytes
        DROP
    rule
        tcp.flags any syn,ack
        (tcp.dport) not in {
            22
            443
        }
        meta.iface eq lo
        log link,transport every 10ms
        mark 0x10
        counters 3 packets 180 bytes
        REDIRECT 3 out
".toList

/-- What is printed of the chain. -/
theorem edge_printed : chainDump env0 edge (some edgeO) edgeK false = .ok edgeText := by decide +kernel

theorem elem_shown {key : List MType} {comps : List (MType × List Byte)} (h1 : comps.map (·.1) = key) (h2 : ∀ c ∈ comps, PayloadOk c.1 .in_ c.2) :
    ElemShown key (comps.map (·.2)).flatten := ⟨comps, h1, rfl, h2⟩

theorem edge_shown : ChainShown env0 edgeRate edge (some edgeO) where
  name := name_of (by decide) (by decide)
  opts := by
    intro ho h
    cases h
    exact ⟨by decide, by decide, by decide, by decide⟩
  policy := Or.inl rfl
  sets := by
    intro s hs
    simp only [edge, List.mem_cons, List.not_mem_nil, or_false] at hs
    rcases hs with rfl | rfl
    · refine ⟨⟨by decide, by decide, by decide, by decide⟩, by decide, ?_, ?_⟩
      · intro e he
        simp only [edgeBad, List.mem_cons, List.not_mem_nil, or_false] at he
        rcases he with rfl | rfl
        · refine elem_shown (comps := [(.ip4Saddr, [1, 2, 3, 4]), (.tcpDport, [0, 22])]) rfl fun c hc => ?_
          simp only [List.mem_cons, List.not_mem_nil, or_false] at hc
          rcases hc with rfl | rfl <;> constructor <;> decide
        · refine elem_shown (comps := [(.ip4Saddr, [1, 2, 3, 5]), (.tcpDport, [0, 80])]) rfl fun c hc => ?_
          simp only [List.mem_cons, List.not_mem_nil, or_false] at hc
          rcases hc with rfl | rfl <;> constructor <;> decide
      · intro n hn
        cases hn
        exact name_of (by decide) (by decide)
    · refine ⟨⟨by decide, by decide, by decide, by decide⟩, by decide, ?_, fun n hn => by cases hn⟩
      intro e he
      simp only [edgePorts, List.mem_cons, List.not_mem_nil, or_false] at he
      rcases he with rfl | rfl
      · refine elem_shown (comps := [(.tcpDport, [0, 22])]) rfl fun c hc => ?_
        cases List.mem_singleton.mp hc
        constructor <;> decide
      · refine elem_shown (comps := [(.tcpDport, [1, 0xbb])]) rfl fun c hc => ?_
        cases List.mem_singleton.mp hc
        constructor <;> decide
  named := ⟨[edgeBad], by decide, fun s hs => by cases List.mem_singleton.mp hs; decide⟩
  index := by
    intro i r h
    match i, h with
    | 0, h => cases h; rfl
    | 1, h => cases h; rfl
    | i + 2, h => simp [edge] at h
  rules := by
    intro r hr
    simp only [edge, List.mem_cons, List.not_mem_nil, or_false] at hr
    rcases hr with rfl | rfl
    · refine ⟨by simp, fun m hm => ?_, by decide, by decide, by decide⟩
      simp only [List.mem_cons, List.not_mem_nil, or_false] at hm
      rcases hm with rfl | rfl
      · refine ⟨(fun h => by cases h), fun _ => ⟨by decide, by constructor <;> decide, rfl, by decide, (fun h => by cases h), ?_⟩⟩
        intro _
        have : printPayload env0 .ip6Snet .eq net0 = "2001:db8::/32".toList := by decide +kernel
        show '.' ∉ printPayload env0 .ip6Snet .eq net0
        rw [this]
        decide
      · refine ⟨fun _ => ⟨rfl, 0, edgeBad, ⟨by decide, rfl⟩, fun n _ j s' hj _ => by omega⟩, fun h => absurd rfl h⟩
    · refine ⟨by simp, fun m hm => ?_, by decide, ⟨by decide, fun _ => by decide +kernel⟩, fun _ => ⟨by decide, by decide +kernel⟩⟩
      simp only [List.mem_cons, List.not_mem_nil, or_false] at hm
      rcases hm with rfl | rfl | rfl
      · refine ⟨(fun h => by cases h), fun _ => ⟨by decide, by constructor <;> decide, rfl, by decide, (fun h => by cases h), by decide⟩⟩
      · refine ⟨fun _ => ⟨rfl, 1, edgePorts, ⟨by decide, rfl⟩, (fun n h => by cases h)⟩, fun h => absurd rfl h⟩
      · refine ⟨(fun h => by cases h), fun _ => ⟨by decide, by constructor <;> decide, rfl, by decide, ?_, by decide⟩⟩
        intro _ n hn
        have : n = "lo".toList := by
          have e : env0.indexToName (leNat [1, 0, 0, 0]) = some "lo".toList := by decide
          exact Option.some.inj (hn.symm.trans e)
        subst this
        exact ⟨by decide, reserved_of (by decide)⟩

/-- It is read back as a chain that is alike. -/
theorem C50_edge : ∃ c', bfcParse edgeEnv (edit edgeText) = some (.ok [c']) ∧ ChainAlike (edge, some edgeO) c' := by
  obtain ⟨t, h1, h2⟩ := C50_round_partial (e := edgeEnv) env0_ok edge_shown edgeK
  have h1 := edge_printed.symm.trans h1
  injection h1 with h1
  rw [← h1] at h2
  obtain ⟨h3, h4⟩ := h2 (by decide +kernel) (by decide)
  obtain ⟨rs, h⟩ := h3.mpr ⟨by decide, fun r hr => by
      simp only [edge, List.mem_cons, List.not_mem_nil, or_false] at hr
      rcases hr with rfl | rfl
      · exact ⟨by decide, by decide +kernel, fun _ => trivial, fun h => by cases h⟩
      · exact ⟨by decide, by decide +kernel, fun _ => trivial, fun h => by cases h⟩⟩
  obtain ⟨c', rfl, h5⟩ := h4 rs h
  exact ⟨c', h, h5⟩

/-- As it is printed, it is refused. -/
example (e : PEnv) : bfcParse e edgeText = some (.err .EINVAL) :=
  C50_raw_refused edge_shown.name edge_shown.opts edge_shown.policy edge_printed e

/-! ## What is wrong with it -/

/-- The text of a chain with an empty set cannot be read (`C50_round_partial`). -/
theorem C50_empty {e : PEnv} (he : TextEnvOk e.text) {c : Chain} {o : Option HookOpts} (h : ChainShown e.text e.rate c o) {x : BSet} (hx : x ∈ c.sets) (hemp : x.elems = [])
    (k : Counts) (hn : c.sets.length ≤ 4294967296) : ∃ text, chainDump e.text c o k false = .ok text ∧ (text.length + 4 ≤ e.fuel → ¬ ∃ rs, bfcParse e (edit text) = some (.ok rs)) := by
  obtain ⟨t, h1, h2⟩ := C50_round_partial he h k
  exact ⟨t, h1, fun hf hrs => ((h2 hf hn).1.mp hrs).1 x hx hemp⟩

def empty0 : Chain := { edge with rules := [], sets := [⟨some "bad", [.tcpDport], 2, false, []⟩] }

theorem empty0_shown : ChainShown env0 edgeRate empty0 none where
  name := edge_shown.name
  opts := by intro ho h; cases h
  policy := Or.inl rfl
  sets := by
    intro s hs
    cases List.mem_singleton.mp hs
    exact ⟨⟨by decide, by decide, by decide, by decide⟩, by decide, (fun e he => by cases he), fun n hn => by cases hn; exact name_of (by decide) (by decide)⟩
  named := ⟨empty0.sets, by decide, fun s hs => by cases List.mem_singleton.mp hs; decide⟩
  rules := by intro r hr; cases hr
  index := by intro i r hr; cases hr

/-- It is not even refused: `bfcli` loops. -/
theorem C50_empty_loops (fuel : Nat) : bfcParse { edgeEnv with fuel := fuel } "chain edge BF_HOOK_TC_INGRESS ACCEPT
    set bad (tcp.dport) in {
    }
".toList = none := by
  have hp : parse (lex "chain edge BF_HOOK_TC_INGRESS ACCEPT
    set bad (tcp.dport) in {
    }
".toList) = some [⟨"edge".toList, "BF_HOOK_TC_INGRESS".toList, [], "ACCEPT".toList, [⟨"bad".toList, "(tcp.dport)".toList, some "in".toList, "{
    }".toList⟩], []⟩] := by decide +kernel
  have hd := C37_diverges env0 (edgeEnv.mem 0) (some "bad") (rawKey := "(tcp.dport)".toList) (rawPayload := "{
    }".toList) (key := [.tcpDport]) ⟨by decide, by decide, by
      rw [show tokens (fun c => c = '(' || c = ')' || c = ',') "(tcp.dport)".toList = ["tcp.dport".toList] by decide]
      exact .cons (by decide) .nil⟩ ⟨by decide, by decide⟩ ⟨"    ".toList, by decide, by decide⟩ fuel
  unfold bfcParse
  rw [hp]
  dsimp only
  unfold chainsAct chainAct
  dsimp only
  rw [show orAbort (Hook.fromStr (String.ofList "BF_HOOK_TC_INGRESS".toList)) = some (.ok .tcIngress) by decide +kernel]
  unfold Run.bind
  dsimp only [hookoptsAct]
  rw [show orAbort (Verdict.fromStr (String.ofList "ACCEPT".toList)) = some (.ok .accept) by decide +kernel]
  dsimp only
  unfold setsAct setAct
  dsimp only
  rw [show opOf (some "in".toList) = some (.ok .in_) by decide +kernel]
  unfold Run.bind
  dsimp only
  rw [if_neg (by decide), show String.ofList "bad".toList = "bad" by decide]
  have hd : setNewFromRaw edgeEnv.text (edgeEnv.mem 0) fuel (some "bad") "(tcp.dport)".toList "{
    }".toList = none := hd
  rw [hd]
  rfl

/-- Without the content of the sets, `not in` is printed `in`. -/
theorem C50_elided_not {env : TextEnv} {s : BSet} (h : s.name = none) : setMatcherText env true true s = setMatcherText env true false s := by
  unfold setMatcherText
  rw [h]
  rfl

def only (m : Matcher) : Chain := { edge with sets := [], rules := [⟨0, [m], 0, 0, 0, false, false, .drop, 0, .ingress⟩] }

def onlyText (w : String) : List Char := ("chain edge BF_HOOK_TC_INGRESS ACCEPT
    rule
        " ++ w ++ "
        DROP
").toList

def printedAs (env : TextEnv) (c : Chain) (t : List Char) : Bool :=
  match chainDump env c none edgeK false with
  | .ok x => edit x == t
  | _ => false

/-- `::ffff:1.2.3.4`: an address of IPv6 is printed with dots the lexer does not know. -/
theorem C50_mapped_refused : printedAs env0 (only ⟨.ip6Saddr, .eq, [0, 0, 0, 0, 0, 0, 0, 0, 0, 0, 0xff, 0xff, 1, 2, 3, 4], false⟩) (onlyText "ip6.saddr eq ::ffff:1.2.3.4") = true ∧
    bfcParse edgeEnv (onlyText "ip6.saddr eq ::ffff:1.2.3.4") = some (.err .EINVAL) := by decide +kernel

/-- No flag at all is printed as nothing. -/
theorem C50_flags_refused : printedAs env0 (only ⟨.tcpFlags, .eq, [0], false⟩) (onlyText "tcp.flags eq ") = true ∧
    bfcParse edgeEnv (onlyText "tcp.flags eq ") = some (.err .EINVAL) := by decide +kernel

def vlanEnv : TextEnv := ⟨fun s => if s = "eth0.100".toList then 4 else 0, fun i => if i = 4 then some "eth0.100".toList else none, fun _ => none, fun _ => []⟩

/-- The names of VLAN interfaces have dots. -/
theorem C50_vlan_refused : printedAs vlanEnv (only ⟨.metaIface, .eq, [4, 0, 0, 0], false⟩) (onlyText "meta.iface eq eth0.100") = true ∧
    bfcParse { edgeEnv with text := vlanEnv } (onlyText "meta.iface eq eth0.100") = some (.err .EINVAL) := by decide +kernel

def numEnv : TextEnv := ⟨fun s => if s = "3".toList then 7 else 0, fun i => if i = 7 then some "3".toList else none, fun _ => none, fun _ => []⟩

/-- The interface of a redirection is printed as its index, which is read as a name first. -/
theorem C50_redirect_other : printedAs numEnv { edge with sets := [], rules := [⟨0, [⟨.tcpFlags, .any, [2], false⟩], 0, 0, 0, false, false, .redirect, 3, .egress⟩] }
    "chain edge BF_HOOK_TC_INGRESS ACCEPT
    rule
        tcp.flags any syn
        REDIRECT 3 out
".toList = true ∧
    isOk (fun rs => rs.all fun x => x.1.rules.all fun r => r.redirIfindex = 7) (bfcParse { edgeEnv with text := numEnv } "chain edge BF_HOOK_TC_INGRESS ACCEPT
    rule
        tcp.flags any syn
        REDIRECT 3 out
".toList) = true := by decide +kernel

end Bf.Cli
