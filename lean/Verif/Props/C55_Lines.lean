import Verif.Cli.LogLemmas
/-!
# C55: the lines of a log entry
-/
namespace Bf.Cli
open Spec

/-- A text is printed, with or without colours, that satisfies `T`. -/
def Renders (a : List Char) (T : List Char → Prop) : Prop := ∃ u, Coloured a u ∧ T u

theorem coloured_str (s : String) (h : '\x1b' ∉ s.toList := by decide) : Coloured (str s) s.toList := coloured_same h

theorem ethertype_text (n : Nat) : ∃ e, EtherText n e ∧ '\x1b' ∉ e ∧ '\n' ∉ e ∧ (match ethertypeToStr n with
    | some x => str " (" ++ (str x ++ str ")\n")
    | none => str " (" ++ (printHex4 n ++ str ")\n")) = " (".toList ++ e ++ ")\n".toList := by
  unfold ethertypeToStr
  by_cases h1 : n = 0x0800
  · subst h1; exact ⟨"ipv4".toList, Or.inl .ipv4, by decide, by decide, by decide⟩
  rw [if_neg h1]
  by_cases h2 : n = 0x86dd
  · subst h2; exact ⟨"ipv6".toList, Or.inl .ipv6, by decide, by decide, by decide⟩
  rw [if_neg h2]
  refine ⟨printHex4 n, Or.inr ⟨?_, hex4_hex n⟩, hex4_not (by decide) (by decide), hex4_not (by decide) (by decide), by simp [str]⟩
  rintro x (_ | _)
  · exact h1 rfl
  · exact h2 rfl

theorem link_eq {t : Term} {s : LogSlot} (hb : s.headers.getLsbD 0 = true) : ∃ e, EtherText (Spec.beNat (part s.l2hdr 12 2)) e ∧ '\n' ∉ e ∧
    Coloured (logL2 t s) ("  Ethernet  : ".toList ++ macText (part s.l2hdr 6 6) ++ " → ".toList ++ macText (part s.l2hdr 0 6) ++ " (".toList ++ e ++ ")\n".toList) := by
  obtain ⟨e, h1, h2, h3, h4⟩ := ethertype_text (Spec.beNat (part s.l2hdr 12 2))
  refine ⟨e, h1, h3, ?_⟩
  unfold logL2
  rw [if_neg (by simp [hb])]
  have e1 := coloured_append (coloured_str "  Ethernet  : ") (coloured_append (coloured_paint (t := t) (code := "1;33") (coloured_same
    (macText_not (part s.l2hdr 6 6) (x := '\x1b') (by decide) (by decide)))) (coloured_append (coloured_str " → ")
    (coloured_append (coloured_paint (t := t) (code := "1;33") (coloured_same (macText_not (part s.l2hdr 0 6) (x := '\x1b') (by decide) (by decide))))
    (coloured_same (a := " (".toList ++ e ++ ")\n".toList) (by simp [h2])))))
  rw [← h4] at e1
  rw [show "  Ethernet  : ".toList ++ macText (part s.l2hdr 6 6) ++ " → ".toList ++ macText (part s.l2hdr 0 6) ++ " (".toList ++ e ++ ")\n".toList =
    "  Ethernet  : ".toList ++ (macText (part s.l2hdr 6 6) ++ (" → ".toList ++ (macText (part s.l2hdr 0 6) ++ (" (".toList ++ e ++ ")\n".toList)))) by simp]
  rw [← h4]
  exact e1

theorem link_line {t : Term} {s : LogSlot} {h : List Byte} (hb : s.headers.getLsbD 0 = true) (hp : h <+: s.l2hdr) (hl : h.length = 14) :
    Renders (logL2 t s) (LinkText h) := by
  obtain ⟨e, h1, _, h2⟩ := link_eq (t := t) hb
  refine ⟨_, h2, _, _, e, ?_, ?_, ?_, rfl⟩
  · rw [part_prefix hp (by omega)]
    exact mac_text _ (fun e => by have := part_length (h := h) (o := 6) (n := 6) (by omega); rw [e] at this; cases this)
  · rw [part_prefix hp (by omega)]
    exact mac_text _ (fun e => by have := part_length (h := h) (o := 0) (n := 6) (by omega); rw [e] at this; cases this)
  · rw [← part_prefix hp (by omega)]; exact h1

theorem link_any {t : Term} {s : LogSlot} : Renders (logL2 t s) (LinkLine none) := by
  by_cases hb : s.headers.getLsbD 0 = true
  · obtain ⟨e, _, h1, h2⟩ := link_eq (t := t) hb
    refine ⟨_, h2, macText (part s.l2hdr 6 6) ++ " → ".toList ++ macText (part s.l2hdr 0 6) ++ " (".toList ++ e ++ ")".toList, by simp, ?_⟩
    have a := macText_not (part s.l2hdr 6 6) (x := '\n') (by decide) (by decide)
    have b := macText_not (part s.l2hdr 0 6) (x := '\n') (by decide) (by decide)
    simp [a, b, h1]
  · unfold logL2
    rw [if_pos (by simpa using hb)]
    exact ⟨_, coloured_str _, "<unknown header>".toList, by decide, by decide⟩

theorem no_dot {a : List Byte} {t : List Char} (h : Ip4Text a t) : '\x1b' ∉ t := ip4_not h (by decide) (by decide)

theorem net_absent {t : Term} {s : LogSlot} (h0 : s.l3Proto = 0) : Renders (logL3 t s) (Unknown "  Internet  : ") := by
  unfold logL3
  by_cases hb : s.headers.getLsbD 1 = true
  · rw [if_neg (by simp [hb]), h0, if_neg (by decide), if_neg (by decide)]
    refine ⟨_, coloured_same ?_, "protocol 0x0000".toList, ?_, by decide, by decide⟩ <;> decide +kernel
  · rw [if_pos (by simpa using hb)]
    exact ⟨_, coloured_str _, "header".toList, by decide, by decide, by decide⟩

theorem net_line4 {t : Term} {s : LogSlot} {h : List Byte} (hb : s.headers.getLsbD 1 = true) (h0 : s.l3Proto = 0x0800) (hp : h <+: s.l3hdr)
    (hl : h.length = 20) : Renders (logL3 t s) (InetText (.ip4, h)) := by
  have hs := ntop4_text (part_length (h := h) (o := 12) (n := 4) (by omega))
  have hd := ntop4_text (part_length (h := h) (o := 16) (n := 4) (by omega))
  obtain ⟨p, hpt, hpc⟩ := proto_text (t := t) (code := "1;95") (pre := "proto=")
    (beNat_byte (part_length (h := h) (o := 9) (n := 1) (by omega))) (by decide) (by decide)
  refine ⟨_, ?_, _, _, p, _, filled_pad (w := 15) hs, filled_pad (w := 15) hd, hpt, numeral_print _, rfl⟩
  unfold logL3
  rw [if_neg (by simp [hb]), if_pos h0]
  unfold ip4Text byteField beField
  rw [show (s.l3hdr.drop 12).take 4 = part h 12 4 from part_prefix hp (by omega), show (s.l3hdr.drop 16).take 4 = part h 16 4 from part_prefix hp (by omega),
    show (s.l3hdr.drop 9).take 1 = part h 9 1 from part_prefix hp (by omega), show (s.l3hdr.drop 8).take 1 = part h 8 1 from part_prefix hp (by omega)]
  have key := coloured_append (coloured_str "  IPv4      : ") (coloured_append (coloured_paint (t := t) (code := "1;36") (coloured_pad (w := 15) (no_dot hs)))
    (coloured_append (coloured_str " → ") (coloured_append (coloured_paint (t := t) (code := "1;36") (coloured_pad (w := 15) (no_dot hd)))
    (coloured_append (coloured_str " [") (coloured_append hpc (coloured_append (coloured_str ", TTL=") (coloured_append
      (coloured_num (Spec.beNat (part h 8 1))) (coloured_str "]\n"))))))))
  cases hq : ipprotoToStr (Spec.beNat (part h 9 1)) with
  | some n => rw [hq] at key; simpa using key
  | none =>
    rw [hq] at key
    have : str " [" ++ (str "proto=" ++ printNat 10 (Spec.beNat (part h 9 1)) ++ (str ", TTL=" ++ (printNat 10 (Spec.beNat (part h 8 1)) ++ str "]\n"))) =
      str " [proto=" ++ (printNat 10 (Spec.beNat (part h 9 1)) ++ (str ", TTL=" ++ (printNat 10 (Spec.beNat (part h 8 1)) ++ str "]\n"))) := by simp [str]
    rw [this] at key
    simpa using key

theorem net_line6 {t : Term} {s : LogSlot} {h : List Byte} (hb : s.headers.getLsbD 1 = true) (h0 : s.l3Proto = 0x86DD) (hp : h <+: s.l3hdr)
    (hl : h.length = 40) : Renders (logL3 t s) (InetText (.ip6, h)) := by
  have hs := ntop6_text (part_length (h := h) (o := 8) (n := 16) (by omega))
  have hd := ntop6_text (part_length (h := h) (o := 24) (n := 16) (by omega))
  obtain ⟨p, hpt, hpc⟩ := proto_text (t := t) (code := "1;95") (pre := "nexthdr=")
    (beNat_byte (part_length (h := h) (o := 6) (n := 1) (by omega))) (by decide) (by decide)
  refine ⟨_, ?_, _, _, p, _, hs, hd, hpt, numeral_print _, rfl⟩
  unfold logL3
  rw [if_neg (by simp [hb]), if_neg (by rw [h0]; decide), if_pos h0]
  unfold ip6Text byteField beField
  rw [show (s.l3hdr.drop 8).take 16 = part h 8 16 from part_prefix hp (by omega), show (s.l3hdr.drop 24).take 16 = part h 24 16 from part_prefix hp (by omega),
    show (s.l3hdr.drop 6).take 1 = part h 6 1 from part_prefix hp (by omega), show (s.l3hdr.drop 7).take 1 = part h 7 1 from part_prefix hp (by omega)]
  have key := coloured_append (coloured_str "  IPv6      : ") (coloured_append (coloured_paint (t := t) (code := "1;96") (coloured_same (ip6_not hs (x := '\x1b') (by decide))))
    (coloured_append (coloured_str " → ") (coloured_append (coloured_paint (t := t) (code := "1;96") (coloured_same (ip6_not hd (x := '\x1b') (by decide))))
    (coloured_append (coloured_str " [") (coloured_append hpc (coloured_append (coloured_str ", Hop=") (coloured_append
      (coloured_num (Spec.beNat (part h 7 1))) (coloured_str "]\n"))))))))
  cases hq : ipprotoToStr (Spec.beNat (part h 6 1)) with
  | some n => rw [hq] at key; simpa using key
  | none =>
    rw [hq] at key
    have : str " [" ++ (str "nexthdr=" ++ printNat 10 (Spec.beNat (part h 6 1)) ++ (str ", Hop=" ++ (printNat 10 (Spec.beNat (part h 7 1)) ++ str "]\n"))) =
      str " [nexthdr=" ++ (printNat 10 (Spec.beNat (part h 6 1)) ++ (str ", Hop=" ++ (printNat 10 (Spec.beNat (part h 7 1)) ++ str "]\n"))) := by simp [str]
    rw [this] at key
    simpa using key

theorem trans_absent {t : Term} {s : LogSlot} (h0 : s.l4Proto = 0) : Renders (logL4 t s) (Unknown "  Transport : ") := by
  unfold logL4
  by_cases hb : s.headers.getLsbD 2 = true
  · rw [if_neg (by simp [hb]), h0, if_neg (by decide), if_neg (by decide), if_neg (by decide), if_neg (by decide)]
    refine ⟨_, coloured_same ?_, "protocol 0".toList, ?_, by decide, by decide⟩ <;> decide +kernel
  · rw [if_pos (by simpa using hb)]
    exact ⟨_, coloured_str _, "header".toList, by decide, by decide, by decide⟩

theorem flags_names : ∀ v < 256, (flagNames v = [] ↔ tcpFlagsGo 8 0 true v = []) ∧ List.intercalate [','] (flagNames v) = tcpFlagsGo 8 0 true v ∧
    '\x1b' ∉ tcpFlagsGo 8 0 true v := by decide +kernel

theorem flags_text (t : Term) {v : Nat} (hv : v < 256) : ∃ f, FlagText v f ∧
    Coloured (if tcpFlagsGo 8 0 true v = [] then [] else str " [" ++ (paint t "1;92" (tcpFlagsGo 8 0 true v) ++ str "]")) f := by
  obtain ⟨h1, h2, h3⟩ := flags_names v hv
  by_cases h : tcpFlagsGo 8 0 true v = []
  · rw [if_pos h]
    exact ⟨_, Or.inl ⟨h1.mpr h, rfl⟩, .nil⟩
  · rw [if_neg h]
    refine ⟨_, Or.inr ⟨fun e => h (h1.mp e), rfl⟩, ?_⟩
    rw [h2]
    have := coloured_append (coloured_str " [") (coloured_append (coloured_paint (t := t) (code := "1;92") (coloured_same h3)) (coloured_str "]"))
    simpa using this

theorem coloured_padNum (w n : Nat) : Coloured (padRight w (printNat 10 n)) (padRight w (printNat 10 n)) := coloured_pad (num_esc n)

theorem trans_tcp {t : Term} {s : LogSlot} {h : List Byte} (hb : s.headers.getLsbD 2 = true) (h0 : s.l4Proto = 6) (hp : h <+: s.l4hdr)
    (hl : h.length = 20) : Renders (logL4 t s) (TransText (.tcp, h)) := by
  obtain ⟨f, hf, hc⟩ := flags_text t (beNat_byte (part_length (h := h) (o := 13) (n := 1) (by omega)))
  refine ⟨_, ?_, _, _, f, _, _, _, filled_pad (w := 5) (numeral_print _), filled_pad (w := 5) (numeral_print _), hf, filled_pad (w := 10) (numeral_print _),
    filled_pad (w := 10) (numeral_print _), filled_pad (w := 5) (numeral_print _), rfl⟩
  unfold logL4
  rw [if_neg (by simp [hb]), if_pos h0]
  unfold byteField beField
  rw [show (s.l4hdr.drop 0).take 2 = part h 0 2 from part_prefix hp (by omega), show (s.l4hdr.drop 2).take 2 = part h 2 2 from part_prefix hp (by omega),
    show (s.l4hdr.drop 13).take 1 = part h 13 1 from part_prefix hp (by omega), show (s.l4hdr.drop 4).take 4 = part h 4 4 from part_prefix hp (by omega),
    show (s.l4hdr.drop 8).take 4 = part h 8 4 from part_prefix hp (by omega), show (s.l4hdr.drop 14).take 2 = part h 14 2 from part_prefix hp (by omega)]
  have key := coloured_append (coloured_str "  TCP       : ") (coloured_append (coloured_paint (t := t) (code := "1;93") (coloured_padNum 5 (Spec.beNat (part h 0 2))))
    (coloured_append (coloured_str " → ") (coloured_append (coloured_paint (t := t) (code := "1;93") (coloured_padNum 5 (Spec.beNat (part h 2 2))))
    (coloured_append hc (coloured_append (coloured_str "\n              seq=") (coloured_append (coloured_padNum 10 (Spec.beNat (part h 4 4)))
    (coloured_append (coloured_str " ack=") (coloured_append (coloured_padNum 10 (Spec.beNat (part h 8 4)))
    (coloured_append (coloured_str " win=") (coloured_append (coloured_padNum 5 (Spec.beNat (part h 14 2))) (coloured_str "\n")))))))))))
  simpa using key

theorem trans_udp {t : Term} {s : LogSlot} {h : List Byte} (hb : s.headers.getLsbD 2 = true) (h0 : s.l4Proto = 17) (hp : h <+: s.l4hdr)
    (hl : h.length = 8) : Renders (logL4 t s) (TransText (.udp, h)) := by
  refine ⟨_, ?_, _, _, _, filled_pad (w := 5) (numeral_print _), filled_pad (w := 5) (numeral_print _), numeral_print _, rfl⟩
  unfold logL4
  rw [if_neg (by simp [hb]), if_neg (by rw [h0]; decide), if_pos h0]
  unfold beField
  rw [show (s.l4hdr.drop 0).take 2 = part h 0 2 from part_prefix hp (by omega), show (s.l4hdr.drop 2).take 2 = part h 2 2 from part_prefix hp (by omega),
    show (s.l4hdr.drop 4).take 2 = part h 4 2 from part_prefix hp (by omega)]
  have key := coloured_append (coloured_str "  UDP       : ") (coloured_append (coloured_paint (t := t) (code := "1;93") (coloured_padNum 5 (Spec.beNat (part h 0 2))))
    (coloured_append (coloured_str " → ") (coloured_append (coloured_paint (t := t) (code := "1;93") (coloured_padNum 5 (Spec.beNat (part h 2 2))))
    (coloured_append (coloured_str " [len=") (coloured_append (coloured_num (Spec.beNat (part h 4 2))) (coloured_str "]\n"))))))
  simpa using key

theorem echo_text {p : Prop} [Decidable p] {s h : List Byte} (hp : h <+: s) (hl : h.length = 8) : ∃ e, EchoText p h e ∧
    Coloured (if p then str " [id=" ++ (printNat 10 (Spec.beNat ((s.drop 4).take 2)) ++ (str " seq=" ++ (printNat 10 (Spec.beNat ((s.drop 6).take 2)) ++ str "]\n")))
      else ['\n']) (e ++ ['\n']) := by
  rw [show (s.drop 4).take 2 = part h 4 2 from part_prefix hp (by omega), show (s.drop 6).take 2 = part h 6 2 from part_prefix hp (by omega)]
  by_cases h : p
  · rw [if_pos h]
    unfold EchoText
    simp only [h, decide_true, if_true]
    refine ⟨_, ⟨_, _, numeral_print _, numeral_print _, rfl⟩, ?_⟩
    have key := fun a b : Nat => coloured_append (coloured_str " [id=") (coloured_append (coloured_num a) (coloured_append (coloured_str " seq=")
      (coloured_append (coloured_num b) (coloured_str "]\n"))))
    simpa using key _ _
  · rw [if_neg h]
    unfold EchoText
    simp only [h, decide_false, Bool.false_eq_true, if_false]
    exact ⟨_, rfl, coloured_same (by decide)⟩

theorem trans_icmp {t : Term} {s : LogSlot} {h : List Byte} (hb : s.headers.getLsbD 2 = true) (h0 : s.l4Proto = 1) (hp : h <+: s.l4hdr)
    (hl : h.length = 8) : Renders (logL4 t s) (TransText (.icmp, h)) := by
  obtain ⟨e, he, hc⟩ := echo_text (p := Spec.beNat (part h 0 1) = 8 ∨ Spec.beNat (part h 0 1) = 0) hp hl
  refine ⟨_, ?_, _, _, e, filled_pad (w := 3) (numeral_print _), filled_pad (w := 3) (numeral_print _), he, rfl⟩
  unfold logL4
  rw [if_neg (by simp [hb]), if_neg (by rw [h0]; decide), if_neg (by rw [h0]; decide), if_pos h0]
  unfold byteField beField
  rw [show (s.l4hdr.drop 0).take 1 = part h 0 1 from part_prefix hp (by omega), show (s.l4hdr.drop 1).take 1 = part h 1 1 from part_prefix hp (by omega)]
  have key := coloured_append (coloured_str "  ICMP      : type=") (coloured_append (coloured_padNum 3 (Spec.beNat (part h 0 1)))
    (coloured_append (coloured_str " code=") (coloured_append (coloured_padNum 3 (Spec.beNat (part h 1 1))) hc)))
  simpa using key

theorem trans_icmp6 {t : Term} {s : LogSlot} {h : List Byte} (hb : s.headers.getLsbD 2 = true) (h0 : s.l4Proto = 58) (hp : h <+: s.l4hdr)
    (hl : h.length = 8) : Renders (logL4 t s) (TransText (.icmp6, h)) := by
  obtain ⟨e, he, hc⟩ := echo_text (p := Spec.beNat (part h 0 1) = 128 ∨ Spec.beNat (part h 0 1) = 129) hp hl
  refine ⟨_, ?_, _, _, e, filled_pad (w := 3) (numeral_print _), filled_pad (w := 3) (numeral_print _), he, rfl⟩
  unfold logL4
  rw [if_neg (by simp [hb]), if_neg (by rw [h0]; decide), if_neg (by rw [h0]; decide), if_neg (by rw [h0]; decide), if_pos h0]
  unfold byteField beField
  rw [show (s.l4hdr.drop 0).take 1 = part h 0 1 from part_prefix hp (by omega), show (s.l4hdr.drop 1).take 1 = part h 1 1 from part_prefix hp (by omega)]
  have key := coloured_append (coloured_str "  ICMPv6    : type=") (coloured_append (coloured_padNum 3 (Spec.beNat (part h 0 1)))
    (coloured_append (coloured_str " code=") (coloured_append (coloured_padNum 3 (Spec.beNat (part h 1 1))) hc)))
  simpa using key

end Bf.Cli
