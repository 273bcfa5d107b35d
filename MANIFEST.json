{
 "claims": [
  {
   "property": "C01",
   "status": "proved",
   "theorems": [
    "Bf.C01_returns",
    "Bf.C01_first_match",
    "Bf.C01_rule_decides"
   ],
   "note": "on the flat image of every compiled chain, all hooks"
  },
  {
   "property": "C02",
   "status": "proved",
   "theorems": [
    "Bf.C02_goes_on",
    "Bf.C02_never_decides",
    "Bf.C02_removal"
   ],
   "note": ""
  },
  {
   "property": "C03",
   "status": "proved",
   "theorems": [
    "Bf.C03_counters",
    "Bf.C03_history"
   ],
   "note": "per packet and over any history on one processor; the counters map is per CPU"
  },
  {
   "property": "C04",
   "status": "proved",
   "theorems": [
    "Bf.C04_unreadable",
    "Bf.C04_unreadable_ethernet",
    "Bf.C04_unreadable_network"
   ],
   "note": ""
  },
  {
   "property": "C05",
   "status": "partial",
   "theorems": [
    "Bf.C05_negation_partial",
    "Bf.C05_negation_sock",
    "Bf.C05_fails_port0"
   ],
   "note": "false of the code for meta.sport/dport on port 0 (witness C05_fails_port0); proved for every other case"
  },
  {
   "property": "C06",
   "status": "proved",
   "theorems": [
    "Bf.C06_eq",
    "Bf.C06_blocks"
   ],
   "note": "packet hooks; sock_addr hooks are C40"
  },
  {
   "property": "C07",
   "status": "proved",
   "theorems": [
    "Bf.C07_cidr",
    "Bf.C07_blocks",
    "Bf.C07_number"
   ],
   "note": ""
  },
  {
   "property": "C08",
   "status": "proved",
   "theorems": [
    "Bf.C08_ports",
    "Bf.C08_blocks",
    "Bf.C08_flow_hash"
   ],
   "note": ""
  },
  {
   "property": "C09",
   "status": "proved",
   "theorems": [
    "Bf.C09_flags",
    "Bf.C09_blocks"
   ],
   "note": ""
  },
  {
   "property": "C10",
   "status": "proved",
   "theorems": [
    "Bf.C10_member",
    "Bf.C10_blocks",
    "Bf.C10_isolation"
   ],
   "note": ""
  },
  {
   "property": "C11",
   "status": "proved",
   "theorems": [
    "Bf.C11_networks",
    "Bf.C11_blocks"
   ],
   "note": ""
  },
  {
   "property": "C12",
   "status": "proved",
   "theorems": [
    "Bf.C12_guard",
    "Bf.C12_guard_sock",
    "Bf.C12_counter"
   ],
   "note": ""
  },
  {
   "property": "C13",
   "status": "proved",
   "theorems": [
    "Bf.C13_shape",
    "Bf.C13_terminates"
   ],
   "note": ""
  },
  {
   "property": "C14",
   "status": "proved",
   "theorems": [
    "Bf.C14_safe"
   ],
   "note": "accesses made inside the compiled stubs are modelled at the level of stubSem, in which a bad access is an error that C01_returns excludes"
  },
  {
   "property": "C15",
   "status": "proved",
   "theorems": [
    "Bf.C15_disabled_iff",
    "Bf.C15_never_fires",
    "Bf.C15_never_counts",
    "Bf.C15_removal",
    "Bf.C15_loaded_empty",
    "Bf.C15_loaded_never_fires",
    "Bf.C15_loaded_never_counts"
   ],
   "note": "also for chains whose sets were changed by update-set since the rules were checked"
  },
  {
   "property": "C16",
   "status": "proved",
   "theorems": [
    "Bf.C16_new_iff",
    "Bf.C16_add_iff",
    "Bf.C16_api",
    "Bf.C16_compiles",
    "Bf.C16_new_nonempty",
    "Bf.C16_add_nonempty",
    "Bf.C16_redirect_late"
   ],
   "note": "acceptance is exactly the specification table; accepted chains with well-formed matchers compile (REDIRECT on a hook that cannot redirect is refused only when compiled: C16_redirect_late)"
  },
  {
   "property": "C17",
   "status": "proved",
   "theorems": [
    "Bf.C17_codes",
    "Bf.C17_policy",
    "Bf.C17_rule",
    "Bf.C17_policy_rejected",
    "Bf.C17_policy_valid"
   ],
   "note": ""
  },
  {
   "property": "C18",
   "status": "proved",
   "theorems": [
    "Bf.C18_value",
    "Bf.C18_mark",
    "Bf.C18_final",
    "Bf.C18_unreadable",
    "Bf.C18_matcher"
   ],
   "note": ""
  },
  {
   "property": "C19",
   "status": "partial",
   "theorems": [
    "Bf.C19_spacing_partial",
    "Bf.C19_exact_partial",
    "Bf.C19_fails_concurrent"
   ],
   "note": "proved for packets processed one after the other, up to the delay between the two clock reads of one evaluation (finding 25); false of the code for packets processed at the same time (witness C19_fails_concurrent, finding 15)"
  },
  {
   "property": "C20",
   "status": "partial",
   "theorems": [
    "Bf.C20_log_partial",
    "Bf.C20_fails"
   ],
   "note": "number, order and content of the log entries, the requested headers of the parsed layers included; false of the code for layers that were requested and not parsed (witness C20_fails, finding 14)"
  },
  {
   "property": "C21",
   "status": "partial",
   "theorems": [
    "Bf.C21_probability_partial",
    "Bf.C21_blocks_partial",
    "Bf.C21_flow",
    "Bf.C21_fails_high",
    "Bf.C21_fails"
   ],
   "note": "false of the code for meta.probability thresholds of 2^31 and more (witness C21_fails); proved below, and for flow_probability always"
  },
  {
   "property": "C22",
   "status": "partial",
   "theorems": [
    "Bf.C22_iface_partial",
    "Bf.C22_blocks_partial",
    "Bf.C22_fails"
   ],
   "note": "false of the code for interface indexes of 65536 and more (witness C22_fails); proved below"
  },
  {
   "property": "C23",
   "status": "partial",
   "theorems": [
    "Bf.C23_field_partial",
    "Bf.C23_blocks_partial",
    "Bf.C23_consistent",
    "Bf.C23_readable_partial",
    "Bf.C23_fails_routing",
    "Bf.C23_fails_fragment",
    "Bf.C23_fails_seven",
    "Bf.C36_fails_nexthdr"
   ],
   "note": "false of the code for unusual header chains (three witnesses) and for packets ending where a transport header is announced (C36_fails_nexthdr); proved otherwise"
  },
  {
   "property": "C24",
   "status": "proved",
   "theorems": [
    "Bf.CHash.C24_hashset_faithful",
    "Bf.CHash.C24_add_succeeds"
   ],
   "note": ""
  },
  {
   "property": "C25",
   "status": "proved",
   "theorems": [
    "Bf.CVec.C25_vector_faithful",
    "Bf.CVec.C25_add_succeeds"
   ],
   "note": ""
  },
  {
   "property": "C26",
   "status": "proved",
   "theorems": [
    "Bf.CList.C26_list_faithful"
   ],
   "note": ""
  },
  {
   "property": "C27",
   "status": "partial",
   "theorems": [
    "Bf.C27_delta",
    "Bf.C27_filters_partial",
    "Bf.C27_emptied_refused",
    "Bf.C27_structures",
    "Bf.C27_fails_filled"
   ],
   "note": "contents, other sets and rules: proved; the reloaded program filters by the new content when the set was not empty before and is not after; false of the code when an empty set is filled (witness C27_fails_filled, finding 2); emptying a used set is refused (C27_emptied_refused, finding 26)"
  },
  {
   "property": "C28",
   "status": "proved",
   "theorems": [
    "Bf.C28_round",
    "Bf.C28_distinct",
    "Bf.C28_api",
    "Bf.C28_api_distinct",
    "Bf.C28_any",
    "Bf.C28_recomputed",
    "Bf.C28_printer",
    "Bf.C28_cgen",
    "Bf.C28_cgen_distinct",
    "Bf.C28_hookopts",
    "Bf.C28_counter"
   ],
   "note": "byte level: the mpack encoder and parser are modelled too; sizes below 2^32 and C strings as names (Packable); which rules can be skipped is recomputed when unpacking (C28_recomputed)"
  },
  {
   "property": "C29",
   "status": "proved",
   "theorems": [
    "Bf.Sys.C29_global",
    "Bf.Sys.C29_chain",
    "Bf.Sys.C29_alone",
    "Bf.Sys.C29_shared"
   ],
   "note": "transition system of lock.c at system call granularity, any number of lock objects, crashes included; callers never use BF_LOCK_NONE for the pin directory (true of all callers in the repository)"
  },
  {
   "property": "C30",
   "status": "proved",
   "theorems": [
    "Bf.Sys.C30_live",
    "Bf.Sys.C30_stays",
    "Bf.Sys.C30_change"
   ],
   "note": "same transition system"
  },
  {
   "property": "C31",
   "status": "partial",
   "theorems": [
    "Bf.Pin.C31_update_partial",
    "Bf.Pin.C31_update_set_partial",
    "Bf.Pin.C31_counters",
    "Bf.Pin.Sample.update_ok",
    "Bf.Pin.Sample.C31_not_after_failure",
    "Bf.Pin.Sample.C31_not_after_crash"
   ],
   "note": "For bf_chain_update and bf_chain_update_set, in every execution (any call may fail, packets at any time), at every instant: nothing runs but what ran and the complete new program; the points of the chain run the old or the complete new program unless a pin, an allocation or the writing of the context failed after the old pins were removed; as long as no pin was removed, a crash leaves the old program attached and pinned. After success the new program runs without the process; after a failure everything is as before unless a call failed after the pins were removed. No call changes a counter that existed. Missing, and false of the code: coverage after a failed pin once the old pins are removed, and after a crash between removal and new pins (C31_not_after_failure, C31_not_after_crash)."
  },
  {
   "property": "C32",
   "status": "partial",
   "theorems": [
    "Bf.Pin.C32_load",
    "Bf.Pin.C32_set_first",
    "Bf.Pin.C32_set",
    "Bf.Pin.C32_attach",
    "Bf.Pin.C32_flush",
    "Bf.Pin.C32_update_partial",
    "Bf.Pin.C32_update_set_partial",
    "Bf.Pin.C32_absent",
    "Bf.Pin.C32_stuck",
    "Bf.Pin.Sample.C32_not_set",
    "Bf.Pin.Sample.C32_not_flush",
    "Bf.Pin.Sample.C32_not_attach",
    "Bf.Pin.Sample.C32_not_update",
    "Bf.Pin.Sample.C32_not_update_mixed"
   ],
   "note": "every execution and crash point of load/set/attach/flush: a reader finds the old chain, no chain, or the new chain with a program completely generated from it; update and update-set: the old chain until its pins are removed, the new one after success. Missing, and false of the code: cleanup of what is left without description (C32_stuck, C32_not_set, C32_not_flush, C32_not_attach: findings 34, 35) and restoring between the removal of the pins and the end of an update (C32_not_update, C32_not_update_mixed: findings 12, 33)"
  },
  {
   "property": "C33",
   "status": "proved",
   "theorems": [
    "Bf.Pin.C33_get",
    "Bf.Pin.C33_update_set",
    "Bf.Pin.Sample.get_ok",
    "Bf.Pin.Sample.update_set_ok"
   ],
   "note": "bf_chain_get: each reported value is the sum, modulo 2^64, of what the CPUs held at an instant of the call. bf_chain_update_set, every successful execution: an instant exists, before the new program runs, when its totals are those of the old program (each read at an instant before), and no later call changes them. Packets the old program counts between the transfer and the switch are lost."
  },
  {
   "property": "C34",
   "status": "proved",
   "theorems": [
    "Bf.C34_accepts",
    "Bf.C34_values",
    "Bf.C34_family_ignored"
   ],
   "note": "options as text, parsed with a model of strtoul; bf_chain_set and bf_ruleset_set do not validate their options (finding 30)"
  },
  {
   "property": "C35",
   "status": "proved",
   "theorems": [
    "Bf.C35_printer"
   ],
   "note": ""
  },
  {
   "property": "C36",
   "status": "partial",
   "theorems": [
    "Bf.C36_catch_all_partial",
    "Bf.C36_unreadable",
    "Bf.C36_fails_nexthdr"
   ],
   "note": "false of the code when the added rule is the first ip6.nexthdr rule of the chain (witness C36_fails_nexthdr); proved otherwise"
  },
  {
   "property": "C37",
   "status": "partial",
   "theorems": [
    "Bf.C37_set_partial",
    "Bf.C37_key",
    "Bf.C37_elem",
    "Bf.C37_diverges",
    "Bf.C37_not_ends",
    "Bf.C37_not_ends_empty"
   ],
   "note": "every text whose first piece is not blank: the call returns and the set has exactly the elements of the text; missing, and false of the code: termination when the first piece is blank (C37_diverges: it never returns; finding 3)"
  },
  {
   "property": "C38",
   "status": "proved",
   "theorems": [
    "Bf.C38_hook",
    "Bf.C38_verdict",
    "Bf.C38_redirect",
    "Bf.C38_type",
    "Bf.C38_op",
    "Bf.C38_log",
    "Bf.C38_tcp",
    "Bf.C38_ipproto",
    "Bf.C38_icmp",
    "Bf.C38_icmpv6",
    "Bf.C38_named",
    "Bf.C38_flavor",
    "Bf.C38_dscp",
    "Bf.C38_ethertype",
    "Bf.C38_shown",
    "Bf.C38_understood",
    "Bf.C38_dscpDoc"
   ],
   "note": "flavors have no parser: named and distinct; case-insensitive families compared in the C locale"
  },
  {
   "property": "C39",
   "status": "partial",
   "theorems": [
    "Bf.Pin.C39_set_partial",
    "Bf.Pin.C39_load",
    "Bf.Pin.Sample.C39_fails"
   ],
   "note": "bf_chain_set and bf_chain_load, every execution: success holds the new chain, attached as asked; failure keeps the old one unless its removal had begun; false of the code afterwards (witness C39_fails, finding 11). bf_ruleset_set: C44"
  },
  {
   "property": "C40",
   "status": "partial",
   "theorems": [
    "Bf.C40_eq_partial",
    "Bf.C40_blocks_partial",
    "Bf.C40_networks",
    "Bf.C40_ranges",
    "Bf.C40_member",
    "Bf.C40_member_blocks",
    "Bf.C40_set_networks",
    "Bf.C40_fails_mptcp",
    "Bf.C40_eq_mptcp",
    "Bf.C40_fails_mapped"
   ],
   "note": "all comparisons proved; false of the code for ip4.proto and socket protocols above 255 (witness C40_fails_mptcp), and for the IPv4 datagrams of IPv6 sockets, which no ip4 matcher selects on sendmsg4 (witness C40_fails_mapped, finding 56)"
  },
  {
   "property": "C41",
   "status": "partial",
   "theorems": [
    "Bf.C08_meta_ports",
    "Bf.C08_meta_blocks",
    "Bf.C05_fails_port0"
   ],
   "note": "false of the code for port 0, on which these matchers never match"
  },
  {
   "property": "C42",
   "status": "proved",
   "theorems": [
    "Bf.Pin.C42_flush",
    "Bf.Pin.Sample.flush_ok"
   ],
   "note": "bf_chain_flush, every execution; bf_ruleset_flush: C44"
  },
  {
   "property": "C43",
   "status": "partial",
   "theorems": [
    "Bf.C43_round_partial",
    "Bf.C43_exact_partial",
    "Bf.C43_distinct_partial",
    "Bf.C43_valid",
    "Bf.C43_total",
    "Bf.C43_not_exact",
    "Bf.C43_not_exact_l4",
    "Bf.C43_wraps"
   ],
   "note": "every type and operator but percentages (floating point is not modelled). C43_exact_partial excludes meta.l4_proto and IPv6 networks, for which it is false of the code: bytes no parser writes are uninitialised memory (C43_not_exact, finding 40); C43_round_partial says exactly which bytes. inet_pton, inet_ntop, strtoul and strtok are modelled from glibc"
  },
  {
   "property": "C44",
   "status": "partial",
   "theorems": [
    "Bf.Pin.C44_flush",
    "Bf.Pin.C44_get",
    "Bf.Pin.C44_set_partial",
    "Bf.Pin.Sample.C44_fails",
    "Bf.Pin.Sample.C44_leaves"
   ],
   "note": "every execution, any number of chains. Missing, and false of the code: a failed ruleset set leaves the previous ruleset (C44_fails, finding 41), and a successful one removes it whatever calls fail (C44_leaves, finding 42)"
  },
  {
   "property": "C45",
   "status": "partial",
   "theorems": [
    "Bf.Cli.C45_says_partial",
    "Bf.Cli.C45_prefix",
    "Bf.Cli.C45_read",
    "Bf.Cli.C45_decided",
    "Bf.Cli.C45_accepts",
    "Bf.Cli.C45_accepts_partial",
    "Bf.Cli.C45_name",
    "Bf.Cli.C45_ignores",
    "Bf.Cli.C45_nbsp",
    "Bf.Cli.C45_no_matcher",
    "Bf.Cli.C45_set_comment",
    "Bf.Cli.C45_unclosed"
   ],
   "note": "bfcli's lexer (flex: longest match, first rule, start conditions), grammar (bison) and actions. C45_says_partial: ASCII texts; C45_decided: an equivalence, for texts of 4 GiB at most written as in Spec/Written (a set that begins with a blank line is not accepted: C37). Missing, and false of the code: texts with other bytes, after which everything is silently ignored (C45_ignores, C45_nbsp, finding 43); documented forms that are refused (C45_no_matcher, C45_set_comment, findings 44, 45). The meaning of a payload is that of C43, of a set that of C37, of hook options that of C34; durations (floating point) are a parameter"
  },
  {
   "property": "C46",
   "status": "partial",
   "theorems": [
    "Bf.C46_says_partial",
    "Bf.C46_accepts",
    "Bf.C46_one",
    "Bf.C46_refused_partial",
    "Bf.C46_negative_partial",
    "Bf.C46_odd",
    "Bf.C46_hash",
    "Bf.C43_wraps"
   ],
   "note": "C46_says_partial and C46_refused_partial: texts without blanks and signs that fit the buffer they are copied to, prefix lengths of at most 9 characters; C46_accepts needs none of this but the buffer. Missing, and false of the code: longer and signed texts (C46_odd, C43_wraps, finding 48). Percentages (floating point) are a parameter"
  },
  {
   "property": "C47",
   "status": "partial",
   "theorems": [
    "Bf.C47_dscp4",
    "Bf.C47_dscp6",
    "Bf.C47_dscp4_blocks",
    "Bf.C47_dscp6_blocks",
    "Bf.C47_mark",
    "Bf.C47_flow_hash",
    "Bf.C47_mark_blocks",
    "Bf.C47_flow_hash_blocks",
    "Bf.C47_l3_all",
    "Bf.C47_l4_all",
    "Bf.C47_l3_partial",
    "Bf.C47_l4_partial",
    "Bf.C47_nexthdr_partial",
    "Bf.C47_nexthdr_blocks_partial",
    "Bf.C47_fails_arp",
    "Bf.C47_fails_gre",
    "Bf.C47_fails_route",
    "Bf.C47_fails_none"
   ],
   "note": "Full for dscp, mark and hash. C47_l3_all and C47_l4_all are for all values, with the protocols bpfilter does not know numbered 0; the documented meaning holds for the known protocols (C47_l3_partial, C47_l4_partial) and is false for the others (C47_fails_arp, C47_fails_gre). nexthdr: chains of the usual shape, known values; false otherwise (C47_fails_route, C47_fails_none). Finding 49"
  },
  {
   "property": "C48",
   "status": "partial",
   "theorems": [
    "Bf.C48_hits_partial",
    "Bf.C48_selects_partial",
    "Bf.C48_http",
    "Bf.C48_sock_partial"
   ],
   "note": "All types but ip6.nexthdr (C47), probabilities (floating point, C21) and sets (C10, C37). Texts without blanks and signs that fit the buffer (C46); ports other than 0 for meta.sport and meta.dport, interface indexes below 65536 (both false otherwise: C05_fails_port0, C22). The protocols bpfilter does not know have number 0. C48_sock_partial is the same for the operations of connect and sendmsg hooks, all types but probabilities"
  },
  {
   "property": "C49",
   "status": "partial",
   "theorems": [
    "Bf.C49_program_partial",
    "Bf.C49_decides_partial",
    "Bf.C49_loads",
    "Bf.C49_one",
    "Bf.C49_web",
    "Bf.C49_sockets_partial",
    "Bf.C49_sockets_program_partial",
    "Bf.C49_guard"
   ],
   "note": "Missing: probabilities (random, C21) and ip6.nexthdr eq (C47); texts with blanks or signs inside payloads or longer than the buffers (false: C46_odd); meta ports 0, interface indexes above 65535 and negated empty sets (false: C05, C22, C15). C49_sockets_*: the same for the operations of connect and sendmsg hooks (missing: probabilities, odd texts, negated empty sets, and sets of protocols for sockets of a protocol above 255, false: C40_fails_mptcp). C49_loads has no such restriction: it holds for every accepted text within the size limits of Modest, on every hook"
  },
  {
   "property": "C50",
   "status": "partial",
   "theorems": [
    "Bf.Cli.C50_shown_partial",
    "Bf.Cli.C50_round_partial",
    "Bf.Cli.C50_read",
    "Bf.Cli.C50_again_partial",
    "Bf.Cli.C50_again_sample",
    "Bf.Cli.C50_none_again",
    "Bf.Cli.C50_edge",
    "Bf.Cli.C50_raw_refused",
    "Bf.Cli.C50_empty",
    "Bf.Cli.C50_empty_loops",
    "Bf.Cli.C50_elided_not",
    "Bf.Cli.C50_mapped_refused",
    "Bf.Cli.C50_flags_refused",
    "Bf.Cli.C50_vlan_refused",
    "Bf.Cli.C50_redirect_other",
    "Bf.Cli.C50_rate",
    "Bf.Cli.C50_rate_read"
   ],
   "note": "Proved for the chains ChainShown describes, after the reports (counters) are taken off the text; C50_read: the chains read from a text are such (interfaces named by words, durations that are read as printed), so that setting, getting and setting again gives an alike chain (C50_again_partial). Missing, and false of the code: the text as it is printed (C50_raw_refused, all chains), empty sets (C50_empty, C50_empty_loops), IPv4-mapped addresses, no flag, names with dots, interfaces named by a number (witnesses), negated sets whose content is elided (C50_elided_not). Percentages and durations (floating point) are a parameter"
  },
  {
   "property": "C51",
   "status": "partial",
   "theorems": [
    "Bf.Cli.C51_options",
    "Bf.Cli.C51_kept",
    "Bf.Cli.C51_refused",
    "Bf.Cli.C51_taken",
    "Bf.Cli.C51_dry",
    "Bf.Cli.C51_set_partial",
    "Bf.Cli.C51_load",
    "Bf.Cli.C51_update_partial",
    "Bf.Cli.C51_attach",
    "Bf.Cli.C51_attach_twice",
    "Bf.Cli.C51_flush",
    "Bf.Cli.C51_get",
    "Bf.Cli.C51_update_set_partial",
    "Bf.Cli.C51_ruleset_set_partial",
    "Bf.Cli.C51_ruleset_flush",
    "Bf.Cli.C51_ruleset_get",
    "Bf.Cli.C51_obeys_partial",
    "Bf.Cli.Sample.C51_no_help",
    "Bf.Cli.Sample.C51_staging"
   ],
   "note": "main, opts.c, chain.c, ruleset.c of bfcli over the models of its parser, printer and libbpfilter. The splitting of the command line into options (argp, getopt) is the C library's; chain logs: what it prints is not modelled. Names that begin with __bf_staging_ are excluded: false for them (C51_staging, finding 28). Missing, and false of the code: failures of set, update, update-set and ruleset set after removal began (C39, C31, C44), update-set that removes every element (C27)"
  },
  {
   "property": "C52",
   "status": "proved",
   "theorems": [
    "Bf.Cli.C52_others",
    "Bf.Cli.C52_calls",
    "Bf.Cli.C52_apart",
    "Bf.Cli.C52_history",
    "Bf.Cli.Sample.C52_staging"
   ],
   "note": "every command line, every interleaving of any number of commands from a machine without chains, every instant, every failure. C52_staging: the exception for reserved names is needed. Attachment: Holds; in C52_others the objects of other chains are compared up to the content of counter maps, which packets change (C52_calls compares it too)"
  },
  {
   "property": "C53",
   "status": "proved",
   "theorems": [
    "Bf.Cli.C53_runs",
    "Bf.Cli.C53_stored",
    "Bf.Cli.C53_get",
    "Bf.Cli.C53_ruleset_get",
    "Bf.Cli.C53_history",
    "Bf.Cli.C53_said",
    "Bf.Cli.C53_said_exactly",
    "Bf.Cli.C53_nothing",
    "Bf.Cli.C53_sensible"
   ],
   "note": "every command line, every interleaving of any number of commands from a machine without chains, every instant, every failure. Assumed (Sensible): texts are written as documented and below 4 GiB, options of chain attach are C strings below 4 GiB, no chain asked for has a set of 2^32 elements (C53_sensible: follows from the rest without update-set)"
  },
  {
   "property": "C54",
   "status": "partial",
   "theorems": [
    "Bf.Cli.C54_decided_partial",
    "Bf.Cli.C54_told_partial",
    "Bf.Cli.C54_history_partial",
    "Bf.Cli.C54_sensible",
    "Bf.Cli.Sample.C54_stale"
   ],
   "note": "every history, interleaving, failure and crash point, every text and packet in the scope of C49 (its odd texts are missing), and every socket operation. With update-set, no set may be empty, because it is false then: the rules about a set that was empty stay off (C54_stale)"
  },
  {
   "property": "C55",
   "status": "partial",
   "theorems": [
    "Bf.Cli.C55_logs_partial",
    "Bf.Cli.C55_packet_partial",
    "Bf.Cli.C55_sock_partial",
    "Bf.Cli.Sample.C55_link",
    "Bf.Cli.Sample.C55_mptcp",
    "Bf.Cli.Sample.C55_family",
    "Bf.Cli.Sample.C55_name",
    "Bf.Cli.Sample.C55_shown",
    "Bf.Cli.Sample.C55_shown_sock"
   ],
   "note": "every packet and socket operation, every chain, every content of the log buffer that the entries do not set. False of the code, with witnesses: a link line is printed on hooks without a link header (C55_link), MPTCP sockets are reported as TCP (C55_mptcp), IPv4 datagrams of IPv6 sockets with a wrong address (C55_family), process names are printed with their control characters (C55_name). The text of the time of the day is what strftime gives"
  },
  {
   "property": "C56",
   "status": "partial",
   "theorems": [
    "Bf.Cli.C56_maps",
    "Bf.Cli.C56_decided_partial",
    "Bf.Spec.HasMaps.loaded",
    "Bf.Spec.C56_elements",
    "Bf.Spec.C56_only",
    "Bf.Spec.C56_sizes"
   ],
   "note": "every interleaving of any number of commands from a machine without chains, every instant, every failure. C56_maps: the maps, for every hook. HasMaps.loaded: all that is proved of loaded programs (C01 to C23, C40, C41, C47) holds with the maps of the kernel. C56_decided_partial: packets are decided as a text says with these maps; missing there, as in C54: packets and socket operations out of the scope of C49; keys above 64 bytes, 262144 sets or 2^28 rules; an update-set of a set that was empty (false: C54_stale). Filling a map is one step (BPF_MAP_UPDATE_BATCH is not atomic, but nothing runs the program until it returns), and there are less than 2^32 objects."
  },
  {
   "property": "C57",
   "status": "partial",
   "theorems": [
    "Bf.C57_alike",
    "Bf.Cli.C57_again_partial",
    "Bf.Cli.C57_sample"
   ],
   "note": "C57_alike: any two chains that are alike (Spec/Shown.ChainAlike), loaded, do the same to everything. C57_again_partial: chains read from texts; missing there what C50 misses: chains with an empty set (false: C50_none_again), flags, interface names and IPv6 addresses that are not printed as they are read, and percentages (floating point). Captured header bytes of log entries are compared in C20, not here."
  },
  {
   "property": "C58",
   "status": "proved",
   "theorems": [
    "Bf.Cli.C58_prog",
    "Bf.Cli.C58_logs",
    "Bf.copy_logs",
    "Bf.Cli.countsAt"
   ],
   "note": "Good (Cgen/Set) now holds that the program of a stored chain was generated for the maps that are pinned with it (Tied), so that C51_get and C51_ruleset_get show the counters of the program that the hooks run. A descriptor is modelled as the object it is for; when dup fails the code returns -1, not a negative errno."
  }
 ]
}