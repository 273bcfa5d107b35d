{"id": "C01", "title": "First matching terminal rule decides", "statement": "When a packet traverses an attached chain, the value the BPF program returns is the return code of the first enabled rule (in definition order) all of whose matchers match the packet and whose verdict is terminal; if there is none, it is the return code of the chain policy.", "quantifier": "every accepted chain (any number of rules, matchers and sets), every packet, every random number/clock/flow-hash value the kernel may supply", "why_tests_cant": "the space of chains times packets is unbounded; jump offsets, fixups and layer guards interact across rules so no finite test suite covers all layouts", "anchors": ["src/libbpfilter/cgen/program.c:_bf_program_generate_rule", "src/libbpfilter/cgen/program.c:bf_program_generate", "src/libbpfilter/cgen/fixup.c", "src/libbpfilter/cgen/jmp.c"]}
{"id": "C02", "title": "CONTINUE is non terminal", "statement": "A rule with verdict CONTINUE that matches applies its side effects (counter, mark, log) and evaluation goes on with the next rule exactly as if the rule had not stopped; it never changes which later rule or policy decides.", "quantifier": "every chain, every packet", "why_tests_cant": "quantifies over all suffixes of rules after a CONTINUE rule", "anchors": ["src/libbpfilter/cgen/program.c:_bf_program_generate_rule"]}
{"id": "C03", "title": "Counters count exactly the matching packets", "statement": "For each packet: a rule's counter increases by exactly (1, packet size) iff the rule has a counter, is reached and all its matchers match; the policy counter increases by (1, packet size) iff no terminal rule matched and parsing succeeded; the error counter increases iff header parsing failed; no other counter changes.", "quantifier": "every chain, every packet, every history of packets", "why_tests_cant": "counter indexes are computed from list sizes and rule indexes; a wrong index only shows for particular chain sizes, and exactness is over all histories", "anchors": ["src/libbpfilter/cgen/program.c:bf_program_chain_counter_idx", "src/libbpfilter/cgen/program.c:bf_program_error_counter_idx", "src/libbpfilter/bpf/update_counters.bpf.c"]}
{"id": "C04", "title": "Unparsable packets are accepted and only counted as errors", "statement": "If the kernel cannot expose the packet, or a header announced by the packet is truncated, the program returns the ACCEPT code of the hook, increases the error counter once, evaluates no rule, and changes no other counter, mark or log.", "quantifier": "every chain, every (possibly truncated) packet, every hook", "why_tests_cant": "truncation can occur at any byte of any header stack", "anchors": ["src/libbpfilter/cgen/stub.c:bf_stub_parse_l2_ethhdr", "src/libbpfilter/cgen/stub.c:bf_stub_parse_l3_hdr", "src/libbpfilter/cgen/stub.c:bf_stub_parse_l4_hdr"]}
{"id": "C05", "title": "Negation is exact complement on applicable packets", "statement": "For a packet carrying the protocol a matcher applies to, the negated form of the matcher matches iff the plain form does not.", "quantifier": "every matcher type/operator/payload that supports negation, every packet", "why_tests_cant": "all payloads times all packets", "anchors": ["src/libbpfilter/cgen/matcher/cmp.c:bf_cmp_get_jmp_ins", "src/libbpfilter/cgen/matcher/cmp.c:bf_cmp_value", "src/libbpfilter/cgen/matcher/cmp.c:bf_cmp_range"]}
{"id": "C06", "title": "Field equality matchers compare the exact header field", "statement": "ip4.saddr/daddr/proto, ip6.saddr/daddr, tcp/udp ports, icmp and icmpv6 type/code `eq v` match iff the packet has that header (for transport headers over IPv6: found by the extension header walk of C23) and the header field at its RFC offset equals v byte for byte.", "quantifier": "all values, all packets", "why_tests_cant": "2^128 values for IPv6 addresses, all packet layouts (IHL, extension headers)", "anchors": ["src/libbpfilter/cgen/packet.c:_bf_matcher_pkt_load_and_cmp", "src/libbpfilter/cgen/matcher/cmp.c:bf_cmp_value", "src/libbpfilter/matcher.c:_bf_matcher_metas"]}
{"id": "C07", "title": "Network matchers implement CIDR containment", "statement": "ip4.snet/dnet and ip6.snet/dnet `eq addr/len` match iff the first len bits of the packet's address (network bit order) equal the first len bits of addr, for every len in 0..32 or 0..128.", "quantifier": "all prefix lengths, all reference and packet addresses", "why_tests_cant": "2^256 address pairs times 129 prefix lengths; byte order and half-word boundaries are classic bugs", "anchors": ["src/libbpfilter/cgen/matcher/cmp.c:_bf_prefix_to_mask", "src/libbpfilter/cgen/matcher/cmp.c:bf_cmp_masked_value"]}
{"id": "C08", "title": "Range matchers are inclusive and numeric", "statement": "tcp/udp port `range a-b` matches iff the packet has that header and a <= port <= b as numbers in host order; meta.flow_hash range likewise on 32 bits (meta ports are C41).", "quantifier": "all a, b, all packets", "why_tests_cant": "2^48 combinations; sign/byte-order bugs only show on half of the domain", "anchors": ["src/libbpfilter/cgen/matcher/cmp.c:bf_cmp_range", "src/libbpfilter/cgen/packet.c:_bf_matcher_pkt_generate_port"]}
{"id": "C09", "title": "tcp.flags eq/any/all semantics", "statement": "On a packet with a TCP header (and on no other packet) tcp.flags eq F matches iff the flag byte equals F; any F iff it shares at least one flag with F; all F iff it contains all of F.", "quantifier": "all flag sets and packets", "why_tests_cant": "semantic claim over all flag bytes and all negations at program level", "anchors": ["src/libbpfilter/cgen/packet.c:_bf_matcher_pkt_generate_tcp_flags", "src/libbpfilter/cgen/matcher/cmp.c:bf_cmp_bitfield"]}
{"id": "C10", "title": "Set membership is exact and sets do not interfere", "statement": "`key in set` matches iff the concatenation of the packet's key components is an element of that set, whatever other sets share the same key format (and hence the same BPF map), and whatever their number.", "quantifier": "any number of sets and elements, any packet", "why_tests_cant": "the bitmask position depends on how many sets share a map; leak between sets needs particular collections", "anchors": ["src/libbpfilter/cgen/program.c:_bf_program_build_set_groups", "src/libbpfilter/cgen/program.c:_bf_program_load_sets_maps", "src/libbpfilter/cgen/program.c:bf_program_set_bit_index", "src/libbpfilter/cgen/matcher/set.c:bf_set_generate_map_lookup"]}
{"id": "C11", "title": "Network sets match iff some prefix covers the address", "statement": "`(ipX.snet|dnet) in set` matches iff at least one prefix element of the set contains the packet's address.", "quantifier": "all sets of prefixes, all addresses", "why_tests_cant": "overlapping prefixes of any number", "anchors": ["src/libbpfilter/cgen/matcher/set.c:bf_set_generate_trie_lookup", "src/libbpfilter/cgen/program.c:_bf_program_build_set_groups"]}
{"id": "C12", "title": "Protocol guards", "statement": "A rule containing an IPv4/IPv6/TCP/UDP/ICMP/ICMPv6 matcher (negated or not, direct or through a set key) never matches a packet that does not carry that protocol.", "quantifier": "every rule, every packet", "why_tests_cant": "all combinations of matchers, order and negation", "anchors": ["src/libbpfilter/cgen/program.c:_bf_program_check_proto", "src/libbpfilter/cgen/stub.c:bf_stub_rule_check_protocol", "src/libbpfilter/chain.c:_bf_chain_check_rule"]}
{"id": "C13", "title": "The generated program is loop-free, terminates and stays inside its image", "statement": "For every chain whose generation succeeds, every jump of the generated program is forward and lands inside the program, every stub call lands on the start of the right stub, and execution reaches an exit within as many steps as there are instructions.", "quantifier": "every chain", "why_tests_cant": "offset arithmetic is relative to a growing image, wrong only for particular lengths", "anchors": ["src/libbpfilter/cgen/jmp.c:bf_jmpctx_cleanup", "src/libbpfilter/cgen/program.c:_bf_program_fixup", "src/libbpfilter/cgen/program.c:_bf_program_generate_elfstubs", "src/libbpfilter/cgen/swich.c:bf_swich_generate"]}
{"id": "C14", "title": "The generated program only touches memory it owns", "statement": "In every state the execution of the generated program goes through, the next instruction reads memory only inside the bounds of what a valid pointer points to (a slice of the packet being inside the packet), writes only to the runtime context on the stack and to the rate-limit state, never uses an uninitialised register, and calls only the start of a stub. (The log stub's fault-tolerant probe reads are the subject of C20.)", "quantifier": "every chain, every packet", "why_tests_cant": "all set keys / component layouts / alignments", "anchors": ["src/libbpfilter/cgen/stub.c:bf_stub_load", "src/libbpfilter/cgen/runtime.h:bf_runtime", "src/libbpfilter/cgen/packet.c:_bf_matcher_pkt_generate_set"]}
{"id": "C15", "title": "Rules that cannot match are inert", "statement": "A rule referencing an empty set, or requiring two different protocols at one layer, never matches, never counts, and adding or removing it changes neither the verdict nor the effects of the other rules.", "quantifier": "every chain, every packet", "why_tests_cant": "arbitrary position of the inert rule", "anchors": ["src/libbpfilter/chain.c:_bf_chain_check_rule", "src/libbpfilter/cgen/program.c:_bf_program_generate_rule"]}
{"id": "C16", "title": "Chains with matchers a hook cannot evaluate are rejected", "statement": "bf_chain_new/bf_chain_add_rule accept a chain only if every matcher, every set-key component, mark and log option is supported by the hook; and for an accepted chain program generation never fails because of an unsupported matcher.", "quantifier": "all chains, hooks, matchers", "why_tests_cant": "cross product of hooks, matcher types, operators and set keys inside unbounded rules", "anchors": ["src/libbpfilter/chain.c:bf_chain_new", "src/libbpfilter/chain.c:_bf_chain_check_rule", "src/libbpfilter/matcher.c:_bf_matcher_metas", "src/libbpfilter/cgen/packet.c:bf_packet_gen_inline_matcher"]}
{"id": "C17", "title": "Verdict to return code mapping", "statement": "On every hook ACCEPT and DROP return distinct codes with the kernel meaning accept and drop; NEXT equals ACCEPT except on TC where it is TCX_NEXT; a chain whose policy is CONTINUE or REDIRECT is never accepted.", "quantifier": "all hooks and verdicts, all chains", "why_tests_cant": "combined with every rule of every chain", "anchors": ["src/libbpfilter/cgen/xdp.c:_bf_xdp_get_verdict", "src/libbpfilter/cgen/tc.c:_bf_tc_get_verdict", "src/libbpfilter/cgen/nf.c:_bf_nf_get_verdict", "src/libbpfilter/cgen/cgroup_skb.c:_bf_cgroup_skb_get_verdict", "src/libbpfilter/cgen/cgroup_sock_addr.c", "src/libbpfilter/chain.c:bf_chain_new"]}
{"id": "C18", "title": "mark action is visible to later meta.mark matchers", "statement": "After a rule with `mark M` matches, the packet mark is exactly M (32 bits), later `meta.mark eq X` matchers of the same chain compare against M, and rules without mark never change it.", "quantifier": "all marks, all chains, all packets", "why_tests_cant": "sequence of arbitrary rules", "anchors": ["src/libbpfilter/cgen/tc.c:_bf_tc_gen_inline_set_mark", "src/libbpfilter/cgen/tc.c:_bf_tc_gen_inline_matcher"]}
{"id": "C19", "title": "Log rate limiting", "statement": "For a rule with `log every T`, two log entries of that rule are always at least T nanoseconds apart, for any sequence of packets.", "quantifier": "every history of packets and clock values, including concurrent processors", "why_tests_cant": "needs arbitrary sequences and interleavings", "anchors": ["src/libbpfilter/cgen/program.c:_bf_program_generate_rule", "src/libbpfilter/cgen/runtime.h:bf_rule_state"]}
{"id": "C20", "title": "Log entries describe the packet and the rule", "statement": "Each time a rule with `log` and no rate limit matches, exactly one log request is emitted, carrying that rule's index, its verdict, its requested headers and the packet's L3/L4 protocol; no other rule emits one; header bytes of a layer that was not parsed are never reported.", "quantifier": "every chain, every packet, every initial content of the BPF stack", "why_tests_cant": "depends on uninitialised memory contents and all chains", "anchors": ["src/libbpfilter/cgen/packet.c:bf_packet_gen_inline_log", "src/libbpfilter/bpf/pkt_log.bpf.c", "src/libbpfilter/cgen/program.c:bf_program_generate"]}
{"id": "C21", "title": "meta.probability and meta.flow_probability follow the threshold", "statement": "meta.probability eq P matches iff the 32-bit random number is at most floor(P% of 2^32-1); likewise flow_probability with the flow hash.", "quantifier": "all thresholds, all random values", "why_tests_cant": "2^64 combinations", "anchors": ["src/libbpfilter/cgen/matcher/meta.c:_bf_matcher_generate_meta_probability", "src/libbpfilter/cgen/matcher/meta.c:_bf_matcher_generate_meta_flow_probability"]}
{"id": "C22", "title": "meta.iface matches the interface index", "statement": "meta.iface eq I matches iff the packet's interface index equals I.", "quantifier": "all 32-bit indexes", "why_tests_cant": "2^64 pairs; only large indexes misbehave", "anchors": ["src/libbpfilter/cgen/matcher/meta.c:_bf_matcher_generate_meta_iface"]}
{"id": "C23", "title": "IPv6 extension headers are skipped consistently", "statement": "The L4 protocol and offset found for an IPv6 packet are those obtained by walking its extension headers, and do not depend on which other rules (e.g. an ip6.nexthdr rule) the chain contains.", "quantifier": "all extension header chains, all chains", "why_tests_cant": "headers of arbitrary length and nesting, and two different implementations selected by other rules", "anchors": ["src/libbpfilter/bpf/parse_ipv6_eh.bpf.c", "src/libbpfilter/bpf/parse_ipv6_nh.bpf.c", "src/libbpfilter/cgen/stub.c:bf_stub_parse_l3_hdr"]}
{"id": "C24", "title": "hashset behaves as an insertion-ordered set", "statement": "Any sequence of add/delete/take/contains/reserve operations on bf_hashset gives the results and final content of a mathematical set, iteration yields elements in insertion order, size is exact, and lookups always terminate.", "quantifier": "all operation sequences, all hash functions (including colliding ones)", "why_tests_cant": "unbounded histories with tombstones and resizes", "anchors": ["src/libbpfilter/core/hashset.c"]}
{"id": "C25", "title": "vector never loses or corrupts elements", "statement": "After any sequence of add/reserve/set operations, element i of bf_vector is the i-th value added (or last set), capacity covers size, and no arithmetic overflow leads to a short allocation.", "quantifier": "all operation sequences and element sizes", "why_tests_cant": "overflow only at sizes no test can allocate", "anchors": ["src/libbpfilter/core/vector.c"]}
{"id": "C26", "title": "list is a faithful doubly linked sequence", "statement": "After any sequence of add_head/add_tail/delete/take operations, forward and backward traversal of bf_list give the same sequence, reversed, of len elements, equal to the abstract sequence; deleting the current node during foreach is safe.", "quantifier": "all operation sequences", "why_tests_cant": "pointer structure invariant over unbounded histories", "anchors": ["src/libbpfilter/core/list.c", "src/libbpfilter/include/bpfilter/core/list.h:bf_list_foreach"]}
{"id": "C27", "title": "update-set applies exactly the delta", "statement": "After chain update-set with additions A and removals R, the set contains (old \u222a A) \\ R, every other set and rule is unchanged, and the reloaded program filters according to the new content.", "quantifier": "all chains, sets, deltas", "why_tests_cant": "all set contents, including transitions to and from empty", "anchors": ["src/libbpfilter/cli.c:bf_chain_update_set", "src/libbpfilter/set.c:bf_set_add_many", "src/libbpfilter/set.c:bf_set_remove_many"]}
{"id": "C28", "title": "Chain serialization round trip", "statement": "Unpacking the serialized form of any chain (rules, matchers, sets, hook, policy) gives back an equal chain.", "quantifier": "all chains", "why_tests_cant": "unbounded structures", "anchors": ["src/libbpfilter/chain.c:bf_chain_pack", "src/libbpfilter/chain.c:bf_chain_new_from_pack", "src/libbpfilter/rule.c:bf_rule_pack", "src/libbpfilter/set.c:bf_set_pack", "src/libbpfilter/matcher.c:bf_matcher_pack"]}
{"id": "C29", "title": "Locks exclude conflicting operations", "statement": "No two processes ever simultaneously hold a write lock and any other lock on the same chain, nor a global write lock and any other lock; operations that only read can share.", "quantifier": "every interleaving of any number of processes, including crashes", "why_tests_cant": "schedules are unbounded", "anchors": ["src/libbpfilter/core/lock.c:bf_lock_init", "src/libbpfilter/core/lock.c:bf_lock_acquire_chain", "src/libbpfilter/core/lock.h"]}
{"id": "C30", "title": "A locked chain directory is the live one", "statement": "A process holding a lock on chain N holds it on the directory currently reachable under the name N: no other process can have removed or replaced that directory while the lock is held.", "quantifier": "every interleaving of create/remove/open by any number of processes", "why_tests_cant": "race between open and flock", "anchors": ["src/libbpfilter/core/lock.c:_bf_lock_open_existing", "src/libbpfilter/core/lock.c:_bf_lock_stage_and_publish", "src/libbpfilter/core/lock.c:bf_lock_release_chain"]}
{"id": "C31", "title": "chain update never leaves the hook unfiltered", "statement": "During chain update of an attached chain, at every instant the hook runs either the complete old program or the complete new program, and if update fails before the switch the old program stays attached, pinned and its counters intact.", "quantifier": "every failure point, every packet arrival time", "why_tests_cant": "each system call may fail or the process may die", "anchors": ["src/libbpfilter/cgen/cgen.c:bf_cgen_update", "src/libbpfilter/cgen/handle.c"]}
{"id": "C32", "title": "Persisted state is restorable after a crash", "statement": "If the process dies at any point of chain set/load/attach/update/flush, the state left on bpffs either describes a chain that can be reloaded with its program, or is ignored and cleaned up; a loaded chain's rules always match the running program.", "quantifier": "every crash point of every operation", "why_tests_cant": "crash points cannot be enumerated by unit tests", "anchors": ["src/libbpfilter/cgen/cgen.c:_bf_cgen_persist", "src/libbpfilter/cgen/cgen.c:bf_cgen_new_from_dir_fd", "src/libbpfilter/cgen/cgen.c:bf_cgen_update"]}
{"id": "C33", "title": "Counter readout is the sum over processors and preserved updates keep totals", "statement": "The counter value reported by chain get for a rule, the policy or errors is the sum (in 64 bits) of what every CPU had counted at that moment; when update-set succeeds, the new program starts from the totals the old program had during the update, for each rule index, the policy and errors.", "quantifier": "any number of CPUs, any counter values", "why_tests_cant": "all per-CPU distributions", "anchors": ["src/libbpfilter/cgen/handle.c:bf_handle_get_counter", "src/libbpfilter/cgen/cgen.c:_bf_cgen_transfer_counters"]}
{"id": "C34", "title": "Hook options are validated per hook", "statement": "Hook options given to bfcli or to bf_chain_attach are accepted exactly when each is well formed, every option required by the flavor of the hook is present, no option of another flavor is, and none is given twice; the values stored are those written. (The deprecated family= option is checked and then ignored, wherever and however often it is given.)", "quantifier": "all sequences of options and hooks", "why_tests_cant": "all sequences", "anchors": ["src/libbpfilter/hook.c:bf_hookopts_validate", "src/libbpfilter/hook.c:bf_hookopts_parse_opt"]}
{"id": "C35", "title": "Printer messages never overlap", "statement": "For any sequence of messages added to the printer, each distinct message is stored once, at an offset where the assembled string contains exactly that message followed by NUL.", "quantifier": "any sequence of messages", "why_tests_cant": "unbounded sequences", "anchors": ["src/libbpfilter/cgen/printer.c:bf_printer_add_msg", "src/libbpfilter/cgen/printer.c:bf_printer_assemble"]}
{"id": "C36", "title": "Adding a rule after a terminal catch-all changes nothing", "statement": "Appending rules after an enabled, matcher-less terminal rule never changes verdict, mark, logs or counters of the existing rules for any packet.", "quantifier": "all chains and packets", "why_tests_cant": "all chains", "anchors": ["src/libbpfilter/cgen/program.c:bf_program_generate"]}
{"id": "C37", "title": "Set elements text parses to the announced elements", "statement": "bf_set_new_from_raw terminates on every input and, on success, the set contains exactly one element per non-blank element of the text, with components parsed in key order.", "quantifier": "all input strings", "why_tests_cant": "unbounded strings", "anchors": ["src/libbpfilter/set.c:bf_set_new_from_raw", "src/libbpfilter/set.c:bf_set_add_elem_raw", "src/libbpfilter/helper.c:bf_trim"]}
{"id": "C38", "title": "Enum/string conversions round trip", "statement": "For hooks, verdicts, matcher types, operators, flavors, log layers, TCP flags, protocols, ICMP types, DSCP classes: the name shown for a value is the documented one, it is read back as this value, and no other string is accepted.", "quantifier": "all enum values, all strings", "why_tests_cant": "all strings", "anchors": ["src/libbpfilter/hook.c:bf_hook_from_str", "src/libbpfilter/verdict.c", "src/libbpfilter/matcher.c:bf_matcher_type_from_str"]}
{"id": "C39", "title": "chain set / ruleset set failure does not lose the previous chain", "statement": "If chain set (or ruleset set) fails, the chain(s) existing before remain in force.", "quantifier": "every failure point", "why_tests_cant": "every failing system call", "anchors": ["src/libbpfilter/cli.c:bf_chain_set", "src/libbpfilter/cli.c:bf_ruleset_set"]}
{"id": "C40", "title": "Sock-addr chains filter on the socket address", "statement": "On cgroup_sock_addr hooks, ip4/ip6 address and network, port and protocol matchers compare the corresponding bpf_sock_addr fields with the same eq/net/range/set semantics as on packet hooks.", "quantifier": "all socket addresses, all matchers", "why_tests_cant": "2^128 addresses", "anchors": ["src/libbpfilter/cgen/cgroup_sock_addr.c"]}
{"id": "C41", "title": "meta.sport and meta.dport match the port of the transport header, TCP or UDP", "statement": "meta.sport/dport `eq p` (`range a-b`) match iff the packet has a TCP or UDP header whose source/destination port is p (is in a-b), and their negations iff it has one whose port is not.", "quantifier": "all ports, all packets, both protocols", "why_tests_cant": "port 0 is the only port that misbehaves", "anchors": ["src/libbpfilter/cgen/packet.c:_bf_matcher_pkt_generate_port", "src/libbpfilter/cgen/matcher/meta.c"]}
{"id": "C42", "title": "Flushing a chain removes it and nothing else", "statement": "If chain flush reports a failure, nothing changed. If it succeeds, the chain's program no longer runs anywhere, none of its objects is left pinned and the chain can no longer be read, unless the kernel refused the removal of one of them; whatever happens, other chains (their pins, directories and attached programs) are untouched.", "quantifier": "every system state, every combination of failing system calls, every instant at which packets arrive", "why_tests_cant": "failures of the removals are ignored by the code, so what is left depends on which subset of the calls failed", "anchors": ["src/libbpfilter/cli.c:bf_chain_flush", "src/libbpfilter/cgen/cgen.c:bf_cgen_unload", "src/libbpfilter/cgen/handle.c:bf_handle_unpin"]}
{"id": "C43", "title": "Payloads printed by bfcli are read back as the same payload", "statement": "For every matcher type and operator, parsing the text that is printed for a payload gives back this payload, so that two payloads printed alike are the same; whatever the text, a payload that is accepted has the size of its type, an ordered range, a prefix length within the address, a DSCP value below 64, a non-zero interface.", "quantifier": "all payloads, all strings, whatever memory the payload is read to held before", "why_tests_cant": "unbounded strings, 2^128 addresses, uninitialised memory", "anchors": ["src/libbpfilter/matcher.c:bf_matcher_new_from_raw", "src/libbpfilter/matcher.c:_bf_parse_ipv6_net", "src/libbpfilter/matcher.c:_bf_print_ipv6_net", "src/libbpfilter/set.c:bf_set_add_elem_raw"]}
{"id": "C44", "title": "Operations on the whole ruleset cover exactly the chains", "statement": "ruleset flush removes every chain and nothing else, or fails and changes nothing; ruleset get lists every chain exactly once, with the options it is attached with and counter values summed over the CPUs, and changes nothing; ruleset set ends with exactly the given chains, attached as asked, and those that were there filter no longer; if it fails the previous ruleset stays in force.", "quantifier": "any number of chains, every combination of failing system calls, every instant at which packets arrive", "why_tests_cant": "the number of chains is unbounded, and each of the calls made for each chain may fail", "anchors": ["src/libbpfilter/cli.c:bf_ruleset_set", "src/libbpfilter/cli.c:bf_ruleset_get", "src/libbpfilter/cli.c:_bf_ruleset_flush", "src/libbpfilter/ctx.c:bf_ctx_get_cgens"]}
{"id": "C45", "title": "The text of a ruleset means what it says", "statement": "A ruleset text that is accepted is made of the words of a sentence of the documented grammar and of nothing else, and the chains that are built are exactly those it says: same chains, sets and rules, in the same order, each with its name, hook, options, policy, matchers, rule options and verdict; a text written as documented whose rules the hook can evaluate is accepted; --name selects the first chain of that name.", "quantifier": "all texts, any number of chains, sets, rules and words, any blanks and comments", "why_tests_cant": "unbounded texts; the lexer depends on 23 start conditions and on the longest match among dozens of patterns", "anchors": ["src/bfcli/lexer.l", "src/bfcli/parser.y", "src/bfcli/helper.c:bfc_parse_str", "src/bfcli/chain.c:_bfc_get_chain_from_ruleset", "src/libbpfilter/matcher.c:bf_matcher_new_from_raw", "src/libbpfilter/set.c:bf_set_new_from_raw"]}
{"id": "C46", "title": "The text of a payload means what it says", "statement": "Numbers, ports, ranges, marks, names, IPv4 and IPv6 addresses and networks are read as their documented notations say (RFC 4291 for IPv6 addresses: eight words or `::`, the last two words possibly as an IPv4 address): a text that is accepted says the payload it is read as, a text that says a payload is accepted and read as it, anything else is refused; in particular negative numbers are refused.", "quantifier": "all texts, all matcher types and operators", "why_tests_cant": "unbounded texts; most malformed texts are close to valid ones", "anchors": ["src/libbpfilter/matcher.c:_bf_parse_ipv6_addr", "src/libbpfilter/matcher.c:_bf_parse_ipv4_net", "src/libbpfilter/matcher.c:_bf_parse_l4_port_range", "src/libbpfilter/matcher.c:_bf_parse_mark", "src/libbpfilter/matcher.c:_bf_strtoul", "src/libbpfilter/matcher.c:_bf_parse_tcp_flags", "src/libbpfilter/if.c:bf_if_index_from_str"]}
{"id": "C47", "title": "DSCP, mark, hash and protocol matchers compare what they name", "statement": "`ip4.dscp` and `ip6.dscp` compare the six DSCP bits, `meta.mark` the mark of the packet, `meta.flow_hash eq` its hash, `meta.l3_proto` and `meta.l4_proto` the protocol of the network and transport header, `ip6.nexthdr` any header of the extension chain or the upper protocol; with `not`, the opposite, among the packets that have the header.", "quantifier": "all packets, hooks, values", "why_tests_cant": "arbitrary packets and values", "anchors": ["src/libbpfilter/cgen/matcher/meta.c", "src/libbpfilter/cgen/matcher/cmp.c", "src/libbpfilter/cgen/packet.c"]}
{"id": "C48", "title": "A rule drops the packets its text describes", "statement": "A rule written as one matcher (type, operator, text, with or without `not`) and a verdict DROP blocks exactly the packets that can be read, have the field the matcher is about, and are described by the text (or are not, with `not`), where the description is the documented notation on one side and the bytes of the packet on the other.", "quantifier": "all texts, all packets, all matcher types", "why_tests_cant": "a function of a text and a packet, both unbounded", "anchors": ["src/libbpfilter/matcher.c:bf_matcher_new_from_raw", "src/libbpfilter/cgen/program.c", "src/libbpfilter/cgen/matcher"]}
{"id": "C49", "title": "A chain written as text decides as the text says", "statement": "Every chain of a ruleset text that is accepted can be compiled and loaded (within the documented limits of sizes), and its program, run on any packet that can be read, returns the verdict the text gives: that of the first rule all of whose matchers (plain, inline set, named set) select the packet, CONTINUE rules only changing the mark the following rules see, and the policy of the chain otherwise; the text gives exactly one verdict.", "quantifier": "all ruleset texts, all chains of them, all packets and marks", "why_tests_cant": "relates an unbounded text, through lexer, parser, payload readers, sets, code generator and machine, to unbounded packets", "anchors": ["src/bfcli/lexer.l", "src/bfcli/parser.y", "src/libbpfilter/matcher.c:bf_matcher_new_from_raw", "src/libbpfilter/set.c:bf_set_new_from_raw", "src/libbpfilter/chain.c:bf_chain_new", "src/libbpfilter/cgen/program.c:bf_program_generate"]}
{"id": "C50", "title": "What `bfcli chain get` prints is the chain", "statement": "The text printed for a chain is a ruleset, and the chain this ruleset is read as is the one that was printed: same name, hook, options, policy, sets with the same elements, and the same rules in the same order, each with the same matchers, log, mark, counter and verdict; two chains that differ in any of these are printed differently.", "quantifier": "all chains that the parser or the API can make, all counter values, all interface tables", "why_tests_cant": "unbounded chains, sets and elements; the printer and the parser are different programs", "anchors": ["src/bfcli/print.c:bfc_chain_dump", "src/bfcli/print.c:bfc_ruleset_dump", "src/bfcli/lexer.l", "src/bfcli/parser.y", "src/libbpfilter/matcher.c:bf_matcher_get_ops"]}
{"id": "C51", "title": "A bfcli command line does what it says", "statement": "A command line is accepted if and only if it is an object, one of its actions, the options that action needs, possibly those it may have, and nothing else; anything else is refused before anything is read or touched, and so is, with --dry-run, everything but the reading of the text. A run that exits 0 has had the effect the command says on the chain the text and --name (or the --option values) say, which holds, and decides packets, as the text says; a run that fails, or is interrupted at any instant, leaves the chains as C31, C32, C39, C42 and C44 say; get prints the chain that is held with totals its counters had.", "quantifier": "all command lines, all texts and files, all worlds and histories, all failures of kernel calls, all instants", "why_tests_cant": "unbounded texts, arbitrary worlds, failures at every call, and a crash at every instant", "anchors": ["src/bfcli/main.c:main", "src/bfcli/opts.c:bfc_opts_parse", "src/bfcli/opts.c:_bfc_opts_cmds", "src/bfcli/chain.c:bfc_chain_set", "src/bfcli/chain.c:bfc_chain_update_set", "src/bfcli/ruleset.c:bfc_ruleset_set", "src/bfcli/helper.c:bfc_parse_file", "src/libbpfilter/ctx.c:bf_ctx_setup"]}
{"id": "C52", "title": "A command changes no chain but those it is about", "statement": "Whatever a bfcli command line is, whatever kernel calls fail and whenever it is interrupted, a chain the command is not about (neither named by --name, nor taken from the text, nor part of a ruleset set or flush) keeps what is stored for it (directory, pins, programs, maps, links), stays attached where it was and holds what it held, and no call of the command changes its counters; a chain that does not exist does not appear. This stays so whatever number of such commands run, one after the other or at the same time, and no kernel object is ever pinned for two chains. (The names that begin with __bf_staging_, reserved for what interrupted commands leave, are excepted.)", "quantifier": "all command lines, worlds reached by any history of commands running together or not, all interleavings of their calls, failures, interruptions and packets", "why_tests_cant": "arbitrary histories and interleavings of commands, each with failures and a crash at every instant", "anchors": ["src/bfcli/main.c:main", "src/bfcli/chain.c", "src/libbpfilter/cli.c", "src/libbpfilter/ctx.c:bf_ctx_setup", "src/libbpfilter/cgen/cgen.c", "src/libbpfilter/cgen/handle.c"]}
{"id": "C53", "title": "Everything that runs, is stored or is reported was asked for", "statement": "On a machine where bpfilter had pinned nothing, let any bfcli commands be given, whose texts are written as documented. At every instant, each program that runs at a point is the complete program of a chain that the commands asked for, and they asked for a chain of that name to be attached at that point: no half-made, foreign, stale-format or mixed program ever filters, and nothing is attached anywhere else. A chain that is stored, and a chain that chain get or ruleset get prints, is one that the commands asked for, under that name. A chain that was asked for is what the text of one of the commands says, but for the elements of the sets that chain update-set names, which are exactly the old ones, plus those added, minus those removed.", "quantifier": "every number of bfcli processes, in every interleaving of their system calls and of packets, each stopped anywhere, every failure of every call; every command line; every history", "why_tests_cant": "no finite number of tests covers the interleavings, the crash points and the histories", "anchors": ["src/bfcli/main.c:main", "src/bfcli/chain.c", "src/bfcli/ruleset.c", "src/libbpfilter/cli.c", "src/libbpfilter/cgen/cgen.c", "src/libbpfilter/cgen/handle.c", "src/libbpfilter/ctx.c:bf_ctx_get_cgens", "src/libbpfilter/cgen/prog/link.c"]}
{"id": "C54", "title": "At every instant, packets are decided as the text of a command says", "statement": "On a machine where bpfilter had pinned nothing, let any bfcli commands be given, whose texts are written as documented. At every instant, whatever program runs at a point gives every packet the verdict that a sentence says: the verdict of the first rule of the sentence that applies to the packet, that of its policy if none does. The sentence is one of the text of a command that put, loaded or updated that chain, but for the elements of its sets, which are those that chain update-set commands leave: the written ones, plus those added, minus those removed. Without update-set commands it is the sentence of a command, word for word.", "quantifier": "every number of bfcli processes, in every interleaving of their system calls and of packets, each stopped anywhere, every failure of every call; every command line, every text, every packet", "why_tests_cant": "no finite number of tests covers the interleavings, the crash points, the texts and the packets", "anchors": ["src/bfcli/main.c:main", "src/bfcli/chain.c", "src/bfcli/ruleset.c", "src/bfcli/parser.y", "src/libbpfilter/cli.c:bf_chain_update_set", "src/libbpfilter/cgen/cgen.c", "src/libbpfilter/cgen/program.c:bf_program_generate", "src/libbpfilter/chain.c"]}
{"id": "C55", "title": "What chain logs prints says what the packet had", "statement": "bfcli chain logs prints, for every packet or socket operation, one report per rule that logs it, in the order of the rules: the time, the index and the verdict of the rule; for a packet its size and, for each layer the rule asks for, one line with the fields of the header the packet has (addresses, protocol, time to live; ports, flags, sequence numbers; type, code, identifier) or a line that says the layer is unknown; for a socket operation the addresses, the protocol, the destination port, the process and its name. Nothing else is printed, but for colours.", "quantifier": "every chain that loads, every packet, every socket operation, every time, process and content of the log buffer, with and without colours", "why_tests_cant": "the headers of packets are arbitrary bytes, and so is the memory of the log buffer that an entry does not set", "anchors": ["src/bfcli/print.c:bfc_print_log", "src/bfcli/chain.c:bfc_chain_logs", "src/libbpfilter/include/bpfilter/runtime.h:bf_log", "src/libbpfilter/bpf/pkt_log.bpf.c", "src/libbpfilter/bpf/sock_addr_log.bpf.c"]}
{"id": "C56", "title": "The maps a running program reads hold exactly the sets of its chain", "statement": "At every instant, each program that runs uses kernel maps of its own, distinct from each other and of the right type and size: one counter per rule and two more, a ring buffer if its chain logs, a state if it limits a rate, and one map per group of sets. The maps of the sets hold every element of the sets of its chain and nothing else, as the commands said, whatever other commands run, fail or are killed: so packets are decided as the text of a command says with the maps as they are in the kernel, nothing being supposed of what they contain. A program is never visible before its maps are filled.", "quantifier": "every history and interleaving of commands on a machine without chains, every failure of every system call, every instant at which commands are killed, every program that runs then, every packet", "why_tests_cant": "maps are filled by calls that may fail or be interrupted, and are referred to by descriptors in instructions: any other history, failure or order could give a program the map of another one, or one that is not filled", "anchors": ["src/libbpfilter/cgen/program.c:_bf_program_load_sets_maps", "src/libbpfilter/cgen/program.c:_bf_program_load_counters_map", "src/libbpfilter/cgen/program.c:_bf_program_load_log_map", "src/libbpfilter/cgen/program.c:_bf_program_load_state_map", "src/libbpfilter/cgen/program.c:_bf_program_fixup", "src/libbpfilter/cgen/prog/map.c", "src/libbpfilter/cgen/handle.c"]}
{"id": "C57", "title": "A chain that is printed and set again filters the same", "statement": "What chain get prints of a chain, once the counters are taken off, is a ruleset. Set again, it gives a chain that does to every packet and socket operation what the first one does: same return code, mark, counters, rate-limit state and redirection, same log entries. This does not depend on the order of the elements of sets, nor on the bytes of payloads that no text gives.", "quantifier": "every chain that is read from a text, every counters, every packet and socket operation, every state of counters, rate limits and marks, every content of the memory that parsers do not write", "why_tests_cant": "the two chains are built from different texts, and their payloads and sets are not the same bytes: whether this can be seen by some packet is a question about all packets", "anchors": ["src/bfcli/print.c:bfc_chain_dump", "src/bfcli/parser.y", "src/bfcli/lexer.l", "src/libbpfilter/matcher.c", "src/libbpfilter/set.c:bf_set_new_from_raw", "src/libbpfilter/cgen/program.c:bf_program_generate"]}
{"id": "C58", "title": "The descriptors given out for a chain are of what its hook runs", "statement": "bf_chain_prog_fd and bf_chain_logs_fd change nothing: at every instant the chain, its program, its maps and its pins are what they were. The descriptor of the first one is of the program that is pinned for the chain, that was generated from the chain, and that the hooks the chain is attached to run. The descriptor of the second one is of the ring buffer which that program was generated to write its log entries to; there is one if, and only if, an enabled rule of the chain asks for logs, else the call fails with ENOENT. They fail for no other reason than a system call that failed. What chain get and ruleset get show as counters is what this same program counted.", "quantifier": "every chain that was set, loaded, updated or attached, every name, every system call that may fail, every instant, any other process that counts packets meanwhile", "why_tests_cant": "that the pinned program, the pinned maps and what the hook runs belong together is an invariant of every operation that replaces them; a test looks at one history", "anchors": ["src/libbpfilter/cli.c:bf_chain_prog_fd", "src/libbpfilter/cli.c:bf_chain_logs_fd", "src/libbpfilter/cli.c:bf_chain_get", "src/libbpfilter/cgen/cgen.c", "src/libbpfilter/cgen/handle.c"]}
