#!/usr/bin/env python3
# Source of /verif/properties.jsonl: edit here, run to regenerate.
import json
P=[]
def p(id,title,statement,quantifier,why,anchors):
    P.append(dict(id=id,title=title,statement=statement,quantifier=quantifier,why_tests_cant=why,anchors=anchors))
L="src/libbpfilter/"
p("C01","First matching terminal rule decides",
 "When a packet traverses an attached chain, the value the BPF program returns is the return code of the first enabled rule (in definition order) all of whose matchers match the packet and whose verdict is terminal; if there is none, it is the return code of the chain policy.",
 "every accepted chain (any number of rules, matchers and sets), every packet, every random number/clock/flow-hash value the kernel may supply",
 "the space of chains times packets is unbounded; jump offsets, fixups and layer guards interact across rules so no finite test suite covers all layouts",
 [L+"cgen/program.c:_bf_program_generate_rule",L+"cgen/program.c:bf_program_generate",L+"cgen/fixup.c",L+"cgen/jmp.c"])
p("C02","CONTINUE is non terminal",
 "A rule with verdict CONTINUE that matches applies its side effects (counter, mark, log) and evaluation goes on with the next rule exactly as if the rule had not stopped; it never changes which later rule or policy decides.",
 "every chain, every packet","quantifies over all suffixes of rules after a CONTINUE rule",
 [L+"cgen/program.c:_bf_program_generate_rule"])
p("C03","Counters count exactly the matching packets",
 "For each packet: a rule's counter increases by exactly (1, packet size) iff the rule has a counter, is reached and all its matchers match; the policy counter increases by (1, packet size) iff no terminal rule matched and parsing succeeded; the error counter increases iff header parsing failed; no other counter changes.",
 "every chain, every packet, every history of packets","counter indexes are computed from list sizes and rule indexes; a wrong index only shows for particular chain sizes, and exactness is over all histories",
 [L+"cgen/program.c:bf_program_chain_counter_idx",L+"cgen/program.c:bf_program_error_counter_idx",L+"bpf/update_counters.bpf.c"])
p("C04","Unparsable packets are accepted and only counted as errors",
 "If the kernel cannot expose the packet, or a header announced by the packet is truncated, the program returns the ACCEPT code of the hook, increases the error counter once, evaluates no rule, and changes no other counter, mark or log.",
 "every chain, every (possibly truncated) packet, every hook","truncation can occur at any byte of any header stack",
 [L+"cgen/stub.c:bf_stub_parse_l2_ethhdr",L+"cgen/stub.c:bf_stub_parse_l3_hdr",L+"cgen/stub.c:bf_stub_parse_l4_hdr"])
p("C05","Negation is exact complement on applicable packets",
 "For a packet carrying the protocol a matcher applies to, the negated form of the matcher matches iff the plain form does not.",
 "every matcher type/operator/payload that supports negation, every packet","all payloads times all packets",
 [L+"cgen/matcher/cmp.c:bf_cmp_get_jmp_ins",L+"cgen/matcher/cmp.c:bf_cmp_value",L+"cgen/matcher/cmp.c:bf_cmp_range"])
p("C06","Field equality matchers compare the exact header field",
 "ip4.saddr/daddr/proto, ip6.saddr/daddr, tcp/udp ports, icmp and icmpv6 type/code `eq v` match iff the packet has that header (for transport headers over IPv6: found by the extension header walk of C23) and the header field at its RFC offset equals v byte for byte.",
 "all values, all packets","2^128 values for IPv6 addresses, all packet layouts (IHL, extension headers)",
 [L+"cgen/packet.c:_bf_matcher_pkt_load_and_cmp",L+"cgen/matcher/cmp.c:bf_cmp_value",L+"matcher.c:_bf_matcher_metas"])
p("C07","Network matchers implement CIDR containment",
 "ip4.snet/dnet and ip6.snet/dnet `eq addr/len` match iff the first len bits of the packet's address (network bit order) equal the first len bits of addr, for every len in 0..32 or 0..128.",
 "all prefix lengths, all reference and packet addresses","2^256 address pairs times 129 prefix lengths; byte order and half-word boundaries are classic bugs",
 [L+"cgen/matcher/cmp.c:_bf_prefix_to_mask",L+"cgen/matcher/cmp.c:bf_cmp_masked_value"])
p("C08","Range matchers are inclusive and numeric",
 "tcp/udp port `range a-b` matches iff the packet has that header and a <= port <= b as numbers in host order; meta.flow_hash range likewise on 32 bits (meta ports are C41).",
 "all a, b, all packets","2^48 combinations; sign/byte-order bugs only show on half of the domain",
 [L+"cgen/matcher/cmp.c:bf_cmp_range",L+"cgen/packet.c:_bf_matcher_pkt_generate_port"])
p("C09","tcp.flags eq/any/all semantics",
 "On a packet with a TCP header (and on no other packet) tcp.flags eq F matches iff the flag byte equals F; any F iff it shares at least one flag with F; all F iff it contains all of F.",
 "all flag sets and packets","semantic claim over all flag bytes and all negations at program level",
 [L+"cgen/packet.c:_bf_matcher_pkt_generate_tcp_flags",L+"cgen/matcher/cmp.c:bf_cmp_bitfield"])
p("C10","Set membership is exact and sets do not interfere",
 "`key in set` matches iff the concatenation of the packet's key components is an element of that set, whatever other sets share the same key format (and hence the same BPF map), and whatever their number.",
 "any number of sets and elements, any packet","the bitmask position depends on how many sets share a map; leak between sets needs particular collections",
 [L+"cgen/program.c:_bf_program_build_set_groups",L+"cgen/program.c:_bf_program_load_sets_maps",L+"cgen/program.c:bf_program_set_bit_index",L+"cgen/matcher/set.c:bf_set_generate_map_lookup"])
p("C11","Network sets match iff some prefix covers the address",
 "`(ipX.snet|dnet) in set` matches iff at least one prefix element of the set contains the packet's address.",
 "all sets of prefixes, all addresses","overlapping prefixes of any number",
 [L+"cgen/matcher/set.c:bf_set_generate_trie_lookup",L+"cgen/program.c:_bf_program_build_set_groups"])
p("C12","Protocol guards",
 "A rule containing an IPv4/IPv6/TCP/UDP/ICMP/ICMPv6 matcher (negated or not, direct or through a set key) never matches a packet that does not carry that protocol.",
 "every rule, every packet","all combinations of matchers, order and negation",
 [L+"cgen/program.c:_bf_program_check_proto",L+"cgen/stub.c:bf_stub_rule_check_protocol",L+"chain.c:_bf_chain_check_rule"])
p("C13","The generated program is loop-free, terminates and stays inside its image",
 "For every chain whose generation succeeds, every jump of the generated program is forward and lands inside the program, every stub call lands on the start of the right stub, and execution reaches an exit within as many steps as there are instructions.",
 "every chain","offset arithmetic is relative to a growing image, wrong only for particular lengths",
 [L+"cgen/jmp.c:bf_jmpctx_cleanup",L+"cgen/program.c:_bf_program_fixup",L+"cgen/program.c:_bf_program_generate_elfstubs",L+"cgen/swich.c:bf_swich_generate"])
p("C14","The generated program only touches memory it owns",
 "In every state the execution of the generated program goes through, the next instruction reads memory only inside the bounds of what a valid pointer points to (a slice of the packet being inside the packet), writes only to the runtime context on the stack and to the rate-limit state, never uses an uninitialised register, and calls only the start of a stub. (The log stub's fault-tolerant probe reads are the subject of C20.)",
 "every chain, every packet","all set keys / component layouts / alignments",
 [L+"cgen/stub.c:bf_stub_load",L+"cgen/runtime.h:bf_runtime",L+"cgen/packet.c:_bf_matcher_pkt_generate_set"])
p("C15","Rules that cannot match are inert",
 "A rule referencing an empty set, or requiring two different protocols at one layer, never matches, never counts, and adding or removing it changes neither the verdict nor the effects of the other rules.",
 "every chain, every packet","arbitrary position of the inert rule",
 [L+"chain.c:_bf_chain_check_rule",L+"cgen/program.c:_bf_program_generate_rule"])
p("C16","Chains with matchers a hook cannot evaluate are rejected",
 "bf_chain_new/bf_chain_add_rule accept a chain only if every matcher, every set-key component, mark and log option is supported by the hook; and for an accepted chain program generation never fails because of an unsupported matcher.",
 "all chains, hooks, matchers","cross product of hooks, matcher types, operators and set keys inside unbounded rules",
 [L+"chain.c:bf_chain_new",L+"chain.c:_bf_chain_check_rule",L+"matcher.c:_bf_matcher_metas",L+"cgen/packet.c:bf_packet_gen_inline_matcher"])
p("C17","Verdict to return code mapping",
 "On every hook ACCEPT and DROP return distinct codes with the kernel meaning accept and drop; NEXT equals ACCEPT except on TC where it is TCX_NEXT; a chain whose policy is CONTINUE or REDIRECT is never accepted.",
 "all hooks and verdicts, all chains","combined with every rule of every chain",
 [L+"cgen/xdp.c:_bf_xdp_get_verdict",L+"cgen/tc.c:_bf_tc_get_verdict",L+"cgen/nf.c:_bf_nf_get_verdict",L+"cgen/cgroup_skb.c:_bf_cgroup_skb_get_verdict",L+"cgen/cgroup_sock_addr.c",L+"chain.c:bf_chain_new"])
p("C18","mark action is visible to later meta.mark matchers",
 "After a rule with `mark M` matches, the packet mark is exactly M (32 bits), later `meta.mark eq X` matchers of the same chain compare against M, and rules without mark never change it.",
 "all marks, all chains, all packets","sequence of arbitrary rules",
 [L+"cgen/tc.c:_bf_tc_gen_inline_set_mark",L+"cgen/tc.c:_bf_tc_gen_inline_matcher"])
p("C19","Log rate limiting",
 "For a rule with `log every T`, two log entries of that rule are always at least T nanoseconds apart, for any sequence of packets.",
 "every history of packets and clock values, including concurrent processors","needs arbitrary sequences and interleavings",
 [L+"cgen/program.c:_bf_program_generate_rule",L+"cgen/runtime.h:bf_rule_state"])
p("C20","Log entries describe the packet and the rule",
 "Each time a rule with `log` and no rate limit matches, exactly one log request is emitted, carrying that rule's index, its verdict, its requested headers and the packet's L3/L4 protocol; no other rule emits one; header bytes of a layer that was not parsed are never reported.",
 "every chain, every packet, every initial content of the BPF stack","depends on uninitialised memory contents and all chains",
 [L+"cgen/packet.c:bf_packet_gen_inline_log",L+"bpf/pkt_log.bpf.c",L+"cgen/program.c:bf_program_generate"])
p("C21","meta.probability and meta.flow_probability follow the threshold",
 "meta.probability eq P matches iff the 32-bit random number is at most floor(P% of 2^32-1); likewise flow_probability with the flow hash.",
 "all thresholds, all random values","2^64 combinations",
 [L+"cgen/matcher/meta.c:_bf_matcher_generate_meta_probability",L+"cgen/matcher/meta.c:_bf_matcher_generate_meta_flow_probability"])
p("C22","meta.iface matches the interface index",
 "meta.iface eq I matches iff the packet's interface index equals I.",
 "all 32-bit indexes","2^64 pairs; only large indexes misbehave",
 [L+"cgen/matcher/meta.c:_bf_matcher_generate_meta_iface"])
p("C23","IPv6 extension headers are skipped consistently",
 "The L4 protocol and offset found for an IPv6 packet are those obtained by walking its extension headers, and do not depend on which other rules (e.g. an ip6.nexthdr rule) the chain contains.",
 "all extension header chains, all chains","headers of arbitrary length and nesting, and two different implementations selected by other rules",
 [L+"bpf/parse_ipv6_eh.bpf.c",L+"bpf/parse_ipv6_nh.bpf.c",L+"cgen/stub.c:bf_stub_parse_l3_hdr"])
p("C24","hashset behaves as an insertion-ordered set",
 "Any sequence of add/delete/take/contains/reserve operations on bf_hashset gives the results and final content of a mathematical set, iteration yields elements in insertion order, size is exact, and lookups always terminate.",
 "all operation sequences, all hash functions (including colliding ones)","unbounded histories with tombstones and resizes",
 [L+"core/hashset.c"])
p("C25","vector never loses or corrupts elements",
 "After any sequence of add/reserve/set operations, element i of bf_vector is the i-th value added (or last set), capacity covers size, and no arithmetic overflow leads to a short allocation.",
 "all operation sequences and element sizes","overflow only at sizes no test can allocate",
 [L+"core/vector.c"])
p("C26","list is a faithful doubly linked sequence",
 "After any sequence of add_head/add_tail/delete/take operations, forward and backward traversal of bf_list give the same sequence, reversed, of len elements, equal to the abstract sequence; deleting the current node during foreach is safe.",
 "all operation sequences","pointer structure invariant over unbounded histories",
 [L+"core/list.c",L+"include/bpfilter/core/list.h:bf_list_foreach"])
p("C27","update-set applies exactly the delta",
 "After chain update-set with additions A and removals R, the set contains (old ∪ A) \\ R, every other set and rule is unchanged, and the reloaded program filters according to the new content.",
 "all chains, sets, deltas","all set contents, including transitions to and from empty",
 [L+"cli.c:bf_chain_update_set",L+"set.c:bf_set_add_many",L+"set.c:bf_set_remove_many"])
p("C28","Chain serialization round trip",
 "Unpacking the serialized form of any chain (rules, matchers, sets, hook, policy) gives back an equal chain.",
 "all chains","unbounded structures",
 [L+"chain.c:bf_chain_pack",L+"chain.c:bf_chain_new_from_pack",L+"rule.c:bf_rule_pack",L+"set.c:bf_set_pack",L+"matcher.c:bf_matcher_pack"])
p("C29","Locks exclude conflicting operations",
 "No two processes ever simultaneously hold a write lock and any other lock on the same chain, nor a global write lock and any other lock; operations that only read can share.",
 "every interleaving of any number of processes, including crashes","schedules are unbounded",
 [L+"core/lock.c:bf_lock_init",L+"core/lock.c:bf_lock_acquire_chain",L+"core/lock.h"])
p("C30","A locked chain directory is the live one",
 "A process holding a lock on chain N holds it on the directory currently reachable under the name N: no other process can have removed or replaced that directory while the lock is held.",
 "every interleaving of create/remove/open by any number of processes","race between open and flock",
 [L+"core/lock.c:_bf_lock_open_existing",L+"core/lock.c:_bf_lock_stage_and_publish",L+"core/lock.c:bf_lock_release_chain"])
p("C31","chain update never leaves the hook unfiltered",
 "During chain update of an attached chain, at every instant the hook runs either the complete old program or the complete new program, and if update fails before the switch the old program stays attached, pinned and its counters intact.",
 "every failure point, every packet arrival time","each system call may fail or the process may die",
 [L+"cgen/cgen.c:bf_cgen_update",L+"cgen/handle.c"])
p("C32","Persisted state is restorable after a crash",
 "If the process dies at any point of chain set/load/attach/update/flush, the state left on bpffs either describes a chain that can be reloaded with its program, or is ignored and cleaned up; a loaded chain's rules always match the running program.",
 "every crash point of every operation","crash points cannot be enumerated by unit tests",
 [L+"cgen/cgen.c:_bf_cgen_persist",L+"cgen/cgen.c:bf_cgen_new_from_dir_fd",L+"cgen/cgen.c:bf_cgen_update"])
p("C33","Counter readout is the sum over processors and preserved updates keep totals",
 "The counter value reported by chain get for a rule, the policy or errors is the sum (in 64 bits) of what every CPU had counted at that moment; when update-set succeeds, the new program starts from the totals the old program had during the update, for each rule index, the policy and errors.",
 "any number of CPUs, any counter values","all per-CPU distributions",
 [L+"cgen/handle.c:bf_handle_get_counter",L+"cgen/cgen.c:_bf_cgen_transfer_counters"])
p("C34","Hook options are validated per hook",
 "Hook options given to bfcli or to bf_chain_attach are accepted exactly when each is well formed, every option required by the flavor of the hook is present, no option of another flavor is, and none is given twice; the values stored are those written. (The deprecated family= option is checked and then ignored, wherever and however often it is given.)",
 "all sequences of options and hooks","all sequences",
 [L+"hook.c:bf_hookopts_validate",L+"hook.c:bf_hookopts_parse_opt"])
p("C35","Printer messages never overlap",
 "For any sequence of messages added to the printer, each distinct message is stored once, at an offset where the assembled string contains exactly that message followed by NUL.",
 "any sequence of messages","unbounded sequences",
 [L+"cgen/printer.c:bf_printer_add_msg",L+"cgen/printer.c:bf_printer_assemble"])
p("C36","Adding a rule after a terminal catch-all changes nothing",
 "Appending rules after an enabled, matcher-less terminal rule never changes verdict, mark, logs or counters of the existing rules for any packet.",
 "all chains and packets","all chains",
 [L+"cgen/program.c:bf_program_generate"])
p("C37","Set elements text parses to the announced elements",
 "bf_set_new_from_raw terminates on every input and, on success, the set contains exactly one element per non-blank element of the text, with components parsed in key order.",
 "all input strings","unbounded strings",
 [L+"set.c:bf_set_new_from_raw",L+"set.c:bf_set_add_elem_raw",L+"helper.c:bf_trim"])
p("C38","Enum/string conversions round trip",
 "For hooks, verdicts, matcher types, operators, flavors, log layers, TCP flags, protocols, ICMP types, DSCP classes: the name shown for a value is the documented one, it is read back as this value, and no other string is accepted.",
 "all enum values, all strings","all strings",
 [L+"hook.c:bf_hook_from_str",L+"verdict.c",L+"matcher.c:bf_matcher_type_from_str"])
p("C39","chain set / ruleset set failure does not lose the previous chain",
 "If chain set (or ruleset set) fails, the chain(s) existing before remain in force.",
 "every failure point","every failing system call",
 [L+"cli.c:bf_chain_set",L+"cli.c:bf_ruleset_set"])
p("C40","Sock-addr chains filter on the socket address",
 "On cgroup_sock_addr hooks, ip4/ip6 address and network, port and protocol matchers compare the corresponding bpf_sock_addr fields with the same eq/net/range/set semantics as on packet hooks.",
 "all socket addresses, all matchers","2^128 addresses",
 [L+"cgen/cgroup_sock_addr.c"])
p("C41","meta.sport and meta.dport match the port of the transport header, TCP or UDP",
 "meta.sport/dport `eq p` (`range a-b`) match iff the packet has a TCP or UDP header whose source/destination port is p (is in a-b), and their negations iff it has one whose port is not.",
 "all ports, all packets, both protocols","port 0 is the only port that misbehaves",
 [L+"cgen/packet.c:_bf_matcher_pkt_generate_port",L+"cgen/matcher/meta.c"])
p("C42","Flushing a chain removes it and nothing else",
 "If chain flush reports a failure, nothing changed. If it succeeds, the chain's program no longer runs anywhere, none of its objects is left pinned and the chain can no longer be read, unless the kernel refused the removal of one of them; whatever happens, other chains (their pins, directories and attached programs) are untouched.",
 "every system state, every combination of failing system calls, every instant at which packets arrive","failures of the removals are ignored by the code, so what is left depends on which subset of the calls failed",
 [L+"cli.c:bf_chain_flush",L+"cgen/cgen.c:bf_cgen_unload",L+"cgen/handle.c:bf_handle_unpin"])
p("C43","Payloads printed by bfcli are read back as the same payload",
 "For every matcher type and operator, parsing the text that is printed for a payload gives back this payload, so that two payloads printed alike are the same; whatever the text, a payload that is accepted has the size of its type, an ordered range, a prefix length within the address, a DSCP value below 64, a non-zero interface.",
 "all payloads, all strings, whatever memory the payload is read to held before","unbounded strings, 2^128 addresses, uninitialised memory",
 [L+"matcher.c:bf_matcher_new_from_raw",L+"matcher.c:_bf_parse_ipv6_net",L+"matcher.c:_bf_print_ipv6_net",L+"set.c:bf_set_add_elem_raw"])
p("C44","Operations on the whole ruleset cover exactly the chains",
 "ruleset flush removes every chain and nothing else, or fails and changes nothing; ruleset get lists every chain exactly once, with the options it is attached with and counter values summed over the CPUs, and changes nothing; ruleset set ends with exactly the given chains, attached as asked, and those that were there filter no longer; if it fails the previous ruleset stays in force.",
 "any number of chains, every combination of failing system calls, every instant at which packets arrive","the number of chains is unbounded, and each of the calls made for each chain may fail",
 [L+"cli.c:bf_ruleset_set",L+"cli.c:bf_ruleset_get",L+"cli.c:_bf_ruleset_flush",L+"ctx.c:bf_ctx_get_cgens"])
p("C45","The text of a ruleset means what it says",
 "A ruleset text that is accepted is made of the words of a sentence of the documented grammar and of nothing else, and the chains that are built are exactly those it says: same chains, sets and rules, in the same order, each with its name, hook, options, policy, matchers, rule options and verdict; a text written as documented whose rules the hook can evaluate is accepted; --name selects the first chain of that name.",
 "all texts, any number of chains, sets, rules and words, any blanks and comments","unbounded texts; the lexer depends on 23 start conditions and on the longest match among dozens of patterns",
 ["src/bfcli/lexer.l","src/bfcli/parser.y","src/bfcli/helper.c:bfc_parse_str","src/bfcli/chain.c:_bfc_get_chain_from_ruleset",L+"matcher.c:bf_matcher_new_from_raw",L+"set.c:bf_set_new_from_raw"])
p("C46","The text of a payload means what it says",
 "Numbers, ports, ranges, marks, names, IPv4 and IPv6 addresses and networks are read as their documented notations say (RFC 4291 for IPv6 addresses: eight words or `::`, the last two words possibly as an IPv4 address): a text that is accepted says the payload it is read as, a text that says a payload is accepted and read as it, anything else is refused; in particular negative numbers are refused.",
 "all texts, all matcher types and operators","unbounded texts; most malformed texts are close to valid ones",
 [L+"matcher.c:_bf_parse_ipv6_addr",L+"matcher.c:_bf_parse_ipv4_net",L+"matcher.c:_bf_parse_l4_port_range",L+"matcher.c:_bf_parse_mark",L+"matcher.c:_bf_strtoul",L+"matcher.c:_bf_parse_tcp_flags",L+"if.c:bf_if_index_from_str"])
p("C47","DSCP, mark, hash and protocol matchers compare what they name",
 "`ip4.dscp` and `ip6.dscp` compare the six DSCP bits, `meta.mark` the mark of the packet, `meta.flow_hash eq` its hash, `meta.l3_proto` and `meta.l4_proto` the protocol of the network and transport header, `ip6.nexthdr` any header of the extension chain or the upper protocol; with `not`, the opposite, among the packets that have the header.",
 "all packets, hooks, values","arbitrary packets and values",
 ["src/libbpfilter/cgen/matcher/meta.c","src/libbpfilter/cgen/matcher/cmp.c","src/libbpfilter/cgen/packet.c"])
p("C48","A rule drops the packets its text describes",
 "A rule written as one matcher (type, operator, text, with or without `not`) and a verdict DROP blocks exactly the packets that can be read, have the field the matcher is about, and are described by the text (or are not, with `not`), where the description is the documented notation on one side and the bytes of the packet on the other.",
 "all texts, all packets, all matcher types","a function of a text and a packet, both unbounded",
 [L+"matcher.c:bf_matcher_new_from_raw","src/libbpfilter/cgen/program.c","src/libbpfilter/cgen/matcher"])
p("C49","A chain written as text decides as the text says",
 "Every chain of a ruleset text that is accepted can be compiled and loaded (within the documented limits of sizes), and its program, run on any packet that can be read, returns the verdict the text gives: that of the first rule all of whose matchers (plain, inline set, named set) select the packet, CONTINUE rules only changing the mark the following rules see, and the policy of the chain otherwise; the text gives exactly one verdict.",
 "all ruleset texts, all chains of them, all packets and marks","relates an unbounded text, through lexer, parser, payload readers, sets, code generator and machine, to unbounded packets",
 ["src/bfcli/lexer.l","src/bfcli/parser.y",L+"matcher.c:bf_matcher_new_from_raw",L+"set.c:bf_set_new_from_raw",L+"chain.c:bf_chain_new","src/libbpfilter/cgen/program.c:bf_program_generate"])
p("C50","What `bfcli chain get` prints is the chain",
 "The text printed for a chain is a ruleset, and the chain this ruleset is read as is the one that was printed: same name, hook, options, policy, sets with the same elements, and the same rules in the same order, each with the same matchers, log, mark, counter and verdict; two chains that differ in any of these are printed differently.",
 "all chains that the parser or the API can make, all counter values, all interface tables","unbounded chains, sets and elements; the printer and the parser are different programs",
 ["src/bfcli/print.c:bfc_chain_dump","src/bfcli/print.c:bfc_ruleset_dump","src/bfcli/lexer.l","src/bfcli/parser.y",L+"matcher.c:bf_matcher_get_ops"])
p("C51","A bfcli command line does what it says",
 "A command line is accepted if and only if it is an object, one of its actions, the options that action needs, possibly those it may have, and nothing else; anything else is refused before anything is read or touched, and so is, with --dry-run, everything but the reading of the text. A run that exits 0 has had the effect the command says on the chain the text and --name (or the --option values) say, which holds, and decides packets, as the text says; a run that fails, or is interrupted at any instant, leaves the chains as C31, C32, C39, C42 and C44 say; get prints the chain that is held with totals its counters had.",
 "all command lines, all texts and files, all worlds and histories, all failures of kernel calls, all instants","unbounded texts, arbitrary worlds, failures at every call, and a crash at every instant",
 ["src/bfcli/main.c:main","src/bfcli/opts.c:bfc_opts_parse","src/bfcli/opts.c:_bfc_opts_cmds","src/bfcli/chain.c:bfc_chain_set","src/bfcli/chain.c:bfc_chain_update_set","src/bfcli/ruleset.c:bfc_ruleset_set","src/bfcli/helper.c:bfc_parse_file",L+"ctx.c:bf_ctx_setup"])
p("C52","A command changes no chain but those it is about",
 "Whatever a bfcli command line is, whatever kernel calls fail and whenever it is interrupted, a chain the command is not about (neither named by --name, nor taken from the text, nor part of a ruleset set or flush) keeps what is stored for it (directory, pins, programs, maps, links), stays attached where it was and holds what it held, and no call of the command changes its counters; a chain that does not exist does not appear. This stays so whatever number of such commands run, one after the other or at the same time, and no kernel object is ever pinned for two chains. (The names that begin with __bf_staging_, reserved for what interrupted commands leave, are excepted.)",
 "all command lines, worlds reached by any history of commands running together or not, all interleavings of their calls, failures, interruptions and packets","arbitrary histories and interleavings of commands, each with failures and a crash at every instant",
 ["src/bfcli/main.c:main","src/bfcli/chain.c",L+"cli.c",L+"ctx.c:bf_ctx_setup","src/libbpfilter/cgen/cgen.c","src/libbpfilter/cgen/handle.c"])
p("C53","Everything that runs, is stored or is reported was asked for",
 "On a machine where bpfilter had pinned nothing, let any bfcli commands be given, whose texts are written as documented. At every instant, each program that runs at a point is the complete program of a chain that the commands asked for, and they asked for a chain of that name to be attached at that point: no half-made, foreign, stale-format or mixed program ever filters, and nothing is attached anywhere else. A chain that is stored, and a chain that chain get or ruleset get prints, is one that the commands asked for, under that name. A chain that was asked for is what the text of one of the commands says, but for the elements of the sets that chain update-set names, which are exactly the old ones, plus those added, minus those removed.",
 "every number of bfcli processes, in every interleaving of their system calls and of packets, each stopped anywhere, every failure of every call; every command line; every history",
 "no finite number of tests covers the interleavings, the crash points and the histories",
 ["src/bfcli/main.c:main","src/bfcli/chain.c","src/bfcli/ruleset.c",L+"cli.c",L+"cgen/cgen.c",L+"cgen/handle.c",L+"ctx.c:bf_ctx_get_cgens",L+"cgen/prog/link.c"])

p("C54","At every instant, packets are decided as the text of a command says",
 "On a machine where bpfilter had pinned nothing, let any bfcli commands be given, whose texts are written as documented. At every instant, whatever program runs at a point gives every packet the verdict that a sentence says: the verdict of the first rule of the sentence that applies to the packet, that of its policy if none does. The sentence is one of the text of a command that put, loaded or updated that chain, but for the elements of its sets, which are those that chain update-set commands leave: the written ones, plus those added, minus those removed. Without update-set commands it is the sentence of a command, word for word.",
 "every number of bfcli processes, in every interleaving of their system calls and of packets, each stopped anywhere, every failure of every call; every command line, every text, every packet",
 "no finite number of tests covers the interleavings, the crash points, the texts and the packets",
 ["src/bfcli/main.c:main","src/bfcli/chain.c","src/bfcli/ruleset.c","src/bfcli/parser.y",L+"cli.c:bf_chain_update_set",L+"cgen/cgen.c",L+"cgen/program.c:bf_program_generate",L+"chain.c"])

p("C55","What chain logs prints says what the packet had",
 "bfcli chain logs prints, for every packet or socket operation, one report per rule that logs it, in the order of the rules: the time, the index and the verdict of the rule; for a packet its size and, for each layer the rule asks for, one line with the fields of the header the packet has (addresses, protocol, time to live; ports, flags, sequence numbers; type, code, identifier) or a line that says the layer is unknown; for a socket operation the addresses, the protocol, the destination port, the process and its name. Nothing else is printed, but for colours.",
 "every chain that loads, every packet, every socket operation, every time, process and content of the log buffer, with and without colours",
 "the headers of packets are arbitrary bytes, and so is the memory of the log buffer that an entry does not set",
 ["src/bfcli/print.c:bfc_print_log","src/bfcli/chain.c:bfc_chain_logs",L+"include/bpfilter/runtime.h:bf_log",L+"bpf/pkt_log.bpf.c",L+"bpf/sock_addr_log.bpf.c"])

p("C56","The maps a running program reads hold exactly the sets of its chain",
 "At every instant, each program that runs uses kernel maps of its own, distinct from each other and of the right type and size: one counter per rule and two more, a ring buffer if its chain logs, a state if it limits a rate, and one map per group of sets. The maps of the sets hold every element of the sets of its chain and nothing else, as the commands said, whatever other commands run, fail or are killed: so packets are decided as the text of a command says with the maps as they are in the kernel, nothing being supposed of what they contain. A program is never visible before its maps are filled.",
 "every history and interleaving of commands on a machine without chains, every failure of every system call, every instant at which commands are killed, every program that runs then, every packet",
 "maps are filled by calls that may fail or be interrupted, and are referred to by descriptors in instructions: any other history, failure or order could give a program the map of another one, or one that is not filled",
 [L+"cgen/program.c:_bf_program_load_sets_maps",L+"cgen/program.c:_bf_program_load_counters_map",L+"cgen/program.c:_bf_program_load_log_map",L+"cgen/program.c:_bf_program_load_state_map",L+"cgen/program.c:_bf_program_fixup",L+"cgen/prog/map.c",L+"cgen/handle.c"])

p("C57","A chain that is printed and set again filters the same",
 "What chain get prints of a chain, once the counters are taken off, is a ruleset. Set again, it gives a chain that does to every packet and socket operation what the first one does: same return code, mark, counters, rate-limit state and redirection, same log entries. This does not depend on the order of the elements of sets, nor on the bytes of payloads that no text gives.",
 "every chain that is read from a text, every counters, every packet and socket operation, every state of counters, rate limits and marks, every content of the memory that parsers do not write",
 "the two chains are built from different texts, and their payloads and sets are not the same bytes: whether this can be seen by some packet is a question about all packets",
 ["src/bfcli/print.c:bfc_chain_dump","src/bfcli/parser.y","src/bfcli/lexer.l",L+"matcher.c",L+"set.c:bf_set_new_from_raw",L+"cgen/program.c:bf_program_generate"])

p("C58","The descriptors given out for a chain are of what its hook runs",
 "bf_chain_prog_fd and bf_chain_logs_fd change nothing: at every instant the chain, its program, its maps and its pins are what they were. The descriptor of the first one is of the program that is pinned for the chain, that was generated from the chain, and that the hooks the chain is attached to run. The descriptor of the second one is of the ring buffer which that program was generated to write its log entries to; there is one if, and only if, an enabled rule of the chain asks for logs, else the call fails with ENOENT. They fail for no other reason than a system call that failed. What chain get and ruleset get show as counters is what this same program counted.",
 "every chain that was set, loaded, updated or attached, every name, every system call that may fail, every instant, any other process that counts packets meanwhile",
 "that the pinned program, the pinned maps and what the hook runs belong together is an invariant of every operation that replaces them; a test looks at one history",
 [L+"cli.c:bf_chain_prog_fd",L+"cli.c:bf_chain_logs_fd",L+"cli.c:bf_chain_get",L+"cgen/cgen.c",L+"cgen/handle.c"])

if __name__=="__main__":
    import os
    with open(os.path.join(os.path.dirname(os.path.abspath(__file__)),"..","properties.jsonl"),"w") as f:
        for x in P: f.write(json.dumps(x)+"\n")
    print(len(P))
