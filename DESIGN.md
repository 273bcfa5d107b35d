# A Lean 4 model of bpfilter

The model lives in `lean/Verif/`. Every definition cites the C file and lines it
models (paths relative to `/repo/src/libbpfilter` unless stated otherwise).
Property theorems live in their own files (`lean/Verif/Props/*.lean`), apart from
the models and from helper lemmas; every property theorem is followed by an
`example` showing that a concrete, non-trivial case meets its hypotheses.

## 1. What is modelled

| Layer | Modules | Code modelled |
|---|---|---|
| BPF machine | `Machine/*` | the subset of the eBPF ISA the generator emits, byte-level stack, helpers, kfuncs and the stubs `bpf/*.bpf.c` (as functions on the machine state, not as bytecode); `Machine/Smp` interleaves CPUs |
| Code generator | `Gen/*` | `cgen/program.c`, `cgen/stub.c`, `cgen/packet.c`, `cgen/matcher/*.c`, `cgen/jmp.c`, `cgen/swich.c`, `cgen/fixup.c`, `cgen/{xdp,tc,nf,cgroup_skb,cgroup_sock_addr}.c` |
| Specification of filtering | `Spec/*` | nothing: independent meaning of packets, matchers, rules and chains, documented names (`Spec/Doc`), supported hooks (`Spec/Support`) |
| Proof of the generator | `Frag/*`, `Exec/*` | nothing: tagged fragments, their execution, totality |
| Chain object | `Chain/*` | `chain.c`, `rule.c`, `matcher.c` tables, `set.c`, `hook.c`, `verdict.c` |
| Containers | `Core/*`, `User/Printer` | `core/vector.c`, `core/list.c`, `core/hashset.c`, `cgen/printer.c` |
| Serialization | `Pack/*` | `pack.c`, `bf_*_pack` and `bf_*_new_from_pack` of `chain.c`, `rule.c`, `matcher.c`, `set.c`, `hook.c`, `counter.c`, `cgen/{cgen,handle,printer}.c`, `cgen/prog/{map,link}.c`, and the mpack encoder and parser |
| Text | `User/{CStr,Names,HookOpts,Inet,Payload,SetRaw}` | names, hook options, addresses, payloads of matchers, sets |
| Proof of the text | `User/Text*`, `User/*Lemmas`, `Spec/{PayloadText,TextPacket}` | nothing: notations of numbers, addresses, networks; what a text says of a packet |
| Ruleset text | `Cli/{Regex,Lexer,Grammar,Action}` | `bfcli/lexer.l` (rules, start conditions, longest match), `bfcli/parser.y` (grammar and actions), `bfcli/helper.c`, `bfcli/chain.c:34-82`; a character is a byte |
| Proof of the parser | other `Cli/*`, `Spec/{Ruleset,Written}` | nothing: meaning of a ruleset text and how it is written; the regular expressions by derivatives, the grammar by a deterministic recogniser proved equivalent to it |
| Locks | `Sys/Lock` | `core/lock.c`, one step per system call, any number of processes |
| Control plane | `Cgen/{World,Ops,Get,Ruleset}` | `cgen/cgen.c`, `cgen/handle.c`, `cgen/prog/{map,link}.c`, `ctx.c` (chains), `cli.c`, one step per system call over a kernel with pins, links, programs, maps and file descriptors |
| Proof of the control plane | other `Cgen/*` | nothing: what each function may have done at each instant of any execution |

Not modelled: `external/` (mpack apart), `btf.c`, `bpf.c` beyond the meaning of its calls, `cgen/elfstub.c` (the stubs are functions),
`cgen/dump.c`, `dump.c`, `logger.c` (levels apart), `io.c` (its effects are steps of `Cgen/World`), `if.c`
(interfaces are a parameter), `version.c`, allocation failures in the parsers, `_parse_log_rate` (a parameter) and the tables flex and bison generate (their meaning is modelled); in `Cgen/World`
the global lock and the context object `ctx.c:80-190` are one step.

Two representations of a program are related by proof: the *flat image* (absolute
indices, fixup list, patched offsets: what the C code builds) and *tagged
fragments* (used to reason compositionally). The flagship theorem is about the
flat image.

## 2. Plan per property

* **C01 first match, C02 CONTINUE, C03 counters, C04 parse errors, C12 guards, C15 inert rules, C18 mark, C20 log, C36 catch-all** —
  one refinement theorem: running the generated image on any packet, from any
  initial stack, ends in `exit` with the code and world (counters, mark, log
  requests, redirect) given by `Spec.evalChain`. The properties are then theorems about
  `Spec.evalChain`, restated on the machine by rewriting with the refinement.
* **C05–C09, C21, C22, C40 matchers** — per matcher lemma: the emitted fragment falls
  through iff the matcher's specification holds, else leaves by the next-rule exit.
  Statements over packet bytes and numbers, with `Nat` meaning (CIDR as equality of
  leading bits, ranges on numbers).
* **C10, C11 sets** — model of grouping (`_bf_program_set_groups`), bit indices, map filling and the
  generated lookup; theorem over any list of sets.
* **C13, C14 well-formed and memory safe** — the machine has a distinct error outcome for any bad jump or access;
  C14 follows from the refinement (outcome is never `err`); C13 is proved on
  the flat image (all jumps forward and inside).
* **C16, C17, C34, C38** — decision tables and validation functions; proofs over all chains for C16,
  complete case analysis over finite enums for C17/C38, all option lists for C34.
* **C19 rate limit** — state machine over packet sequences; negation for concurrent CPUs.
* **C23 IPv6 extension headers** — model of both walkers and of the generated switch; negation with witness (wrong bit mask) and partial theorem.
* **C24–C26, C35 containers** — refinement to mathematical sets / lists for every operation sequence.
* **C27 update-set, C28 serialization, C37 raw set parsing** — functions of the chain model; round trip theorem; negations with witness where the code deviates.
* **C43, C37 text** — the parsers and printers on C strings, with models of the C library functions; round trip for every payload, exact content for every set.
* **C46 meaning of payloads** — grammars of numbers, addresses, networks and ranges in `Spec/PayloadText`; each parser proved to accept exactly its grammar (`User/TextNum`, `User/TextAddr`, `User/TextMeans`); negations where the code deviates.
* **C47 other matchers** — DSCP, mark, hash, protocols and next headers, stated on bytes (`Spec/Raw`, `Spec/TextPacket`), from C01 by case analysis of the specification of the generated code; negations as concrete packets.
* **C48 text to packets** — composition of C46 (text to payload) and C06–C09, C22, C41, C47 (payload to packets): `Spec/TextPacket.Describes` mentions texts and packets only. `Spec/TextSocket.SockDescribes` is the same for socket operations (bytes of `struct bpf_sock_addr`), from C46 and C40: `C48_sock_partial`.
* **C49 text of a chain to verdicts** — `Spec/RulesetPacket.Rules` says, on sentences and packets only, which verdict a chain text gives; composition of C45 (text to chain), C48 (matchers), C10, C11, C37 (sets, elements), C16 (compilation succeeds), C01, C17, C18 (program): `C49_loads`, `C49_decides_partial`, `C49_program_partial`. The induction on rules (`decides_gen`) is about any way to select (`RulesBy`); with `SockSelects` it gives `C49_sockets_partial` and `C49_sockets_program_partial` for connect and sendmsg hooks, and with them C54 and C56 (`Decides`, `DecidesOn`) cover all hooks.
* **C50 what is printed** — `Cli/Dump` models `bfc_chain_dump` character by character; `Spec/Shown.edit` removes the reports; the edited text is shown to be the words of a sentence (`Writes`) that says the chain (C45's `ChainSays`), and two chains said by one sentence are alike: `C50_shown_partial`, `C50_round_partial` (an equivalence). `C50_read`: the chains that are read from a text are among those that can be shown, so text → chain → printed text → alike chain (`C50_again_partial`). Witnesses for what cannot be read back.
* **C51 command lines** — `Cli/Opts` models the two argument passes of `opts.c`, `Cli/Main` `main`, `bf_ctx_setup` (with its sweep), `chain.c` and `ruleset.c` as programs over the kernel model of `Cgen`. `Spec/Usage` writes the commands and options down from the documentation; `C51_options` is an equivalence. `Spec/Command` says what text, chain and set a command line names. The sweep is shown to touch staging directories only, after which C31, C32, C33, C39, C42, C44, C45, C49 and C50 are applied to the run of the command.
* **C52 isolation** — `Cgen/Within` says that a program names only directories of a set `D` and objects of a set `S` as long as the objects it is given are in `S`; `Cgen/WithinOps` proves it of every operation of `cgen.c` and `cli.c`. `Cgen/Tagged` assembles such operations into programs that work on one directory at a time, and proves that a call of such a program, among others that run at the same time, leaves every object in one directory and changes nothing of the directories it is not about; `Props/C52_Others` proves `main` to be such a program. `Spec/Regards` says which chains a command line is about, `Spec/Issued` what executions of commands together (`Moves`) and one after the other (`Issue`) are; nothing is assumed of the world but that it was reached by commands. `Moves` ignores locks, hence allows more interleavings than the code.
* **C53 provenance** — `Spec/AskedFor` says what commands asked for: the chains that their texts say (`Puts`, `Loads`), those with a set changed as an `update-set` says (`Changes`), and the points of the options. `Cgen/Fair` says that a program of one directory writes, loads and attaches only what may be in that directory, if that is what it reads there (rely and guarantee), and proves that programs that are so can run together; `Cgen/FairOps`, `Cgen/FairChain` prove it of every operation of `cgen.c` and `cli.c`: what is stored is the serialization of a chain that was asked for, so what is read back is such a chain (`C28`), the image is the one `compile` gives, and links are created only at points of options. `Props/C53_Asked` proves it of `main`; `Props/C53_History` is the induction over `Moves`. `AskedFor.again` is needed because reading a chain recomputes which rules are inert (finding 2).
* **C54 decided by a text** — C53 and C49 together. `Spec/Standing` says which sentences stand: those told by a command (`Tells`), and those with the elements of a set changed as an `update-set` says (`Revised`, on texts). By induction on `AskedFor`, what is asked for is what a sentence that stands says (`said_of`); `decides_says` (C49, generalised to chains whose inert rules are inert) gives the verdicts. `C54_stale`, a computed run, shows that the condition on empty sets is needed.
* **C55 what chain logs prints** — `Cli/LogPrint` models `print.c` line by line over the bytes of a `struct bf_log` slot: what the entry of C20 sets is as it says (`LogSlot.Holds`), every other byte is arbitrary, since the ring buffer is not cleared. `Spec/LogText` says what a report is, with the numerals, addresses and names of C46; `Coloured` takes the colour codes off. `C55_packet_partial` and `C55_sock_partial` prove each entry's report from `Describes` (C20), `C55_logs_partial` puts the reports of a run in order. `strftime` is a parameter (`Term.clock`), assumed to print no escape character.
* **C56 the maps of a program** — `Cgen/World` has maps with contents: `mapCreate`, `mapFill` (`BPF_MAP_UPDATE_BATCH`, all or nothing). `Spec/KernelMaps` says what a program finds in the kernel through the descriptors of its instructions (`onKernel`), and what its maps must be (`HasMaps`). Proof: what a process knows of the maps it made (`Know`, `P.Binds`, `Cgen/Binds*`) is true at every instant (`True_`), nobody else knows them (`Apart`), so a program that is loaded has the maps of its chain (`Bound`), and no call changes them later. `C56_maps` for every history, `HasMaps.loaded` turns this into the hypothesis of all theorems on programs, and `C56_decided_partial` joins it to C54: from the words of a command line to the return code of the program, through the maps of the kernel.
* **C57 printed and set again** — C50 gives a chain that is alike (`Spec/Shown.ChainAlike`: same rules, payloads with the same written bytes, sets with the same elements in any order). `Spec/Corr` is a simulation between evaluations of rules whose matchers correspond; `Props/C57_Alike` proves that matchers that are alike hold alike (an IPv6 network is its length and that many bits, `meta.l4_proto` is its first byte, membership does not depend on the order), that the same rules are disabled (C15) and that the same chains record extension headers; `C57_alike` concludes on programs (C01, C04), `C57_again_partial` joins it to C50.
* **C58 descriptors** — `Cli/Fds` models `bf_chain_prog_fd` beside `bf_chain_logs_fd`. A stored chain (`Good`, `Cgen/Set`) is one whose program was generated for the very maps that are pinned with it (`Tied`, `Cgen/Update`): established when the program is made (`Ready`), kept by attach, update and update-set, and by any other chain's operations. `Props/C58_Fds` runs both calls over the model with any call failing, and reads off what they give. `CountsAt` (`Props/C51_Get`) uses the same for the counters that are shown.
* **C45 ruleset text** — the lexer as longest match over derivatives of the patterns of `lexer.l`, the grammar as trees and a parser proved to accept exactly their tokens,
  the actions; soundness over all texts, and completeness over the texts written as documented; negations where the code deviates.
* **C29–C33, C39, C42, C44 locks, crash, update, whole ruleset** — interleaving / crash-point state machines over an abstract kernel (flock, rename, bpffs pins, links); invariants by induction on traces; negations where the code deviates.

No property is declared not applicable; floating point (probability percentages to
thresholds), the kernel verifier, real `flock`/bpffs behaviour and
compiled stub bytecode are parameters or assumptions, listed below.

## 3. Trusted base

* Lean 4.33.0 kernel; axioms at most `propext`, `Classical.choice`, `Quot.sound`
  (checked by `#print axioms`, listed by `vcheck`).
* Faithfulness of the hand-written model to the C source (each definition cites its lines).
* The machine semantics (our reading of the eBPF ISA on a little-endian host).
* Stub programs (`bpf/*.bpf.c`) modelled as functions, not as compiled bytecode.
* Kernel helpers/kfuncs modelled as parameters (see `Machine/Env`).
* The C library functions the code calls (`strtoul`, `strtoll`, `strtok_r`, `inet_pton`, `inet_ntop`, `printf` of integers), the mpack
  library (bytes written and read) and the kernel's BPF file system, maps, links and program updates, which are not in `/repo` and are modelled
  from their documentation and sources: `User/CStr`, `User/Inet`, `Pack/Mpack`, `Pack/Read`, `Cgen/World`, `Sys/Lock`.
* In `Cgen/World` every system call may fail, packets may arrive between any two calls, and a crash may happen anywhere; concurrent
  bpfilter processes on the same chain are excluded there by the lock, whose model is `Sys/Lock` (C29, C30).
* In `Cgen/World` the descriptor of an object is its rank among all objects ever made (descriptors of different objects are different while they are
  used in instructions); `BPF_MAP_UPDATE_BATCH` puts all the elements or none (a failure makes the command give up the map).
* Memory allocation never fails in the models of the parsers; memory that is not initialised holds arbitrary bytes (`User/Payload`, `User/SetRaw`).

## 4. Disagreements between the code and the properties (findings)

See the list at the end of this file; each has a negation theorem with a concrete
witness where the model can express it.

1. `meta.probability`: threshold ≥ 2^31 is sign-extended by a 64-bit compare: the rule always matches (C21).
2. `bf_chain_update_set`: `disabled` computed at creation is not recomputed (C27).
3. `bf_set_new_from_raw` loops forever on a blank first token (C37).
4. `meta.iface` loads 16 of 32 bits of the ifindex (C22).
5. IPv6 EH and NH stubs disagree on truncated extension headers (C23).
6. L3 slice uses the L2 buffer (C14/C20: L2 copy clobbered).
7. Unsupported L3/L4 protocols are reset to 0 (C06 for `meta.l3_proto`/`l4_proto`).
8. `meta.sport/dport`: port 0 never matches, even negated (C05).
9. IPv6 fragment header length is computed from a reserved byte (C23).
10. 16-bit jump offsets may overflow in huge programs (C13): only an `assert`/warning.
11. `chain set` failure loses the old chain (C39).
12. update: counts between transfer and link update are lost (C33).
13. `meta.l4_proto` payload: 2 bytes declared, 1 written.
14. packet log stub reads header pointers that may never have been set (C20).
15. rate limit state is a non-atomic shared value (C19).
16. `icmpv6` matchers have no L3 guard (C12).
17. `_BF_LOW_EH_BITMASK` has the wrong bits (C23).
18. Set keys with repeated components may exceed the 64-byte scratch area (C14).
19. `meta.dport` on sock_addr has no TCP/UDP guard.
20. `_bf_program_check_proto` removes duplicate guards by layer only; correct only because the chain check disables rules with incompatible protocols (C12).
21. The ip6 LPM set key has 4 uninitialised padding bytes; the XDP `pkt_size` covers only the linear part.
22. sock_addr: `ip4.proto` in a set keeps the low byte of a 32-bit protocol, so IPPROTO_MPTCP (262) matches TCP (6) in a set but not with `eq` (C40).
23. A negated set matcher on an empty set disables the rule instead of always matching (C05 against C15, at rule level).
24. `bf_matcher_new` and unpacking do not validate the operator: e.g. `meta.iface any` compiles with inverted logic.
25. The timestamp of a rate-limited log entry is a later clock read than the one of the rate decision (C19).
26. update-set emptying a set an enabled rule refers to makes program generation fail, so such an update is refused (C27).
27. REDIRECT is accepted by `bf_chain_new` on every hook although only TC and XDP (out) implement it: the error only appears when the chain is compiled (`C16_redirect_late`).
28. The staging sweep (`_bf_ctx_sweep_staging`, ctx.c:215-268) removes, with its content, any unlocked directory whose name starts with `__bf_staging_`, including a user's chain so named (`C32_fails_staging_name`); `bf_ctx_get_cgens` skips such chains too (ctx.c:375).
29. Unpacking a matcher whose payload is an empty binary trips `assert(!payload == !payload_len)`-like checks in `bf_matcher_new` (matcher.c:1292) instead of returning an error: corrupted persisted data aborts the process (modelled as `.ub` in `matcherUnpack`).
30. `bf_chain_set` and `bf_ruleset_set` do not validate the hook options (only `bf_chain_attach` and bfcli's parser do): with a missing `cgpath`, `open(NULL)` is called (C34).
31. `family=` is parsed but never marked as used, so it can be given any number of times and on any hook (hook.c:266-284; C34).
32. Numbers in text: the prefix length of a network is cut to 32 bits before it is checked (`10.0.0.0/4294967304` is a /8), the text of ranges and networks is cut to a fixed buffer, an empty string is port or mark 0, `strtoul` accepts negative numbers modulo 2^64 (`C43_wraps`).
33. `bf_cgen_update` first persists the old chain with the new handle: after a crash the restored rules are not those of the program (`C32_not_update_mixed`).
34. A crash in `bf_chain_set` between the pins and the context, or in `bf_chain_flush` after the context is removed, leaves a directory that no operation can repair, with the program still attached (`C32_stuck`, `C32_not_set`, `C32_not_flush`).
35. A crash in `bf_chain_attach` between the pin of the link and the context leaves a link bpfilter no longer knows: attach fails with EEXIST, flush succeeds and leaves it attached (`C32_not_attach`).
36. `bf_cgen_update`: a failed link update followed by a failed re-pin of the old handle leaves nothing pinned (`C31_not_after_failure`).
37. `bf_chain_update` does not check that the new chain has the hook of the old one (left to the kernel).
38. `bf_cgen_unload` ignores the failure of the removal of the context and removes the other pins anyway: the chain can be neither restored nor created again.
39. After update-set the stored chain is read back with recomputed flags while the program was compiled with stale ones (`C28_recomputed`).
40. The padding of IPv6 networks and the second byte of `meta.l4_proto` are uninitialised memory (`C43_not_exact`, `C43_not_exact_l4`): duplicates of a set are not recognised, and removing an IPv6 network with update-set may remove nothing.
41. `bf_ruleset_set` flushes the previous ruleset before it creates the new one, and flushes again when it fails: a ruleset the kernel refuses leaves nothing filtering (`C44_fails`). The documentation only says that the replacement is not atomic.
42. `bf_ctx_get_cgens` skips silently the chains whose lock can't be taken or whose context can't be read, so `bf_ruleset_set` and `bf_ruleset_flush` report success and such a chain still filters (`C44_leaves`).
43. A byte that is not ASCII (a no-break space pasted from a web page, an accented letter), or a NUL byte, outside comments and sets silently ends the ruleset: `lexer.l:296` returns `*yytext`, a negative `char`, which bison takes for the end of the input. `chain a BF_HOOK_XDP ACCEPT<NBSP>rule ip4.saddr eq 1.2.3.4 DROP` is accepted with no rule and accepts everything (`C45_ignores`, `C45_nbsp`). Where `char` is unsigned it is a syntax error.
44. A rule with no matcher (`rule DROP`) is documented ("`[$MATCHER...]`") but is a syntax error (`C45_no_matcher`).
45. Comments inside the braces of a set, as in the documentation's own example, are not comments: the set is refused (`C45_set_comment`), or, if the comment is between `;` and an element, is part of the element.
46. The braces and commas of hook options are skipped, not parsed: `BF_HOOK_XDP{ifindex=2 ACCEPT` is accepted (`C45_unclosed`).
47. Documented or valid values that the lexer does not let through: operator `any` of `ip4.proto`, IPv4-mapped addresses (`::ffff:1.2.3.4`), interface names with `_` or `.`, or that are keywords of the language; a carriage return is not a blank. `mark 010` is octal.
48. Texts longer than the buffer of the parser are cut, not refused: `tcp.dport range 00-0000000000099` is 0 to 9; blanks and signs are skipped inside ranges and networks; negative numbers wrap modulo 2^64 (`C46_odd`). A hexadecimal hash without `0x` is accepted alone but not as lower bound of a range if it begins with a letter (`C46_hash`).
49. `meta.l3_proto` and `meta.l4_proto` accept any documented number and never match the protocols bpfilter does not parse (`meta.l3_proto eq 0x0806` misses ARP, `meta.l4_proto eq 47` misses GRE; value 0 matches all of them): `C47_fails_arp`, `C47_fails_gre`. `ip6.nexthdr eq route` misses a packet whose first extension header is a routing header and `ip6.nexthdr eq 59` a packet without next header: `C47_fails_route`, `C47_fails_none`.
50. What `bfcli chain get` prints is not a ruleset, for any chain: `counters policy ...` and `counters ...` are not words of the language (`C50_raw_refused`). Once they are edited out: an empty set is printed as `{`, newline, `}`, on which the parser loops for ever (`C50_empty`, `C50_empty_loops`); an IPv4-mapped IPv6 address, a `tcp.flags` of no flag, an interface name with a dot are printed as texts that are refused (`C50_mapped_refused`, `C50_flags_refused`, `C50_vlan_refused`); the interface of a redirection is printed as an index and read as a name first (`C50_redirect_other`).
51. With `--no-set-content`, `not in` with an unnamed set is printed `in` (`C50_elided_not`; print.c:214-222).
52. `_bf_ctx_gen_token` (ctx.c:60-82) returns a positive `errno` when the path of `--bpffs-path` cannot be opened; its caller only tests for a negative value, so `bf_ctx_setup` succeeds and uses that number as the file descriptor of the token. `bfc_parse_file` (helper.c) also returns a positive `errno`, and `main` ignores a positive result of the option parser. `chain update-set` lacks `--help`, `--usage` and `--version` (`C51_no_help`). `chain set` accepts a name beginning with `__bf_staging_`, and the next command removes the chain (`C51_staging`).
53. The time of a log entry is `bpf_ktime_get_ns`, the time since boot; `bfc_print_log` gives it to `localtime`, so the time of day that is printed is unrelated to the clock (bfcli.rst calls it the receive timestamp). The example output in bfcli.rst is stale too.
54. `bfc_print_log` prints the name of the process as it is: a process can name itself (`prctl`) so that newlines and escape codes in its name forge or erase lines of the report (`C55_name`).
55. A rule with `log link` on a hook that has no link header (netfilter, cgroup_skb) prints an Ethernet line, made of what is left in the buffer (`C55_link`, see finding 14).
56. `cgroup_sock_addr.c` tests `ctx->family`, the family of the socket, not that of the address: an IPv4 datagram sent by an IPv6 socket (to a v4-mapped address) is passed to the sendmsg4 hook with family AF_INET6, so no `ip4.*` matcher selects it (`C40_fails_mapped`: a filter on `ip4.daddr` is bypassed), and the log reports an IPv6 address (`C55_family`). MPTCP sockets (protocol 262) are reported as TCP (`C55_mptcp`).
57. Each program has its own ring buffer: `bfcli chain logs` opens that of the program that runs when it starts, and keeps polling it after `chain update`, `update-set` or `set` have replaced the program: it prints nothing more, and does not end (see C56).
