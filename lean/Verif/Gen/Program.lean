import Verif.Gen.Stub
/-!
# Whole program: rules, chain, ELF stubs, map fixups

`/repo/src/libbpfilter/cgen/program.c`
-/
namespace Bf

/-- Flavor operation `gen_inline_prologue`. -/
def prologue (C : Cfg) : Gen Unit :=
  match C.chain.hook.flavor with
  | .xdp => prologueXdp C
  | .tc => prologueTc C
  | .nf => prologueNf C
  | .cgroupSkb => prologueCgroupSkb C
  | .sockAddr => prologueSockAddr

/-- Flavor operation `gen_inline_matcher`. -/
def inlineMatcher (C : Cfg) (m : Matcher) : Gen Unit :=
  match C.chain.hook.flavor with
  | .sockAddr => saMatcher C m
  | _ => flavorMatcher C m

/-- Flavor operation `gen_inline_log`. -/
def inlineLog (C : Cfg) (r : Rule) : Gen Unit :=
  match C.chain.hook.flavor with
  | .sockAddr => saLog C r
  | _ => packetLog r

/-- Flavor operation `gen_inline_set_mark` (tc.c:73-82, cgroup_skb.c:101-111), absent elsewhere. -/
def inlineSetMark (C : Cfg) (mark : BitVec 32) : Gen Unit :=
  match C.chain.hook.flavor with
  | .tc | .cgroupSkb =>
    emits [.ldx .dw .r1 .r10 (ctx oArg), movi .r2 mark, .stxF .w .r1 .skbMark .r2]
  | _ => fail .ENOTSUP

/-- Flavor operation `gen_inline_redirect` (xdp.c:91-108, tc.c:132-148), absent elsewhere. -/
def inlineRedirect (C : Cfg) (ifindex : BitVec 32) (dir : RedirDir) : Gen Unit :=
  match C.chain.hook.flavor with
  | .xdp =>
    if dir ≠ .egress then fail .ENOTSUP
    else emits [movi .r1 ifindex, movi .r2 0, .call .redirect, .exit]
  | .tc =>
    emits [movi .r1 ifindex, movi .r2 (if dir = .ingress then 1 else 0), .call .redirect, .exit]
  | _ => fail .ENOTSUP

/-- program.c:479-505 `_bf_program_check_proto`: layers already checked are threaded. -/
def checkProto (t : MType) (done : List Layer) : Gen (List Layer) :=
  if done.contains t.meta_.layer then pure done
  else if t.meta_.layer = .l2 ∨ t.meta_.layer = .l3 ∨ t.meta_.layer = .l4 then do
    checkProtocol t.meta_
    pure (t.meta_.layer :: done)
  else pure done

/-- program.c:536-541: the components of a set key. -/
def checkProtos : List MType → List Layer → Gen (List Layer)
  | [], done => pure done
  | t :: ts, done => do
    let d ← checkProto t done
    checkProtos ts d

/-- program.c:523-549: protocol guards of a rule. -/
def guards (C : Cfg) : List Matcher → List Layer → Gen (List Layer)
  | [], done => pure done
  | m :: ms, done => do
    let d ← (if m.type = .set then do
        match ← lift (C.chain.setFor m) with
        | none => fail .ENOENT
        | some (_, s) => checkProtos s.key done
      else checkProto m.type done)
    guards C ms d

/-- program.c:551-557: matchers of a rule. -/
def matchers (C : Cfg) : List Matcher → Gen Unit
  | [] => pure ()
  | m :: ms => do
    inlineMatcher C m
    matchers C ms

/-- program.c:575-622: log action of a rule. -/
def ruleLog (C : Cfg) (r : Rule) : Gen Unit :=
  if r.log ≠ 0 ∧ r.rate ≠ 0 then do
    emit (.ldx .dw .r9 .r10 (ctx oStateMap))
    withJmp (.jmp true .eq .r9 (.k 0) 0) (do
      if r.index > 0 then emit (.alu true .add .r9 (.k (BitVec.ofNat 32 (r.index * 8))))
      else pure ()
      emits [.call .ktime, .ldx .dw .r1 .r9 0, mov .r2 .r0, .alu true .sub .r2 (.x .r1),
        .ld64 .r1 r.rate, .pad]
      withJmp (.jmp true .lt .r2 (.x .r1) 0) (do
        emit (.stx .dw .r9 0 .r0)
        inlineLog C r))
  else if r.log ≠ 0 then inlineLog C r
  else pure ()

/-- No fixup table is needed for `BF_FIXUP_TYPE_JMP_NEXT_RULE`. -/
def noFix : FixEnv := ⟨fun _ => .ub, fun _ => 0⟩

/-- program.c:507-665 `_bf_program_generate_rule`. -/
def genRule (C : Cfg) (r : Rule) : Gen Unit :=
  if r.disabled then pure () else do
  let _ ← guards C r.matchers []
  matchers C r.matchers
  if r.markSet then inlineSetMark C r.markVal else pure ()
  ruleLog C r
  if r.hasCounters then emitCounter r.index else pure ()
  match r.verdict with
  | .accept | .drop | .next => emitVerdict C.chain.hook.flavor r.verdict
  | .redirect => inlineRedirect C r.redirIfindex r.redirDir
  | .continue_ => pure ()
  fixup noFix (· == .nextRule)

/-- program.c:861-866: all the rules. -/
def genRules (C : Cfg) : List Rule → Gen Unit
  | [] => pure ()
  | r :: rs => do
    genRule C r
    genRules C rs

/-- program.c:815-889: the main program, before the ELF stubs are appended. -/
def genMain (C : Cfg) : Gen Unit := do
  emits [.stx .dw .r10 (ctx oArg) .r1, movi .r7 0, movi .r8 0]
  if C.chain.flagLog then do
    emitMap .lmap .r2
    emit (.stx .dw .r10 (ctx oLogMap) .r2)
  else pure ()
  if C.chain.flagNexthdr then emit (.stx .dw .r10 (ctx oEh) .r7) else pure ()
  prologue C
  if C.chain.flagRate then do
    emit (.st .w .r10 (scr 0) 0)
    emitMap .smap .r1
    emits [mov .r2 .r10, addi .r2 (scr 0), .call .mapLookup, .stx .dw .r10 (ctx oStateMap) .r0]
  else pure ()
  genRules C C.chain.rules
  emitCounter C.chain.rules.length
  emitVerdict C.chain.hook.flavor C.chain.policy

/-- program.c:667-744 `_bf_program_generate_elfstubs`: append the body of every stub called, once;
`slen` is the number of words of each body beyond the first. -/
def elfstubs (slen : Stub → Nat) : List Fixup → List Insn → (Stub → Nat) → List Insn × (Stub → Nat)
  | [], img, loc => (img, loc)
  | f :: fs, img, loc =>
    match f.ty with
    | .stub id =>
      if loc id ≠ 0 then elfstubs slen fs img loc
      else elfstubs slen fs (img ++ .stub id :: List.replicate (slen id) .stubPad)
        (fun x => if x = id then img.length else loc x)
    | _ => elfstubs slen fs img loc

/-- program.c:815-899 `bf_program_generate`. -/
def genProgram (C : Cfg) (slen : Stub → Nat) : Res Prog :=
  (genMain C ⟨[], []⟩).bind fun r =>
  let p := r.2
  let e := elfstubs slen p.fixups p.img (fun _ => 0)
  (fixup ⟨fun _ => .ub, e.2⟩ (fun t => match t with | .stub _ => true | _ => false)
    { p with img := e.1 }).bind fun r => .ok r.2

/-- handle.h: file descriptors of the maps created at load. -/
structure MapFds where
  counters : BitVec 32
  log : BitVec 32
  state : BitVec 32
  set : Nat → BitVec 32

/-- program.c:412-454: value of a map fixup. -/
def MapFds.fd (M : MapFds) (gs : Groups) : FixTy → Res (BitVec 32)
  | .cmap => .ok M.counters
  | .lmap => .ok M.log
  | .smap => .ok M.state
  | .setMap i =>
    match findGroup gs i with
    | some g => .ok (M.set g)
    | none => .err .ENOENT
  | _ => .ub

/-- program.c:1132-1190 `bf_program_load`: apply the map fixups in the order of the loaders
(sets, counters, log, state; the printer map only concerns ELF stub bodies).  The log and state
maps are only created when the chain needs them (program.c:951-997). -/
def loadFixups (C : Cfg) (M : MapFds) (p : Prog) : Res (List Insn) :=
  let F : FixEnv := ⟨M.fd C.groups, fun _ => 0⟩
  (fixup F (fun t => match t with | .setMap _ => true | _ => false) p).bind fun r1 =>
  (fixup F (· == .cmap) r1.2).bind fun r2 =>
  (if C.chain.flagLog then fixup F (· == .lmap) r2.2 else .ok r2).bind fun r3 =>
  (if C.chain.flagRate ∧ C.chain.rules ≠ [] then fixup F (· == .smap) r3.2 else .ok r3).bind
    fun r4 => .ok r4.2.img

/-- The image given to the kernel for a chain. -/
def compile (chain : Chain) (thr : Nat → BitVec 32) (slen : Stub → Nat) (M : MapFds) :
    Res (List Insn) :=
  let C : Cfg := ⟨chain, buildGroups chain.sets, thr⟩
  (genProgram C slen).bind fun p => loadFixups C M p

end Bf
