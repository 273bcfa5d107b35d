import Verif.User.Payload
import Verif.User.HookOpts
import Verif.Chain.Check
/-!
# What `bfcli chain get` prints

`/repo/src/bfcli/print.c:62-327`.  `.ub` is a pointer that is NULL: the set of a matcher that is not in the chain, the `print` callback of a key
component that sets cannot have.
-/
namespace Bf.Cli

def str (s : String) : List Char := s.toList

/-- A name of a table; the tables of the enumerations have no hole (`C38`). -/
def nameOr (o : Option String) : List Char := (o.getD "").toList

/-- `%d`. -/
def printInt (z : Int) : List Char := if 0 ≤ z then printNat 10 z.toNat else '-' :: printNat 10 z.natAbs

/-- One text after the other. -/
def catAll : List (Res (List Char)) → Res (List Char)
  | [] => .ok []
  | x :: xs => x.bind fun a => (catAll xs).bind fun b => .ok (a ++ b)

/-- The counters of a chain: those of its policy, of errors, and of each rule; packets (or calls) and bytes. -/
structure Counts where
  policy : Nat × Nat
  error : Nat × Nat
  rule : Nat → Nat × Nat

/-- print.c:94-124: an option, after the comma it needs. -/
def optText (need : Bool) (name : String) (v : List Char) : List Char := (if need then [','] else []) ++ (str name ++ v)

/-- print.c:96-127: the hook options.  `need` is `need_comma`. -/
def optsText (o : HookOpts) : List Char :=
  let a := if o.isUsed .ifindex then optText false "ifindex=" (printInt o.ifindex) else []
  let n1 := o.isUsed .ifindex
  let b := if o.isUsed .cgpath then optText n1 "cgpath=" (nameOr o.cgpath) else []
  let n2 := n1 || o.isUsed .cgpath
  let c := if o.isUsed .family then optText n2 "family=" (if o.family = 2 then str "inet4" else str "inet6") else []
  let n3 := n2 || o.isUsed .family
  let d := if o.isUsed .priorities then optText n3 "priorities=" (printInt o.prio0 ++ '-' :: printInt o.prio1) else []
  '{' :: (a ++ (b ++ (c ++ (d ++ ['}']))))

/-- print.c:92-129: the first line. -/
def headText (c : Chain) (o : Option HookOpts) : List Char :=
  str "chain " ++ (c.name.toList ++ (' ' :: (nameOr c.hook.toStr ++ ((match o with | none => [] | some o => optsText o) ++
    (' ' :: (nameOr c.policy.toStr ++ ['\n']))))))

/-- `%lu packets %lu bytes`, or `%lu calls`. -/
def countText (pkt : Bool) (n : Nat × Nat) : List Char :=
  if pkt then printNat 10 n.1 ++ (str " packets " ++ (printNat 10 n.2 ++ str " bytes")) else printNat 10 n.1 ++ str " calls"

/-- print.c:131-145. -/
def countersText (pkt : Bool) (k : Counts) : List Char :=
  str "    counters policy " ++ (countText pkt k.policy ++ (str "; error " ++ (countText pkt k.error ++ ['\n'])))

/-- print.c:155-160, 209-215: the key of a set. -/
def keyText : List MType → List Char
  | [] => []
  | [t] => nameOr t.toStr
  | t :: ts => nameOr t.toStr ++ (str ", " ++ keyText ts)

/-- print.c:175-184, 229-240: an element.  `p` is `node->data + payload_idx`. -/
def elemText (env : TextEnv) : List MType → List Byte → Res (List Char)
  | [], _ => .ok []
  | t :: ts, p =>
    if t.codec .in_ = none then .ub else
    (elemText env ts (p.drop (t.refSize .in_))).bind fun rest =>
    .ok (printPayload env t .in_ p ++ ((if ts = [] then [] else str ", ") ++ rest))

/-- print.c:171-186, 224-243: the elements, each on its line. -/
def elemsText (env : TextEnv) (indent : String) (s : BSet) : Res (List Char) :=
  catAll (s.elems.map fun e => (elemText env s.key e).bind fun t => .ok (str indent ++ (t ++ ['\n'])))

/-- `{ /* %zu elements, content elided */ }`. -/
def elidedText (s : BSet) : List Char := str "{ /* " ++ (printNat 10 s.elems.length ++ str " elements, content elided */ }")

/-- print.c:147-189: a named set. -/
def setText (env : TextEnv) (elide : Bool) (s : BSet) : Res (List Char) :=
  match s.name with
  | none => .ok []
  | some n =>
    let head := str "    set " ++ (n.toList ++ (str " (" ++ keyText s.key))
    if elide then .ok (head ++ (str ") in " ++ (elidedText s ++ ['\n'])))
    else (elemsText env "        " s).bind fun es => .ok (head ++ (str ") in {\n" ++ (es ++ str "    }\n")))

/-- print.c:202-247: a matcher on a set, without its end of line. -/
def setMatcherText (env : TextEnv) (elide : Bool) (neg : Bool) (s : BSet) : Res (List Char) :=
  let inStr := if neg then str "not in" else str "in"
  let head := str "        (" ++ keyText s.key
  match s.name with
  | some n => .ok (head ++ (str ") " ++ (inStr ++ (' ' :: n.toList))))
  | none =>
    if elide then .ok (head ++ (str ") in " ++ elidedText s))
    else (elemsText env "            " s).bind fun es => .ok (head ++ (str ") " ++ (inStr ++ (str " {\n" ++ (es ++ str "        }")))))

/-- `%02x`. -/
def hexByte (b : Byte) : List Char := let h := printNat 16 b.toNat; if h.length = 1 then '0' :: h else h

/-- print.c:62-82 `bf_dump_hex_local`. -/
def hexText (p : List Byte) : List Char := p.flatMap fun b => str "0x" ++ (hexByte b ++ [' '])

/-- print.c:193-264: a matcher. -/
def matcherText (env : TextEnv) (c : Chain) (elide : Bool) (m : Matcher) : Res (List Char) :=
  if m.type = .set then
    (c.setFor m).bind fun f => match f with
    | none => .ub
    | some (_, s) => (setMatcherText env elide m.negate s).bind fun t => .ok (t ++ ['\n'])
  else
    .ok (str "        " ++ (nameOr m.type.toStr ++ ((if m.negate then str " not" else []) ++ (' ' :: (nameOr m.op.toStr ++ (' ' ::
      ((if m.type.refSize m.op ≠ 0 then printPayload env m.type m.op m.payload else hexText m.payload) ++ ['\n'])))))))

/-- print.c:274-281: the loop over the layers, from layer `i` with `k` of them left. -/
def layersText : Nat → Nat → BitVec 8 → List Char
  | 0, _, _ => []
  | k + 1, i, log =>
    if log.getLsbD i then
      let log' := log &&& ~~~ (1#8 <<< i)
      nameOr (logOptToStr i) ++ ((if log' ≠ 0 then [','] else []) ++ layersText k (i + 1) log')
    else layersText k (i + 1) log

/-- print.c:284-300: the interval between logs, in the largest unit that gives an integer. -/
def rateWord (r : Nat) : List Char :=
  if r % 1000000000 = 0 then printNat 10 (r / 1000000000) ++ str "s"
  else if r % 1000000 = 0 then printNat 10 (r / 1000000) ++ str "ms"
  else if r % 1000 = 0 then printNat 10 (r / 1000) ++ str "us"
  else printNat 10 r ++ str "ns"

/-- print.c:266-303. -/
def logText (r : Rule) : List Char :=
  if r.log = 0 then [] else
  (if r.log = logOptDefault then str "        log" else str "        log " ++ layersText 3 0 r.log) ++
    ((if r.rate = 0 then [] else str " every " ++ rateWord r.rate.toNat) ++ ['\n'])

/-- print.c:305-307. -/
def markText (r : Rule) : List Char := if r.markSet then str "        mark " ++ (printHex r.markVal.toNat ++ ['\n']) else []

/-- print.c:309-317. -/
def ruleCountText (pkt : Bool) (n : Nat × Nat) (r : Rule) : List Char :=
  if r.hasCounters then str "        counters " ++ (countText pkt n ++ ['\n']) else []

/-- print.c:319-326. -/
def verdictText (r : Rule) : List Char :=
  if r.verdict = .redirect then
    str "        REDIRECT " ++ (printNat 10 r.redirIfindex.toNat ++ (' ' :: (nameOr r.redirDir.toStr ++ ['\n'])))
  else str "        " ++ (nameOr r.verdict.toStr ++ ['\n'])

/-- print.c:191-327: a rule. -/
def ruleText (env : TextEnv) (c : Chain) (k : Counts) (elide : Bool) (r : Rule) : Res (List Char) :=
  (catAll (r.matchers.map (matcherText env c elide))).bind fun ms =>
  .ok (str "    rule\n" ++ (ms ++ (logText r ++ (markText r ++ (ruleCountText (c.hook.flavor ≠ .sockAddr) (k.rule r.index) r ++ verdictText r)))))

/-- print.c:84-327 `bfc_chain_dump`; `elide` is `no_set_content`. -/
def chainDump (env : TextEnv) (c : Chain) (o : Option HookOpts) (k : Counts) (elide : Bool) : Res (List Char) :=
  (catAll (c.sets.map (setText env elide))).bind fun ss =>
  (catAll (c.rules.map (ruleText env c k elide))).bind fun rs =>
  .ok (headText c o ++ (countersText (c.hook.flavor ≠ .sockAddr) k ++ (ss ++ rs)))

/-- print.c:329-352 `bfc_ruleset_dump`. -/
def rulesetDump (env : TextEnv) (elide : Bool) (chains : List (Chain × Counts)) (opts : List (Option HookOpts)) : Res (List Char) :=
  if chains.length ≠ opts.length then .err .EINVAL else
  catAll ((chains.zip opts).map fun x => chainDump env x.1.1 x.2 x.1.2 elide)

end Bf.Cli
