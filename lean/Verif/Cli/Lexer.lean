import Verif.Cli.Regex
/-!
# The words of a ruleset

`/repo/src/bfcli/lexer.l`.  A character of the text is one byte.
-/
namespace Bf.Cli

/-- Patterns. -/
def chr (c : Char) : Re := .one ⟨false, [(c, c)]⟩
def cls (l : List (Char × Char)) : Re := .one ⟨false, l⟩
def plus (r : Re) : Re := .seq r (.star r)
def opt (r : Re) : Re := .alt .eps r
def lits : List Char → Re
  | [] => .eps
  | [c] => chr c
  | c :: cs => .seq (chr c) (lits cs)
def lit (s : String) : Re := lits s.toList
def alts : List Re → Re
  | [] => .never
  | [r] => r
  | r :: rs => .alt r (alts rs)
def seqs : List Re → Re
  | [] => .eps
  | [r] => r
  | r :: rs => .seq r (seqs rs)

/-- `[a-zA-Z0-9_]` and its parts. -/
def alpha : List (Char × Char) := [('a', 'z'), ('A', 'Z')]
def alnum : List (Char × Char) := ('0', '9') :: alpha
def wordCh : List (Char × Char) := ('_', '_') :: alnum
def wordDash : List (Char × Char) := ('-', '-') :: alnum
/-- lexer.l:46 `int`. -/
def intRe : Re := .seq (opt (.alt (chr '-') (lit "0x"))) (plus (cls alnum))
/-- lexer.l:47 `float`. -/
def floatRe : Re := .seq (plus (cls [('0', '9')])) (opt (.seq (chr '.') (plus (cls [('0', '9')]))))
/-- `[ \t\n\r\f\v]*`. -/
def spaces : Re := .star (cls [(' ', ' '), ('\t', '\t'), ('\n', '\n'), ('\r', '\r'), ('\x0c', '\x0c'), ('\x0b', '\x0b')])
/-- `([a-zA-Z0-9_]+\.[a-zA-Z0-9_]+)`. -/
def dotted : Re := seqs [plus (cls wordCh), chr '.', plus (cls wordCh)]

/-- The start conditions (lexer.l:23-44); all are inclusive. -/
inductive LState
  | initial | hookOpts | markOpts | logEvery | redirIface | redirDir | set | metaIface | l3Proto | metaMark | flowHash | l4Proto
  | proba | ip4Addr | ip4Net | ip4Dscp | ip6Addr | ip6Net | ip6Dscp | port | icmpType | icmpCode | tcpFlags
  deriving DecidableEq, Repr

/-- parser.y:136-148: the tokens. -/
inductive Tok
  | chain | rule | set | negate | log | counter | mark | every | redirect
  | setType (s : List Char) | setPayload (s : List Char) | string (s : List Char) | hook (s : List Char)
  | verdict (s : List Char) | matcherType (s : List Char) | matcherOp (s : List Char) | hookOpt (s : List Char)
  | payload (s : List Char) | redirIface (s : List Char) | redirDir (s : List Char)
  | char (c : Char)
  deriving DecidableEq, Repr

/-- What a rule does: it goes on, returns the token, or the token with the text. -/
inductive Kind
  | skip | fixed (t : Tok) | setType | setPayload | string | hook | verdict | matcherType | matcherOp | hookOpt | payload | redirIface | redirDir | char
  deriving DecidableEq, Repr

/-- The token.  `strdup(yytext)` ends at the first NUL, which only the text of a set can have. -/
def Kind.tok : Kind → List Char → Option Tok
  | .skip, _ => none
  | .fixed t, _ => some t
  | .setType, s => some (.setType s)
  | .setPayload, s => some (.setPayload (s.takeWhile (· ≠ '\x00')))
  | .string, s => some (.string s)
  | .hook, s => some (.hook s)
  | .verdict, s => some (.verdict s)
  | .matcherType, s => some (.matcherType s)
  | .matcherOp, s => some (.matcherOp s)
  | .hookOpt, s => some (.hookOpt s)
  | .payload, s => some (.payload s)
  | .redirIface, s => some (.redirIface s)
  | .redirDir, s => some (.redirDir s)
  | .char, s => some (.char (s.headD ' '))

/-- A rule of the lexer: the start conditions in which it is active (none: all), its pattern, what it does and the start condition it
changes to. -/
structure LRule where
  states : List LState
  re : Re
  kind : Kind
  next : Option LState
  deriving DecidableEq, Repr

def ign (re : Re) : LRule := ⟨[], re, .skip, none⟩
def kw (s : String) (t : Tok) : LRule := ⟨[], lit s, .fixed t, none⟩
/-- A matcher type and the start condition of its payload. -/
def mty (re : Re) (n : LState) : LRule := ⟨[], re, .matcherType, some n⟩
/-- Operators in a start condition. -/
def mop (st : LState) (ops : List String) : LRule := ⟨[st], alts (ops.map lit), .matcherOp, none⟩
/-- The payload of a matcher. -/
def pay (st : LState) (re : Re) : LRule := ⟨[st], re, .payload, some .initial⟩
/-- `{int}|[0-9a-zA-Z-]+`. -/
def intOrName : Re := .alt intRe (plus (cls wordDash))
/-- `{int}(-{int})?`. -/
def intOrRange : Re := .seq intRe (opt (.seq (chr '-') intRe))

/-- lexer.l:50-295, in order. -/
def lexRules : List LRule :=
  [ign (cls [(' ', ' '), ('\t', '\t'), ('\n', '\n')]),
   ign (.seq (chr '#') (.star (.one ⟨true, [('\n', '\n')]⟩))),
   kw "chain" .chain, kw "rule" .rule, kw "set" .set, kw "not" .negate, kw "counter" .counter,
   -- hooks
   ⟨[], .seq (lit "BF_HOOK_") (plus (cls [('A', 'Z'), ('0', '9'), ('_', '_')])), .hook, some .hookOpts⟩,
   ⟨[.hookOpts], .alt (chr '{') (chr ','), .skip, none⟩,
   ⟨[.hookOpts], chr '}', .skip, some .initial⟩,
   ⟨[.hookOpts], seqs [plus (cls wordCh), chr '=', plus (cls (('-', '-') :: ('.', '.') :: ('/', '/') :: wordCh))],
     .hookOpt, none⟩,
   -- verdicts
   ⟨[], alts [lit "ACCEPT", lit "DROP", lit "CONTINUE", lit "NEXT"], .verdict, none⟩,
   ⟨[], lit "REDIRECT", .fixed .redirect, some .redirIface⟩,
   ⟨[.redirIface], .alt intRe (plus (cls (('-', '-') :: wordCh))), .redirIface, some .redirDir⟩,
   ⟨[.redirDir], .alt (lit "in") (lit "out"), .redirDir, some .initial⟩,
   -- mark
   ⟨[], lit "mark", .fixed .mark, some .markOpts⟩,
   ⟨[.markOpts], intRe, .string, some .initial⟩,
   -- logs
   kw "log" .log,
   ⟨[], lit "every", .fixed .every, some .logEvery⟩,
   ⟨[.logEvery], .seq floatRe (plus (cls [('a', 'z')])), .string, some .initial⟩,
   -- sets
   ⟨[], seqs [chr '(', spaces, dotted, .star (seqs [spaces, chr ',', spaces, dotted]), spaces, chr ')'], .setType, some .set⟩,
   mop .set ["in"],
   ⟨[.set], seqs [chr '{', .star (.one ⟨true, [('}', '}')]⟩), chr '}'], .setPayload, some .initial⟩,
   -- matcher types
   mty (lit "meta.iface") .metaIface, mop .metaIface ["eq"], pay .metaIface intOrName,
   mty (lit "meta.l3_proto") .l3Proto, mop .l3Proto ["eq"], pay .l3Proto intOrName,
   mty (lit "meta.l4_proto") .l4Proto, mty (lit "ip4.proto") .l4Proto, mty (lit "ip6.nexthdr") .l4Proto,
   mop .l4Proto ["eq"], pay .l4Proto intOrName,
   mty (lit "meta.probability") .proba, mty (lit "meta.flow_probability") .proba,
   mop .proba ["eq"], pay .proba (.seq floatRe (chr '%')),
   mty (lit "meta.mark") .metaMark, mop .metaMark ["eq"], pay .metaMark intRe,
   mty (lit "meta.flow_hash") .flowHash, mop .flowHash ["eq", "range"], pay .flowHash intOrRange,
   mty (lit "ip4.saddr") .ip4Addr, mty (lit "ip4.daddr") .ip4Addr,
   mop .ip4Addr ["eq"], pay .ip4Addr (seqs [intRe, chr '.', intRe, chr '.', intRe, chr '.', intRe]),
   mty (lit "ip4.snet") .ip4Net, mty (lit "ip4.dnet") .ip4Net,
   mop .ip4Net ["eq"], pay .ip4Net (seqs [intRe, chr '.', intRe, chr '.', intRe, chr '.', intRe, chr '/', intRe]),
   mty (lit "ip4.dscp") .ip4Dscp, mop .ip4Dscp ["eq"], pay .ip4Dscp intOrName,
   mty (seqs [lit "ip6.", .alt (chr 's') (chr 'd'), lit "addr"]) .ip6Addr,
   mop .ip6Addr ["eq"], pay .ip6Addr (plus (cls ((':', ':') :: alnum))),
   mty (seqs [lit "ip6.", .alt (chr 's') (chr 'd'), lit "net"]) .ip6Net,
   mop .ip6Net ["eq"], pay .ip6Net (plus (cls ((':', ':') :: ('/', '/') :: alnum))),
   mty (lit "ip6.dscp") .ip6Dscp, mop .ip6Dscp ["eq"], pay .ip6Dscp intOrName,
   mty (seqs [lit "meta.", .alt (chr 's') (chr 'd'), lit "port"]) .port,
   mty (seqs [lit "tcp.", .alt (chr 's') (chr 'd'), lit "port"]) .port,
   mty (seqs [lit "udp.", .alt (chr 's') (chr 'd'), lit "port"]) .port,
   mop .port ["eq", "range"], pay .port intOrRange,
   mty (seqs [lit "icmp", opt (lit "v6"), lit ".type"]) .icmpType, mop .icmpType ["eq"], pay .icmpType intOrName,
   mty (seqs [lit "icmp", opt (lit "v6"), lit ".code"]) .icmpCode, mop .icmpCode ["eq"], pay .icmpCode intRe,
   mty (lit "tcp.flags") .tcpFlags, mop .tcpFlags ["eq", "any", "all"],
   pay .tcpFlags (plus (.seq (plus (cls alpha)) (opt (chr ',')))),
   ⟨[], plus (cls wordCh), .string, none⟩,
   ⟨[], .one ⟨true, [('\n', '\n')]⟩, .char, none⟩]

/-- Is the rule active? -/
def LRule.active (st : LState) (r : LRule) : Bool := r.states = [] || r.states.contains st

/-- The rule that matches most of the input, the first of them; and how much. -/
def pick (st : LState) (s : List Char) : List LRule → Option (Nat × LRule)
  | [] => none
  | r :: rs =>
    match pick st s rs with
    | none => if r.active st = true ∧ 0 < r.re.longest s then some (r.re.longest s, r) else none
    | some (n, q) => if r.active st = true ∧ n ≤ r.re.longest s then some (r.re.longest s, r) else some (n, q)

/-- What the parser sees of a token: `return *yytext` (lexer.l:296) is the value of a `char`, which is signed: the parser takes a byte of 128
and more, being negative, for the end of the text, and so the byte 0.  (As on x86; where `char` is not signed such a byte is a token
of no rule of the grammar.) -/
def Tok.isEnd : Tok → Bool
  | .char c => decide (128 ≤ c.toNat) || decide (c.toNat = 0)
  | _ => false

/-- The tokens the parser reads from a text.  `fuel` is the number of characters. -/
def lexGo (rules : List LRule) : Nat → LState → List Char → List Tok
  | 0, _, _ => []
  | fuel + 1, st, s =>
    match pick st s rules with
    | none => []
    | some (n, r) =>
      let rest := lexGo rules fuel (r.next.getD st) (s.drop n)
      match r.kind.tok (s.take n) with
      | none => rest
      | some t => if t.isEnd then [] else t :: rest

def lex (s : List Char) : List Tok := lexGo lexRules s.length .initial s

end Bf.Cli
