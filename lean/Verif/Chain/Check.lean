import Verif.Gen.Types
/-!
# Chain creation and validation

`/repo/src/libbpfilter/chain.c`, set construction from `/repo/src/libbpfilter/set.c`.
-/
namespace Bf

/-- include/bpfilter/runtime.h:96 `BF_LOG_OPT_DEFAULT`. -/
def logOptDefault : BitVec 8 := 0xFF

/-- chain.c:33-61 `_bf_rule_references_empty_set`: `true` if the rule must be disabled. -/
def refsEmpty (sets : List BSet) : List Matcher → Res Bool
  | [] => .ok false
  | m :: ms =>
    if m.type ≠ .set then refsEmpty sets ms else
    (rd m.payload 0 4).bind fun i =>
      match sets[i]? with
      | none => .err .EINVAL
      | some s => if s.elems.isEmpty then .ok true else refsEmpty sets ms

/-- `layer_hdr_id` of chain.c:111-152: the protocol seen at each layer, if any. -/
abbrev LayerIds := Layer → Option Nat

/-- chain.c:70-96 `_bf_rule_check_layer`: `none` if the type conflicts with what was seen. -/
def checkLayer (t : MType) (ids : LayerIds) : Option LayerIds :=
  if t.meta_.layer = .noLayer then some ids else
  match ids t.meta_.layer with
  | none => some fun l => if l = t.meta_.layer then some t.meta_.hdrId else ids l
  | some h => if h ≠ t.meta_.hdrId then none else some ids

/-- chain.c:131-133: the components of a set. -/
def checkLayers : List MType → LayerIds → Option LayerIds
  | [], ids => some ids
  | t :: ts, ids => (checkLayer t ids).bind (checkLayers ts)

/-- chain.c:111-152 `_bf_rule_has_incompatible_matchers`. -/
def incompatible (sets : List BSet) : List Matcher → LayerIds → Res Bool
  | [], _ => .ok false
  | m :: ms, ids =>
    (if m.type = .set then
      (rd m.payload 0 4).bind fun i =>
        match sets[i]? with
        | none => .err .ENOENT
        | some s => .ok (checkLayers s.key ids)
    else .ok (checkLayer m.type ids)).bind fun r =>
      match r with
      | none => .ok true
      | some ids' => incompatible sets ms ids'

/-- chain.c:222-242: hook support of one matcher. -/
def checkHook (hook : Hook) (sets : List BSet) (m : Matcher) : Res Unit :=
  if m.type.unsupported hook then .err .ENOTSUP
  else if m.type = .set then
    (rd m.payload 0 4).bind fun i =>
      match sets[i]? with
      | none => .err .ENOENT
      | some s => if s.key.any (·.unsupported hook) then .err .ENOTSUP else .ok ()
  else .ok ()

/-- chain.c:201-243: the loop over the matchers. -/
def checkHooks (hook : Hook) (sets : List BSet) : List Matcher → Res Unit
  | [] => .ok ()
  | m :: ms => (checkHook hook sets m).bind fun _ => checkHooks hook sets ms

/-- chain.c:154-247 `_bf_chain_check_rule`: the chain's flags and the rule's `disabled` field are
updated. -/
def checkRule (c : Chain) (r : Rule) : Res (Chain × Rule) :=
  (refsEmpty c.sets r.matchers).bind fun e =>
  (if e then .ok true else incompatible c.sets r.matchers (fun _ => none)).bind fun d =>
  if r.log ≠ 0 ∧ r.log ≠ logOptDefault ∧ c.hook.flavor = .sockAddr then .err .ENOTSUP else
  if r.markSet ∧ c.hook.flavor ≠ .tc ∧ c.hook.flavor ≠ .cgroupSkb then .err .EINVAL else
  (checkHooks c.hook c.sets r.matchers).bind fun _ =>
  .ok ({ c with
      flagLog := c.flagLog || (decide (r.log ≠ 0) && !d)
      flagRate := c.flagRate || (decide (r.log ≠ 0) && decide (r.rate ≠ 0) && !d)
      flagNexthdr := c.flagNexthdr || (r.matchers.any (·.type == .ip6Nexthdr) && !d) },
    { r with disabled := d })

/-- verdict.c:71-81 `bf_verdict_is_valid_policy`. -/
def Verdict.validPolicy : Verdict → Bool
  | .accept | .drop | .next => true
  | _ => false

/-- chain.c:281-288: number and check the rules; `done` are those already checked. -/
def checkRules : Chain → List Rule → Res Chain
  | c, [] => .ok c
  | c, r :: rs =>
    (checkRule c { r with index := c.rules.length }).bind fun p =>
      checkRules { p.1 with rules := c.rules ++ [p.2] } rs

/-- chain.c:249-294 `bf_chain_new` (an out-of-range hook is not representable). -/
def chainNew (name : String) (hook : Hook) (policy : Verdict)
    (sets : List BSet) (rules : List Rule) : Res Chain :=
  if !policy.validPolicy then .err .EINVAL else
  checkRules ⟨name, hook, policy, sets, [], false, false, false⟩ rules

/-- chain.c:429-441 `bf_chain_add_rule`. -/
def chainAddRule (c : Chain) (r : Rule) : Res Chain :=
  (checkRule c { r with index := c.rules.length }).bind fun p =>
    .ok { p.1 with rules := c.rules ++ [p.2] }

/-- chain.c:443-449 `bf_chain_add_set`. -/
def chainAddSet (c : Chain) (s : BSet) : Chain := { c with sets := c.sets ++ [s] }

/-- set.c:47-106 `bf_set_new`: key checks (the set is empty). -/
def MType.isNet : MType → Bool
  | .ip4Snet | .ip4Dnet | .ip6Snet | .ip6Dnet => true
  | _ => false

/-- set.c:47-106 `bf_set_new`. -/
def setNew (name : Option String) (key : List MType) : Res BSet :=
  if key.length = 0 then .err .EINVAL
  else if 8 < key.length then .err .E2BIG
  else if key.any (fun t => t.refSize .in_ = 0) then .err .ENOTSUP
  else if 1 < key.length ∧ key.any MType.isNet then .err .EINVAL
  else .ok ⟨name, key, (key.map (·.refSize .in_)).sum, key.any MType.isNet, []⟩

end Bf
