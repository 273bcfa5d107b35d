import Verif.Cgen.Get
/-!
# Operations on all chains

`/repo/src/libbpfilter/ctx.c`, `/repo/src/libbpfilter/cli.c`.
-/
namespace Bf.Pin

/-- core/lock.h:176 `BF_LOCK_STAGING_PREFIX`; ctx.c:374-377. -/
def staging (n : String) : Bool := "__bf_staging_".toList.isPrefixOf n.toList

/-- ctx.c:354-404: the loop of `bf_ctx_get_cgens` on the entries of the pin directory.  If reading the directory fails, what
was found is kept; entries that can't be locked or restored are skipped.  (Simplification: `bf_list_push` is made to
succeed: if it fails the chain is skipped also.) -/
def getCgensLoop : List String → P (List Cgen)
  | [] => pure []
  | n :: ns => .call .readdir fun a =>
    match a with
    | .fail _ => pure []
    | _ =>
      if staging n then getCgensLoop ns else do
      match ← try_ (.acquire n) with
      | .ok _ => do
        match ← newFromDir n with
        | .ok c => do
          void (.release n false)
          let cs ← getCgensLoop ns
          pure (c :: cs)
        | _ => do
          void (.release n false)
          getCgensLoop ns
      | _ => getCgensLoop ns

/-- ctx.c:325-409 `bf_ctx_get_cgens`.  (Simplifications: the entries of the directory are those it has when it is opened; the list of
chains is allocated when the directory is opened, in one step.) -/
def getCgens : P (Res (List Cgen)) := .call .readdir fun a =>
  match a with
  | .names ns => do
    let cs ← getCgensLoop ns
    pure (.ok cs)
  | .fail e => pure (.err e)
  | _ => pure .ub

/-- The list of chains is freed. -/
def freeAll : List Cgen → P Unit
  | [] => pure ()
  | c :: cs => do cgenFree c; freeAll cs

/-- cli.c:69-83: the loop of `_bf_ruleset_flush`.  What it gives are the chains it leaves, to be freed. -/
def unloadAll : List Cgen → P (List Cgen)
  | [] => pure []
  | c :: cs => do
    match ← try_ (.acquire c.chain.name) with
    | .ok _ => do
      let c ← cgenUnload c c.chain.name
      void (.release c.chain.name true)
      let cs ← unloadAll cs
      pure (c :: cs)
    | _ => do
      let cs ← unloadAll cs
      pure (c :: cs)

/-- cli.c:58-86 `_bf_ruleset_flush`. -/
def flushAll : P (Res Unit) := do
  match ← getCgens with
  | .ok cs => do
    let cs ← unloadAll cs
    freeAll cs
    pure (.ok ())
  | .err e => pure (.err e)
  | .ub => pure .ub

/-- cli.c:204-214 `bf_ruleset_flush`. -/
def rulesetFlush : P (Res Unit) := do
  match ← try_ .lockInit with
  | .ok _ => flushAll
  | e => pure e

/-- cli.c:102-126: the loop of `bf_ruleset_get`. -/
def getAll : List Cgen → P (Res (List Got))
  | [] => pure (.ok [])
  | c :: cs => do
    match ← chainGetOpen c with
    | .ok g => do
      match ← getAll cs with
      | .ok gs => pure (.ok (g :: gs))
      | e => pure e
    | .err e => pure (.err e)
    | .ub => pure .ub

/-- cli.c:88-134 `bf_ruleset_get`. -/
def rulesetGet : P (Res (List Got)) := do
  match ← try_ .lockInit with
  | .ok _ => do
    match ← getCgens with
    | .ok cs => do
      let r ← getAll cs
      freeAll cs
      pure r
    | .err e => pure (.err e)
    | .ub => pure .ub
  | .err e => pure (.err e)
  | .ub => pure .ub

/-- cli.c:153-193: the loop of `bf_ruleset_set`. -/
def putAll (T : Target) : List (Chain × Option HookOpts) → P (Res Unit)
  | [] => pure (.ok ())
  | (c, o) :: cs => do
    match ← putNew T c o with
    | .ok _ => putAll T cs
    | e => pure e

/-- cli.c:136-202 `bf_ruleset_set`, of as many options as chains (otherwise it does nothing and fails). -/
def rulesetSet (T : Target) (cs : List (Chain × Option HookOpts)) : P (Res Unit) := do
  match ← try_ .lockInit with
  | .ok _ => do
    match ← flushAll with
    | .ok _ => do
      match ← putAll T cs with
      | .ok _ => pure (.ok ())
      | e => do
        let _ ← flushAll
        pure e
    | e => pure e
  | e => pure e

end Bf.Pin
