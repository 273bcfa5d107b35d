import Verif.Frag.TotalP
import Verif.Exec.Main
/-!
# Rules and whole programs can always be generated
-/
namespace Bf

variable {gs : Groups} {C : Cfg}

theorem Tot.checkProto (t : MType) (d : List Layer) : Tot gs 1 (checkProto t d) := by
  unfold Bf.checkProto
  refine .ite (fun _ => .mono (.pure _) (by omega)) fun _ => .ite (fun h => ?_) fun _ => .mono (.pure _) (by omega)
  refine .mono (.bind (n := 1) (m := 0) ?_ fun _ => .pure _) (by omega)
  unfold checkProtocol
  rcases h with h | h | h
  · cases t <;> simp [MType.meta_] at h
  · rw [h]; exact .next rfl
  · rw [h]; exact .next rfl

theorem Tot.checkProtos {gs : Groups} : ∀ (ts : List MType) (d : List Layer), Tot gs ts.length (checkProtos ts d)
  | [], _ => .pure _
  | t :: ts, d => by
    unfold Bf.checkProtos
    exact .mono (.bind (n := 1) (.checkProto t d) fun d' => @Tot.checkProtos gs ts d') (by simp; omega)

/-- What generation needs of the matchers of a rule. -/
structure MOk (C : Cfg) (m : Matcher) : Prop where
  wf : MatcherWf m
  net : NetWf m
  supp : m.type.unsupported C.chain.hook = false
  set : m.type = .set → SetMatch C m

theorem Tot.guards {C : Cfg} : ∀ (ms : List Matcher) (d : List Layer), (∀ m ∈ ms, MOk C m) →
    Tot C.groups (8 * ms.length) (guards C ms d)
  | [], _, _ => .pure _
  | m :: ms, d, h => by
    unfold Bf.guards
    have ih := fun d' => @Tot.guards C ms d' fun m' h' => h m' (List.mem_cons_of_mem _ h')
    refine .mono (n := 8 + 8 * ms.length) ?_ (by simp; omega)
    refine .bind (n := 8) (.ite (fun hs => ?_) fun _ => .mono (.checkProto _ _) (by omega)) ih
    obtain ⟨i, s, hu, hw, _⟩ := ((h m (List.mem_cons_self ..)).set hs).use
    refine .lift hu.idx ?_
    exact .mono (.checkProtos s.key d) hw.key.2.1

theorem Tot.matchers {C : Cfg} : ∀ (ms : List Matcher), (∀ m ∈ ms, MOk C m) →
    Tot C.groups (150 * ms.length) (matchers C ms)
  | [], _ => .pure _
  | m :: ms, h => by
    unfold Bf.matchers
    have hm := h m (List.mem_cons_self ..)
    exact .mono (.bind (n := 150) (.matcher hm.wf hm.net hm.set hm.supp) fun _ =>
      @Tot.matchers C ms fun m' h' => h m' (List.mem_cons_of_mem _ h')) (by simp; omega)

theorem Tot.packetLog (r : Rule) : Tot gs 9 (packetLog r) := .bind (n := 8) (m := 1) (.emits _) fun _ => .stub _

theorem Tot.saStoreField {off : Int} {size : Nat} (h : size = 1 ∨ size = 2 ∨ size = 4 ∨ size = 8 ∨ size = 16) :
    Tot gs 2 (saStoreField off size) := by
  unfold Bf.saStoreField
  rcases h with rfl | rfl | rfl | rfl | rfl <;> simp only
  · exact .mono (.emit _) (by omega)
  · exact .mono (.emit _) (by omega)
  · exact .mono (.emit _) (by omega)
  · exact .mono (.emit _) (by omega)
  · exact .mono (.emits _) (by simp)

theorem Tot.saLog (r : Rule) (hf : C.chain.hook.flavor = .sockAddr) : Tot gs 50 (saLog C r) := by
  unfold Bf.saLog
  refine .mono (.bind (n := 5) (m := 40) (.emits _) fun _ => ?_) (by omega)
  have tail : ∀ (da size : Nat) (f : BitVec 32), (size = 4 ∨ size = 16) → Tot gs 30 (do
      Bf.saLoadField da size
      Bf.saStoreField (scr 16) size
      Bf.saLoadField saUserPort 4
      Bf.emit (.bswap16 .r1)
      Bf.saStoreField (scr 32) 2
      Bf.emits [mov .r1 .r10, addi .r1 (ctx oArg), movi .r2 (BitVec.ofNat 32 r.index),
        movi .r3 (BitVec.ofNat 32 r.verdict.code), mov .r4 .r7, .alu true .lsh .r4 (.k 16),
        .alu true .or .r4 (.x .r8), movi .r5 f]
      Bf.emitStub .sockAddrLog) := by
    intro da size f hz
    exact .mono (.bind (n := 8) (m := 22) (.saLoadField (by omega)) fun _ => .bind (n := 2) (m := 20)
      (.saStoreField (by omega)) fun _ => .bind (n := 8) (m := 12) (.saLoadField (by omega)) fun _ =>
      .bind (n := 1) (m := 11) (.emit _) fun _ => .bind (n := 2) (m := 9) (.saStoreField (by omega)) fun _ =>
      .bind (n := 8) (m := 1) (.emits _) fun _ => .stub _) (by omega)
  cases hh : C.chain.hook <;> simp [hh, Hook.flavor] at hf <;> simp only [saLogShape]
  · exact .mono (tail _ _ _ (by simp)) (by omega)
  · exact .mono (tail _ _ _ (by simp)) (by omega)
  · exact .mono (.bind (n := 8) (m := 32) (.saLoadField (by omega)) fun _ => .bind (n := 2) (m := 30)
      (.saStoreField (by omega)) fun _ => tail _ _ _ (by simp)) (by omega)
  · exact .mono (.bind (n := 8) (m := 32) (.saLoadField (by omega)) fun _ => .bind (n := 2) (m := 30)
      (.saStoreField (by omega)) fun _ => tail _ _ _ (by simp)) (by omega)

theorem Tot.inlineLog (r : Rule) : Tot gs 50 (inlineLog C r) := by
  unfold Bf.inlineLog
  cases hf : C.chain.hook.flavor <;> simp only
  case sockAddr => exact .saLog r hf
  all_goals exact .mono (.packetLog r) (by omega)

theorem Tot.ruleLog (r : Rule) : Tot gs 61 (ruleLog C r) := by
  unfold Bf.ruleLog
  refine .ite (fun _ => ?_) fun _ => .ite (fun _ => .mono (.inlineLog r) (by omega)) fun _ => .mono (.pure _) (by omega)
  have body : Tot gs 58 (do
      Bf.emits [.call .ktime, .ldx .dw .r1 .r9 0, mov .r2 .r0, .alu true .sub .r2 (.x .r1),
        .ld64 .r1 r.rate, .pad]
      Bf.withJmp (.jmp true .lt .r2 (.x .r1) 0) (do
        Bf.emit (.stx .dw .r9 0 .r0)
        Bf.inlineLog C r)) :=
    .bind (n := 6) (m := 52) (.emits _) fun _ => .withJmp (.bind (n := 1) (m := 50) (.emit _) fun _ => .inlineLog r)
  refine .mono (.bind (n := 1) (m := 60) (.emit _) fun _ => .withJmp (n := 59) ?_) (by omega)
  refine .ite (fun _ => ?_) fun _ => ?_
  · exact .mono (.bind (n := 1) (m := 58) (.emit _) fun _ => body) (by omega)
  · exact .mono body (by omega)

theorem Tot.emitCounter (i : Nat) : Tot gs 6 (emitCounter i) :=
  .bind (n := 2) (m := 4) (.emits _) fun _ => .bind (n := 2) (m := 2) (.map _ ⟨_, rfl⟩) fun _ =>
    .bind (n := 1) (m := 1) (.emit _) fun _ => .stub _

theorem getVerdict_ok (f : Flavor) {v : Verdict} (h : v = .accept ∨ v = .drop ∨ v = .next) :
    ∃ c, getVerdict f v = .ok c := by
  rcases h with rfl | rfl | rfl <;> cases f <;> exact ⟨_, rfl⟩

theorem Tot.emitVerdict (f : Flavor) {v : Verdict} (h : v = .accept ∨ v = .drop ∨ v = .next) :
    Tot gs 2 (emitVerdict f v) := by
  obtain ⟨c, hc⟩ := getVerdict_ok f h
  exact .lift hc (.bind (n := 1) (m := 1) (.emit _) fun _ => .emit _)

/-- Redirection is only implemented on XDP (towards the output of the interface) and TC. -/
def RedirOk (h : Hook) (r : Rule) : Prop :=
  r.verdict = .redirect → h.flavor = .tc ∨ (h.flavor = .xdp ∧ r.redirDir = .egress)

theorem Tot.verdict {r : Rule} (h : RedirOk C.chain.hook r) : Tot gs 4 (match r.verdict with
        | .accept | .drop | .next => Bf.emitVerdict C.chain.hook.flavor r.verdict
        | .redirect => inlineRedirect C r.redirIfindex r.redirDir
        | .continue_ => Pure.pure ()) := by
  cases hv : r.verdict <;> simp only
  · exact .mono (.emitVerdict _ (by simp)) (by omega)
  · exact .mono (.emitVerdict _ (by simp)) (by omega)
  · exact .mono (.pure _) (by omega)
  · unfold inlineRedirect
    rcases h hv with h | ⟨h, h'⟩
    · rw [h]; exact .emits _
    · rw [h]; simp only
      rw [if_neg (by simp [h'])]; exact .emits _
  · exact .mono (.emitVerdict _ (by simp)) (by omega)

/-- What generation needs of a rule. -/
structure ROk (C : Cfg) (r : Rule) : Prop where
  matchers : ∀ m ∈ r.matchers, MOk C m
  few : r.matchers.length ≤ 200
  mark : r.markSet = true → C.chain.hook.flavor = .tc ∨ C.chain.hook.flavor = .cgroupSkb
  redir : RedirOk C.chain.hook r

theorem Tot.setMark {v : BitVec 32} (h : C.chain.hook.flavor = .tc ∨ C.chain.hook.flavor = .cgroupSkb) :
    Tot gs 3 (inlineSetMark C v) := by
  unfold inlineSetMark
  rcases h with h | h <;> rw [h] <;> exact .emits _

/-- The code of a rule before its jumps to the next one are resolved. -/
theorem Tot.body {r : Rule} (h : ROk C r) : Tot C.groups 32000 (do
      let _ ← (do let _ ← Bf.guards C r.matchers []; Bf.matchers C r.matchers)
      let _ ← (if r.markSet then inlineSetMark C r.markVal else Pure.pure ())
      let _ ← Bf.ruleLog C r
      let _ ← (if r.hasCounters then Bf.emitCounter r.index else Pure.pure ())
      (match r.verdict with
        | .accept | .drop | .next => Bf.emitVerdict C.chain.hook.flavor r.verdict
        | .redirect => inlineRedirect C r.redirIfindex r.redirDir
        | .continue_ => Pure.pure ())) := by
  have := h.few
  refine .mono (.bind (.bind (.guards r.matchers [] h.matchers) fun _ => .matchers r.matchers h.matchers) fun _ =>
    .bind (n := 3) (.ite (fun hm => .setMark (h.mark hm)) fun _ => .mono (.pure _) (by omega)) fun _ =>
    .bind (n := 61) (.ruleLog r) fun _ =>
    .bind (n := 6) (.ite (fun _ => .emitCounter _) fun _ => .mono (.pure _) (by omega)) fun _ => .verdict h.redir) ?_
  omega

/-- Resolving the jumps to the next rule succeeds. -/
theorem fixupLoop_next_total (pre : List Insn) (f : List Item) (hl : f.length ≤ 32767) (hg : ∀ i ∈ f, Good gs i) :
    ∃ r, fixupLoop noFix (· == .nextRule) (fixupsOf pre.length f) (pre ++ f.map (·.insn)) = .ok r := by
  induction f generalizing pre with
  | nil => exact ⟨_, rfl⟩
  | cons i is ih =>
    have hl' : is.length ≤ 32767 ∧ is.length < 32767 := by simp at hl; omega
    have key : ∀ x : Insn, ∃ r, fixupLoop noFix (· == .nextRule) (fixupsOf (pre.length + 1) is)
        (pre ++ x :: is.map (·.insn)) = .ok r := by
      intro x
      have := ih (pre ++ [x]) hl'.1 fun j hj => hg j (List.mem_cons_of_mem _ hj)
      simpa using this
    have hi := hg i (List.mem_cons_self ..)
    cases hfix : i.fix with
    | none =>
      simp only [fixupsOf, hfix, List.map_cons]
      exact key i.insn
    | some ty =>
      by_cases hty : ty = .nextRule
      · subst hty
        simp only [fixupsOf, hfix, List.map_cons, fixupLoop, beq_self_eq_true, if_true]
        have hz : ZeroJmp i.insn := by simpa [Good, hfix] using hi
        have hfo : ∃ v, fixOff i.insn is.length = .ok v := by
          cases hii : i.insn <;> rw [hii] at hz <;> simp [ZeroJmp] at hz <;> subst hz <;>
            simp [fixOff, hl'.2]
        obtain ⟨v, hv⟩ := hfo
        have e : fixOne noFix (pre ++ i.insn :: is.map (·.insn)) ⟨.nextRule, pre.length⟩ =
            .ok (pre ++ v :: is.map (·.insn)) := by
          simp only [fixOne]
          rw [List.getElem?_append_right (by omega)]
          simp only [Nat.sub_self, List.getElem?_cons_zero, fixVal]
          have hll : (pre ++ i.insn :: List.map (fun x => x.insn) is).length - pre.length - 1 = is.length := by simp
          rw [hll, hv]
          simp only [Res.ok_bind', Res.ok.injEq]
          rw [List.set_append_right _ _ (by omega)]
          simp
        rw [e]
        exact key v
      · have hb : (ty == FixTy.nextRule) = false := by simpa using hty
        simp only [fixupsOf, hfix, List.map_cons, fixupLoop, hb, Bool.false_eq_true, if_false]
        obtain ⟨r, hr⟩ := key i.insn
        rw [hr]
        exact ⟨_, rfl⟩

theorem fixup_next_total (p : Prog) (hp : ∀ g ∈ p.fixups, g.ty ≠ .nextRule) (f : List Item)
    (hl : f.length ≤ 32767) (hg : ∀ i ∈ f, Good gs i) :
    fixup noFix (· == .nextRule) (p.app f) = .ok ((), p.app (resolveNext f)) := by
  have : ∃ r, fixup noFix (· == .nextRule) (p.app f) = .ok r := by
    simp only [fixup, Prog.app]
    rw [fixupLoop_skip _ _ _ _ _ (fun g hg => by simpa using hp g hg)]
    obtain ⟨r, hr⟩ := fixupLoop_next_total p.img f hl hg
    rw [hr]
    exact ⟨_, rfl⟩
  obtain ⟨r, hr⟩ := this
  rw [hr, (fixup_next p hp f r hr).1]

/-- A good item that is not a pending jump to the next rule. -/
def Good' (gs : Groups) (i : Item) : Prop := Good gs i ∧ i.fix ≠ some .nextRule

/-- Like `Tot`, from programs without pending jumps. -/
def TotN (gs : Groups) (n : Nat) (g : Gen Unit) : Prop :=
  ∀ p : Prog, (∀ f ∈ p.fixups, f.ty ≠ .nextRule) →
    ∃ x, g p = .ok ((), p.app x) ∧ x.length ≤ n ∧ ∀ i ∈ x, Good' gs i

theorem app_clean {p : Prog} (hp : ∀ f ∈ p.fixups, f.ty ≠ .nextRule) {x : List Item} (hx : ∀ i ∈ x, Good' gs i) :
    ∀ f ∈ (p.app x).fixups, f.ty ≠ .nextRule := by
  intro f hf
  simp only [Prog.app, List.mem_append] at hf
  rcases hf with h | h
  · exact hp f h
  · obtain ⟨i, hi, he⟩ := fixupsOf_ty h
    intro e
    exact (hx i hi).2 (by rw [he, e])

theorem TotN.bind {g h : Gen Unit} {n m : Nat} (hg : TotN gs n g) (hh : TotN gs m h) : TotN gs (n + m) (g >>= fun _ => h) := by
  intro p hp
  obtain ⟨x, h1, h2, h3⟩ := hg p hp
  obtain ⟨y, k1, k2, k3⟩ := hh (p.app x) (app_clean hp h3)
  refine ⟨x ++ y, ?_, by simp; omega, ?_⟩
  · rw [bind_run, h1]
    simp only [Res.ok_bind', k1, Prog.app_app]
  · intro i hi
    rcases List.mem_append.mp hi with h | h
    · exact h3 i h
    · exact k3 i h

theorem TotN.mono {g : Gen Unit} {n m : Nat} (h : TotN gs n g) (hn : n ≤ m) : TotN gs m g := by
  intro p hp
  obtain ⟨x, h1, h2, h3⟩ := h p hp
  exact ⟨x, h1, by omega, h3⟩

theorem resolveNext_good {f : List Item} (h : ∀ i ∈ f, Good gs i) : ∀ i ∈ resolveNext f, Good' gs i := by
  induction f with
  | nil => intro i hi; cases hi
  | cons j is ih =>
    intro i hi
    have ih := ih fun k hk => h k (List.mem_cons_of_mem _ hk)
    simp only [resolveNext] at hi
    rcases List.mem_cons.mp hi with rfl | hi
    · by_cases hn : j.fix = some .nextRule
      · rw [if_pos hn]; exact ⟨trivial, by simp⟩
      · rw [if_neg hn]; exact ⟨h j (List.mem_cons_self ..), hn⟩
    · exact ih i hi

/-- The code of a rule can be generated. -/
theorem TotN.rule {r : Rule} (h : r.disabled = false → ROk C r) : TotN C.groups 32000 (genRule C r) := by
  intro p hp
  cases hd : r.disabled with
  | true =>
    refine ⟨[], ?_, by simp, by simp⟩
    unfold genRule
    simp [hd, pure_run]
  | false =>
    rw [genRule_eq C r hd]
    obtain ⟨a, x, h1, h2, h3⟩ := Tot.body (h hd) p
    refine ⟨resolveNext x, ?_, by rw [resolveNext_length]; exact h2, resolveNext_good h3⟩
    refine (bind_run _ _ p).trans ?_
    refine (congrArg (fun r => Res.bind r _) h1).trans ?_
    exact fixup_next_total p hp x (by omega) h3

theorem TotN.rules {C : Cfg} : ∀ rs : List Rule, (∀ r ∈ rs, r.disabled = false → ROk C r) →
    TotN C.groups (32000 * rs.length) (genRules C rs)
  | [], _ => fun p _ => ⟨[], by simp [genRules, pure_run], by simp, by simp⟩
  | r :: rs, h => by
    unfold genRules
    exact .mono (.bind (.rule (h r (List.mem_cons_self ..))) (@TotN.rules C rs fun r' h' => h r' (List.mem_cons_of_mem _ h')))
      (by simp; omega)

end Bf
