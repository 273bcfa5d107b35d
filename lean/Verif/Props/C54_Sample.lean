import Verif.Props.C54_Decided
import Verif.Props.C53_Sample
/-!
# C54: cases
-/
namespace Bf.Cli
open Spec

def code : List Byte → Nat
  | [] => 0
  | b :: l => b.toNat + 256 * code l

theorem code_lt : ∀ l : List Byte, code l < 256 ^ l.length
  | [] => by simp [code]
  | b :: l => by
    have := code_lt l
    have := b.isLt
    rw [code, List.length_cons, Nat.pow_succ]
    omega

theorem code_inj : ∀ {l m : List Byte}, l.length = m.length → code l = code m → l = m
  | [], [], _, _ => rfl
  | [], _ :: _, h, _ => by cases h
  | _ :: _, [], h, _ => by cases h
  | a :: l, b :: m, h, e => by
    have h1 := a.isLt
    have h2 := b.isLt
    simp only [code] at e
    have e1 : a = b := BitVec.eq_of_toNat_eq (by omega)
    have e2 := code_inj (l := l) (m := m) (by simpa using h) (by omega)
    rw [e1, e2]

/-- There are not more elements than values. -/
theorem elems_few {n : Nat} {es : List (List Byte)} (hn : es.Nodup) (hl : ∀ e ∈ es, e.length = n) : es.length ≤ 256 ^ n := by
  have h1 : (es.map code).Nodup := by
    induction es with
    | nil => exact List.nodup_nil
    | cons a l ih =>
      obtain ⟨g1, g2⟩ := List.nodup_cons.mp hn
      rw [List.map_cons]
      refine List.nodup_cons.mpr ⟨fun hm => ?_, ih g2 fun e he => hl e (List.mem_cons_of_mem _ he)⟩
      obtain ⟨b, hb, he⟩ := List.mem_map.mp hm
      have := code_inj ((hl b (List.mem_cons_of_mem _ hb)).trans (hl a List.mem_cons_self).symm) he
      exact g1 (this ▸ hb)
  have := nodup_le h1 (b := List.range (256 ^ n)) fun x hx => by
    obtain ⟨b, hb, rfl⟩ := List.mem_map.mp hx
    have := code_lt b
    rw [hl b hb] at this
    exact List.mem_range.mpr this
  simpa using this

theorem elemOf_size {env : TextEnv} {key : List MType} {t : List Char} {e : List Byte} (h : ElemOf env key t e) : e.length = (key.map fun ty => ty.refSize .in_).sum := by
  obtain ⟨comps, rfl, rfl, h⟩ := h
  generalize tokens (· = ',') t = ts at h
  induction h with
  | nil => rfl
  | @cons _ b _ _ h _ ih =>
    have h1 : b.2.length = b.1.refSize .in_ := h.1
    simp only [List.map_cons, List.flatten_cons, List.length_append, List.sum_cons]
    rw [ih, h1]

variable {A : Issued → Prop} {env : TextEnv}

/-- The keys of the sets of a sentence, all of them, have at most this size. -/
def KeysFit (n : Nat) (s : ChainS) : Prop := ∀ k, (∃ d ∈ s.sets, d.key = k) ∨ (∃ x ∈ inlineSets s.rules, x.1 = k) → ∀ key, KeyOf k key → (key.map fun ty => ty.refSize .in_).sum ≤ n

theorem stands_keys {n : Nat} (ht : ∀ i s, A i → Tells i s → KeysFit n s) {s : ChainS} (h : Stands A s) : KeysFit n s := by
  induction h with
  | told hi hs => exact ht _ _ hi hs
  | @revised i s k d key p hi _ _ _ _ hk _ _ hv ih =>
    intro x hx
    refine ih x (hx.imp_left ?_)
    rintro ⟨d', hd', rfl⟩
    rcases List.mem_or_eq_of_mem_set hd' with h | rfl
    · exact ⟨d', h, rfl⟩
    · exact ⟨d, List.mem_of_getElem? hk, rfl⟩

/-- If keys are of 3 bytes at most, what is asked for is not of 4 GiB, whatever is added to sets. -/
theorem C54_sensible (he : ∀ i, A i → i.H.env.text = env)
    (hu : (∀ i, A i → ¬ Commands i.a1 .chain .updateSet) ∨ (∀ i, A i → ∀ t ∈ given .add i.a2, PlainElem t) ∧ ∀ s, Stands A s → ∀ d ∈ s.sets, elemTexts d.payload ≠ [])
    (hk : ∀ i s, A i → Tells i s → KeysFit 3 s) (ht : ∀ i, A i → Written i.H i.a2) (hp : ∀ i, A i → i.H.T.printed < 2 ^ 64)
    (ho : ∀ i, A i → ∀ x ∈ given .option i.a2, x.length < 2 ^ 32 ∧ ∀ c ∈ x, 0 < c.toNat ∧ c.toNat < 256) : Sensible A := by
  refine ⟨ht, hp, ho, fun c hc x hx => ?_⟩
  obtain ⟨s, rate, o, h1, h2, _⟩ := said_of he hu hc
  have hfit := stands_keys hk h1
  have key : ∀ {name : Option String} {k p : List Char}, ((∃ d ∈ s.sets, d.key = k) ∨ ∃ x ∈ inlineSets s.rules, x.1 = k) → SetSays env name k p x → x.elems.length < 2 ^ 32 := by
    rintro name k p hk ⟨_, q2, _, es, q4, q5, q6⟩
    have hs := hfit k hk _ q2
    have := elems_few q5 fun e he => by
      obtain ⟨t, _, h⟩ := each_mem q4 ((q6 e).mp he)
      exact elemOf_size h
    exact Nat.lt_of_le_of_lt (Nat.le_trans this (Nat.pow_le_pow_right (by decide) hs)) (by decide)
  obtain ⟨decl, inl, e1, e2, _, e3⟩ := h2.sets
  rw [e1] at hx
  rcases List.mem_append.mp hx with hx | hx
  · obtain ⟨d, hd, h⟩ := each_mem e2 hx
    exact key (.inl ⟨d, hd, rfl⟩) h
  · obtain ⟨d, hd, h⟩ := each_mem e3 hx
    exact key (.inr ⟨d, hd, rfl⟩) h

end Bf.Cli

namespace Bf.Cli.Sample
open Spec
open Pin (K P)
open Pin.Sample (tgt w0)

def text54 : List Char := "chain web BF_HOOK_XDP{ifindex=2} ACCEPT set ports (tcp.dport) in {22} rule (tcp.dport) in ports counter DROP".toList
def s54 : ChainS :=
  ⟨"web".toList, "BF_HOOK_XDP".toList, ["ifindex=2".toList], "ACCEPT".toList, [⟨"ports".toList, "(tcp.dport)".toList, some "in".toList, "{22}".toList⟩],
    [⟨[.named "(tcp.dport)".toList false (some "in".toList) "ports".toList], [.counter], .plain "DROP".toList⟩]⟩

theorem key54 : KeyText "(tcp.dport)".toList :=
  ⟨"tcp.dport".toList, [], by decide, ⟨[], "tcp".toList, "dport".toList, [], by decide, by decide, by decide, by decide, by decide⟩, fun d hd => by cases hd⟩

theorem writes54 : Writes text54 [s54] := by
  refine ⟨by decide, fun c hc => ?_, laidB_laid (by decide +kernel)⟩
  cases List.mem_singleton.mp hc
  refine ⟨name_of (by decide) (by decide), ⟨.xdp, rfl⟩, fun o ho => ?_, ⟨.accept, by decide, rfl⟩, fun s hs => ?_, fun r hr => ?_⟩
  · cases List.mem_singleton.mp ho
    exact ⟨"ifindex".toList, "2".toList, by decide, by decide, by decide⟩
  · cases List.mem_singleton.mp hs
    exact ⟨name_of (by decide) (by decide), key54, rfl, "22".toList, by decide, by decide, by decide⟩
  · cases List.mem_singleton.mp hr
    refine ⟨by simp, fun m hm => ?_, fun o ho => ?_, ⟨.drop, by decide, rfl⟩⟩
    · cases List.mem_singleton.mp hm
      exact ⟨key54, rfl, name_of (by decide) (by decide)⟩
    · cases List.mem_singleton.mp ho
      trivial

/-- `bfcli chain set --name web --from-str "..."`. -/
def put54 : Issued := ⟨host, [.word "chain", .word "set"], [(.name, "web".toList), (.fromStr, text54)], []⟩
/-- `bfcli chain update-set --name web --set-name ports --add 443`. -/
def add54 : Issued := ⟨host, [.word "chain", .word "update-set"], [(.name, "web".toList), (.setName, "ports".toList), (.add, "443".toList)], []⟩

abbrev both54 (i : Issued) : Prop := i ∈ [put54, add54]

theorem both_of {Q : Issued → Prop} (h1 : Q put54) (h2 : Q add54) : ∀ i, both54 i → Q i := fun i hi => by
  rcases List.mem_cons.mp hi with rfl | hi
  · exact h1
  · rcases List.mem_singleton.mp hi with rfl
    exact h2

theorem no_source {g : Flag × List Char} {g' : Flag × List Char} {g'' : Flag × List Char} {t : List Char} (h1 : g.1 = .name) (h2 : g'.1 = .setName) (h3 : g''.1 = .add) :
    ¬ Source host [g, g', g''] t := by
  obtain ⟨f, v⟩ := g
  obtain ⟨f', v'⟩ := g'
  obtain ⟨f'', v''⟩ := g''
  cases h1
  cases h2
  cases h3
  rintro (h | ⟨f, h, _⟩)
  · cases h
  · cases h

theorem writes_one {t : List Char} {a b : List ChainS} (h : Writes t a) (h' : Writes t b) : a = b := by
  have := (writes_parse h).symm.trans (writes_parse h')
  simpa using this

theorem tells54 {s : ChainS} : ∀ i, both54 i → Tells i s → s = s54 := by
  refine both_of (fun h => ?_) fun h => ?_
  · obtain ⟨_, t, cs, h1, h2, h3⟩ := h
    have ht : t = text54 := source_of rfl h1
    subst ht
    have hcs : cs = [s54] := writes_one h2 writes54
    subst hcs
    rcases h3 with ⟨_, h⟩ | ⟨_, h⟩
    · exact List.mem_singleton.mp h
    · exact List.mem_singleton.mp (picks_mem h)
  · obtain ⟨_, t, cs, h1, _⟩ := h
    exact absurd h1 (no_source rfl rfl rfl)

theorem keyOf54 : KeyOf "(tcp.dport)".toList [.tcpDport] := by
  refine ⟨by decide, by decide, ?_⟩
  have e : tokens (fun c => c = '(' || c = ')' || c = ',') "(tcp.dport)".toList = ["tcp.dport".toList] := by decide
  rw [e]
  exact .cons (by decide) .nil

theorem env54 : ∀ i, both54 i → i.H.env.text = host.env.text := both_of rfl rfl

theorem plain54 : ∀ i, both54 i → ∀ t ∈ given .add i.a2, PlainElem t := by
  refine both_of (fun t ht => ?_) fun t ht => ?_
  · rw [show given .add put54.a2 = [] from rfl] at ht; cases ht
  · rw [show given .add add54.a2 = ["443".toList] from rfl] at ht
    cases List.mem_singleton.mp ht
    exact ⟨by decide, by decide, by decide⟩

theorem some54 : ∀ s, Stands both54 s → ∀ d ∈ s.sets, elemTexts d.payload ≠ [] := fun s h => by
  refine stands_some (fun i s hi ht => ?_) (both_of rfl rfl) h
  rw [tells54 i hi ht]
  intro d hd
  cases List.mem_singleton.mp hd
  decide

theorem sensible54 : Sensible both54 := by
  refine C54_sensible env54 (.inr ⟨plain54, some54⟩) (fun i s hi ht => ?_) (both_of ?_ fun t ht => absurd ht (no_source rfl rfl rfl)) (both_of (by decide) (by decide)) (both_of ?_ ?_)
  · rw [tells54 i hi ht]
    intro k hk key hkey
    have : k = "(tcp.dport)".toList := by
      rcases hk with ⟨d, hd, rfl⟩ | ⟨x, hx, _⟩
      · cases List.mem_singleton.mp hd; rfl
      · cases hx
    subst this
    rw [keyOf_unique hkey keyOf54]
    decide
  · exact written_of (fun _ h => source_of rfl h) (by decide +kernel) writes54
  · exact fun x hx => by rw [show given .option put54.a2 = [] from rfl] at hx; cases hx
  · exact fun x hx => by rw [show given .option add54.a2 = [] from rfl] at hx; cases hx

/-- A chain is set, and a port is added to its set: a program runs, and does of every packet what a text that stands says. -/
example : ∃ w, Issue w0 [put54, add54] w ∧ (∃ pt p, w.runs pt p) ∧
    ∀ pt p, w.runs pt p → ∃ i s c img m, both54 i ∧ Stands both54 s ∧ s.hook = (Doc.hook c.hook).toList ∧ AskedAt both54 (String.ofList s.name) pt ∧ w.objs[p]? = some (.prog c img m) ∧
      Decides host.env.text s c i.H.T.thr img := by
  obtain ⟨p', hr, e⟩ := Pin.P.exec_run (p := main put54.H put54.a1 put54.a2 []) (fails := fun _ => false) (n := 1000) (i := 0) (w := w0)
  obtain ⟨p2, hr2, e2⟩ := Pin.P.exec_run (p := main add54.H add54.a1 add54.a2 []) (fails := fun _ => false) (n := 1000) (i := 0)
    (w := ((main put54.H put54.a1 put54.a2 []).exec (fun _ => false) 1000 0 w0).1.die)
  have h : Issue w0 [put54, add54] _ := .next (i := put54) hr (.next (i := add54) hr2 .done)
  refine ⟨_, h, runs_of (by decide +kernel), fun pt p hp => ?_⟩
  exact C54_decided_partial sensible54 ⟨rfl, rfl, rfl⟩ (issue_moves h fun _ h => h) env54 (.inr ⟨plain54, some54⟩) hp

/-- Without `update-set`. -/
example : ∃ w, Issue w0 [webSet, flushSample] w ∧ (∃ pt p, w.runs pt p) ∧
    ∀ pt p, w.runs pt p → ∃ i ∈ [webSet, flushSample], ∃ j ∈ [webSet, flushSample], ∃ s c img m, Tells j s ∧ s.hook = (Doc.hook c.hook).toList ∧
      AskedAt (· ∈ [webSet, flushSample]) (String.ofList s.name) pt ∧ w.objs[p]? = some (.prog c img m) ∧ Decides host.env.text s c i.H.T.thr img := by
  obtain ⟨p', hr, e⟩ := Pin.P.exec_run (p := main host set1 set2 []) (fails := fun _ => false) (n := 1000) (i := 0) (w := w0)
  obtain ⟨p2, hr2, e2⟩ := Pin.P.exec_run (p := main host flush1 nameSample []) (fails := fun _ => false) (n := 1000) (i := 0)
    (w := ((main host set1 set2 []).exec (fun _ => false) 1000 0 w0).1.die)
  have h : Issue w0 [webSet, flushSample] _ := .next (i := webSet) hr (.next (i := flushSample) hr2 .done)
  have key : ∀ {Q : Issued → Prop}, Q webSet → Q flushSample → ∀ i, i ∈ [webSet, flushSample] → Q i := fun h1 h2 i hi => by
    rcases List.mem_cons.mp hi with rfl | hi
    · exact h1
    · rcases List.mem_singleton.mp hi with rfl
      exact h2
  refine ⟨_, h, runs_of (by decide +kernel), fun pt p hp => C54_history_partial sensible1 ⟨rfl, rfl, rfl⟩ h (key rfl rfl) (key (fun h => ?_) fun h => ?_) hp⟩
  · have := (Commands.unique h commands1 rfl rfl).2; cases this
  · have hc : Commands flush1 .chain .flush := ⟨[], [], [], rfl, by simp, by simp⟩
    have := (Commands.unique h hc rfl rfl).2; cases this

/-! What is not so. -/

def empty54 : List Char := "chain web BF_HOOK_XDP{ifindex=2} ACCEPT set ports (tcp.dport) in {} rule (tcp.dport) in ports counter DROP".toList
def putEmpty : P Ended := main host [.word "chain", .word "set"] [(.name, "web".toList), (.fromStr, empty54)] []
def addOne : P Ended := main host add54.a1 add54.a2 []

/-- A program runs whose chain has a set with an element, and whose only rule, which is about it, is off. -/
def stale (w : K) : Bool := w.pins.any fun x =>
  match w.objs[x.2]? with
  | some (.link _ p false) =>
    w.pinned x.1.1 x.1.2 == some x.2 && match w.objs[p]? with
      | some (.prog c _ _) => c.sets.length == 1 && c.sets.all (fun s => s.elems.length == 1) && c.rules.length == 1 && c.rules.all fun r => r.disabled
      | _ => false
  | _ => false

theorem stale_of {w : K} (h : stale w = true) : ∃ pt p c img m, w.runs pt p ∧ w.objs[p]? = some (.prog c img m) ∧ c.sets.length = 1 ∧ (∀ s ∈ c.sets, s.elems.length = 1) ∧
    c.rules.length = 1 ∧ ∀ r ∈ c.rules, r.disabled = true := by
  obtain ⟨x, _, h⟩ := List.any_eq_true.mp h
  split at h
  · next pt p ho =>
    obtain ⟨h1, h2⟩ := Bool.and_eq_true_iff.mp h
    split at h2
    · next c img m hp =>
      refine ⟨pt, p, c, img, m, ⟨x.2, ho, .inr ⟨x.1.1, x.1.2, by simpa using h1⟩⟩, hp, ?_⟩
      simp only [Bool.and_eq_true, List.all_eq_true, beq_iff_eq] at h2
      exact ⟨h2.1.1.1, h2.1.1.2, h2.1.2, h2.2⟩
    · cases h2
  · cases h

/-- The condition on sets that are empty is needed: a chain is set, whose set is empty; a port is added to it; both commands exit with status 0; the rule about that set is not
in the program that runs. -/
theorem C54_stale : ∃ w1 w2, Pin.Run w0 putEmpty w1 (.ret (.exits .ok [])) ∧ Pin.Run w1.die addOne w2 (.ret (.exits .ok [])) ∧
    ∃ pt p c img m, w2.die.runs pt p ∧ w2.die.objs[p]? = some (.prog c img m) ∧ c.sets.length = 1 ∧ (∀ s ∈ c.sets, s.elems.length = 1) ∧ c.rules.length = 1 ∧
      ∀ r ∈ c.rules, r.disabled = true := by
  obtain ⟨p1, hr, e⟩ := Pin.P.exec_run (p := putEmpty) (fails := fun _ => false) (n := 1000) (i := 0) (w := w0)
  have := e _ (show _ = some (.exits .ok []) by decide +kernel)
  subst this
  obtain ⟨p2, hr2, e2⟩ := Pin.P.exec_run (p := addOne) (fails := fun _ => false) (n := 1000) (i := 0) (w := (putEmpty.exec (fun _ => false) 1000 0 w0).1.die)
  have := e2 _ (show _ = some (.exits .ok []) by decide +kernel)
  subst this
  exact ⟨_, _, hr, hr2, stale_of (by decide +kernel)⟩

end Bf.Cli.Sample
