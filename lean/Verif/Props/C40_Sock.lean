import Verif.Props.C23_Ext
import Verif.Spec.SockFields
/-!
# C40: matchers on socket operations
-/
namespace Bf
open Spec

variable {E : Env} {chain : Chain} {thr : Nat → BitVec 32} {img : List Insn} {w w' : World} {r : BitVec 64}
  {m : Matcher}

theorem sockIs_iff {bs : List Byte} {t : MType} : sockProtoOk (sockView bs) t = true ↔ SockIs bs t := by
  have key : ∀ n : Net, (sockView bs).l3Num = n.etherType ↔ Net.ofFamily (host bs 28 4) = some n := by
    intro n
    have e : (sockView bs).net = Net.ofFamily (host bs 28 4) := rfl
    unfold SockView.l3Num
    rw [e]
    cases hh : Net.ofFamily (host bs 28 4) with
    | none => cases n <;> simp [Net.etherType]
    | some k => cases n <;> cases k <;> simp [Net.etherType]
  have e2 : (sockView bs).proto = host bs 36 4 := rfl
  unfold SockIs
  cases t <;> simp only [sockProtoOk, netOf, transOf, Option.some.injEq, reduceCtorEq, false_implies, implies_true,
    and_true, true_and, forall_eq', beq_iff_eq, e2] <;>
    first | exact key .ip4 | exact key .ip6 | exact Iff.rfl

theorem sockField_eq {bs : List Byte} (hb : bs.length = 72) {t : MType} {o n : Nat} (h : sockFieldSpec t = some (o, n)) :
    sockField (sockView bs) t = slice bs o n := by
  have hp : [BitVec.ofNat 8 (host bs 36 4)] = slice bs 36 1 := by
    have hl : (slice bs 36 4).length = 4 := slice_length (by omega)
    have h1 : slice bs 36 1 = (slice bs 36 4).take 1 := by unfold slice; rw [List.take_take]; rfl
    rw [h1]
    unfold host
    show [BitVec.ofNat 8 (leNat (slice bs 36 4))] = _
    match slice bs 36 4, hl with
    | [a, b, c, d], _ =>
      have := a.isLt
      simp only [List.take_succ_cons, List.take_zero, List.cons.injEq, and_true, leNat]
      rw [← BitVec.toNat_inj]
      simp only [BitVec.toNat_ofNat]
      omega
  cases t <;> simp only [sockFieldSpec, Option.some.injEq, Prod.mk.injEq, reduceCtorEq] at h <;>
    (obtain ⟨rfl, rfl⟩ := h) <;> first | rfl | exact hp

theorem hasSockField_iff {bs : List Byte} (hb : bs.length = 72) {t : MType} (ht : (sockFieldSpec t).isSome) {b : List Byte} :
    HasSockField bs t b ↔ sockProtoOk (sockView bs) t = true ∧ b = sockField (sockView bs) t := by
  obtain ⟨⟨o, n⟩, hs⟩ := Option.isSome_iff_exists.mp ht
  unfold HasSockField
  rw [sockIs_iff, sockField_eq hb hs, hs]
  constructor
  · rintro ⟨h, o', n', e, rfl⟩; cases e; exact ⟨h, rfl⟩
  · rintro ⟨h, rfl⟩; exact ⟨h, o, n, rfl, rfl⟩

theorem hasSockKey_iff {bs : List Byte} (hb : bs.length = 72) {ts : List MType} (ht : ∀ t ∈ ts, (sockFieldSpec t).isSome)
    {b : List Byte} :
    HasSockKey bs ts b ↔ (∀ t ∈ ts, sockProtoOk (sockView bs) t = true) ∧ b = keyOf (sockField (sockView bs)) ts := by
  induction ts generalizing b with
  | nil => simp [HasSockKey, keyOf]
  | cons t ts ih =>
    have ih := fun {b} => ih (fun t h => ht t (List.mem_cons_of_mem _ h)) (b := b)
    simp only [HasSockKey, hasSockField_iff hb (ht t (List.mem_cons_self ..)), ih]
    have e : keyOf (sockField (sockView bs)) (t :: ts) = sockField (sockView bs) t ++ keyOf (sockField (sockView bs)) ts := by
      simp [keyOf]
    rw [e]
    simp only [List.mem_cons, forall_eq_or_imp]
    constructor
    · rintro ⟨x, y, rfl, ⟨a, rfl⟩, c, rfl⟩; exact ⟨⟨a, c⟩, rfl⟩
    · rintro ⟨⟨a, c⟩, rfl⟩; exact ⟨_, _, rfl, ⟨a, rfl⟩, c, rfl⟩

/-- A matcher on a field of the socket address matches iff the socket is of the matcher's protocol and the
comparison holds. -/
theorem sock_hits {c : Sem} (hl : IsLoaded E chain thr img) (hc : Sees E chain thr c) (hf : chain.hook.flavor = .sockAddr)
    (hs : m.type ≠ .set) (ht : (sockFieldSpec m.type).isSome) {P : List Byte → Prop}
    (hP : ∃ b, sockCore (sockView E.sock) (E.rng w.rng) chain.sets thr m = some b ∧
      (b = true ↔ P (sockField (sockView E.sock) m.type))) :
    Hits c m w ↔ ∃ b, HasSockField E.sock m.type b ∧ (P b ↔ m.negate = false) := by
  have hb := (hl.env.sock hf).size
  obtain ⟨h2, h3, h4, h5⟩ := hc.sockView hf
  obtain ⟨x, hx, hp⟩ := hP
  have hk : (kernelOf E).rng w.rng = E.rng w.rng := rfl
  unfold Hits
  rw [h2, h3, h4, h5, hk]
  unfold typesOf
  rw [if_neg hs]
  simp only [List.mem_singleton, forall_eq, sockHolds, hx]
  have hneg : (x != m.negate) = true ↔ (P (sockField (sockView E.sock) m.type) ↔ m.negate = false) := by
    rw [← hp]; cases x <;> cases m.negate <;> simp
  rw [hneg]
  simp only [hasSockField_iff hb ht]
  constructor
  · rintro ⟨a, b⟩; exact ⟨_, ⟨a, rfl⟩, b⟩
  · rintro ⟨_, ⟨a, rfl⟩, b⟩; exact ⟨a, b⟩

/-- **C40 (partial).**  Equality, for addresses, ports, and protocols.  A socket's protocol may be above 255
(MPTCP is 262): such protocols are in no header and are excluded here for `ip4.proto`, see `C40_fails_mptcp`. -/
theorem C40_eq_partial {c : Sem} (hl : IsLoaded E chain thr img) (hc : Sees E chain thr c) (hf : chain.hook.flavor = .sockAddr)
    (hm : MatcherWf m)
    (ht : m.type ∈ [MType.ip4Saddr, .ip4Daddr, .ip6Saddr, .ip6Daddr, .ip4Proto, .tcpDport, .udpDport, .metaDport])
    (hop : m.op = .eq) (hproto : m.type = .ip4Proto → host E.sock 36 4 < 256) :
    Hits c m w ↔ ∃ b, HasSockField E.sock m.type b ∧ (b = m.payload ↔ m.negate = false) := by
  have hs : m.type ≠ .set := by intro e; rw [e] at ht; revert ht; decide
  have hlen : m.payload.length = m.type.refSize .eq := by
    unfold MatcherWf at hm
    rw [if_neg hs, hop] at hm
    exact hm.2.2
  have htake : m.payload.take m.payload.length = m.payload := List.take_length
  simp only [List.mem_cons, List.not_mem_nil, or_false] at ht
  refine sock_hits hl hc hf hs (by rcases ht with e | e | e | e | e | e | e | e <;> rw [e] <;> rfl)
    (P := fun b => b = m.payload) ?_
  unfold sockCore
  rcases ht with e | e | e | e | e | e | e | e
  case inr.inr.inr.inr.inl =>
    rw [e] at hlen ⊢
    simp only [MType.refSize] at hlen
    refine ⟨_, rfl, ?_⟩
    rw [decide_eq_true_iff]
    have hp := hproto e
    match h : m.payload, hlen with
    | [x], _ =>
      have e2 : (sockView E.sock).proto = host E.sock 36 4 := rfl
      have := x.isLt
      rw [e2]
      simp only [sockField, e2, List.cons.injEq, and_true]
      rw [← BitVec.toNat_inj, BitVec.toNat_ofNat]
      have hx : host [x] 0 1 = x.toNat := by simp [host, leNat]
      rw [hx]
      omega
  all_goals
    rw [e] at hlen ⊢
    simp only [MType.refSize] at hlen
    rw [hlen] at htake
    refine ⟨_, by simp only [hop, reduceCtorEq, if_false]; rfl, ?_⟩
    rw [decide_eq_true_iff, htake]
    try exact Iff.rfl

/-- **C40.**  Networks. -/
theorem C40_networks {c : Sem} (hl : IsLoaded E chain thr img) (hc : Sees E chain thr c) (hf : chain.hook.flavor = .sockAddr)
    (ht : m.type ∈ netTypes) :
    Hits c m w ↔ ∃ b, HasSockField E.sock m.type b ∧
      (InNetwork b (m.payload.drop 4) (host m.payload 0 4) ↔ m.negate = false) := by
  have hs : m.type ≠ .set := by intro e; rw [e] at ht; revert ht; decide
  simp only [netTypes, List.mem_cons, List.not_mem_nil, or_false] at ht
  refine sock_hits hl hc hf hs (by rcases ht with e | e | e | e <;> rw [e] <;> rfl)
    (P := fun b => InNetwork b (m.payload.drop 4) (host m.payload 0 4)) ?_
  unfold sockCore
  rcases ht with e | e | e | e <;> rw [e] <;> exact ⟨_, rfl, by rw [← inNetwork_iff]; rfl⟩

/-- **C40.**  Ranges of destination ports. -/
theorem C40_ranges {c : Sem} (hl : IsLoaded E chain thr img) (hc : Sees E chain thr c) (hf : chain.hook.flavor = .sockAddr)
    (ht : m.type ∈ [MType.tcpDport, .udpDport, .metaDport]) (hop : m.op = .range) :
    Hits c m w ↔ ∃ b, HasSockField E.sock m.type b ∧
      (host m.payload 0 2 ≤ beNat b ∧ beNat b ≤ host m.payload 2 2 ↔ m.negate = false) := by
  have hs : m.type ≠ .set := by intro e; rw [e] at ht; revert ht; decide
  simp only [List.mem_cons, List.not_mem_nil, or_false] at ht
  refine sock_hits hl hc hf hs (by rcases ht with e | e | e <;> rw [e] <;> rfl)
    (P := fun b => host m.payload 0 2 ≤ beNat b ∧ beNat b ≤ host m.payload 2 2) ?_
  unfold sockCore
  rcases ht with e | e | e <;> rw [e] <;>
    exact ⟨_, by simp only [hop, if_true]; rfl, by rw [decide_eq_true_iff]; exact Iff.rfl⟩

/-- **C40.**  Membership in a set of addresses, ports, protocols. -/
theorem C40_member {s : BSet} {c : Sem} (hl : IsLoaded E chain thr img) (hc : Sees E chain thr c)
    (hf : chain.hook.flavor = .sockAddr) (hs : RefersTo chain m s) (hk : ∀ t ∈ s.key, (sockFieldSpec t).isSome)
    (hn : ∀ t ∈ s.key, t ∉ netTypes) :
    Hits c m w ↔ ∃ b, HasSockKey E.sock s.key b ∧ (b ∈ s.elems ↔ m.negate = false) := by
  obtain ⟨ht, hs⟩ := hs
  have hb := (hl.env.sock hf).size
  obtain ⟨h2, h3, h4, h5⟩ := hc.sockView hf
  unfold Hits
  rw [h2, h3, h4, h5]
  unfold typesOf
  rw [if_pos ht, hs]
  simp only [hasSockKey_iff hb hk]
  unfold sockHolds sockCore
  rw [ht]
  simp only [hs]
  have hnet : (s.key.any fun t => t == .ip4Snet || t == .ip4Dnet || t == .ip6Snet || t == .ip6Dnet) = false := by
    rw [List.any_eq_false]
    intro t ht
    have := hn t ht
    simp only [netTypes, List.mem_cons, List.not_mem_nil, or_false, not_or] at this
    simp [this]
  have hin : inSet (sockField (sockView E.sock)) s = decide (keyOf (sockField (sockView E.sock)) s.key ∈ s.elems) := by
    unfold inSet
    rw [hnet]
    simp
  rw [hin]
  constructor
  · rintro ⟨a, b⟩; exact ⟨_, ⟨a, rfl⟩, bne_iff.mp b⟩
  · rintro ⟨_, ⟨a, rfl⟩, b⟩; exact ⟨a, bne_iff.mpr b⟩

/-- **C40.**  Membership in a set of networks. -/
theorem C40_set_networks {s : BSet} {t : MType} {c : Sem} (hl : IsLoaded E chain thr img) (hc : Sees E chain thr c)
    (hf : chain.hook.flavor = .sockAddr) (hs : RefersTo chain m s) (hk : s.key = [t]) (hn : t ∈ netTypes) :
    Hits c m w ↔ ∃ b, HasSockField E.sock t b ∧
      ((∃ e ∈ s.elems, InNetwork b (e.drop 4) (host e 0 4)) ↔ m.negate = false) := by
  obtain ⟨ht, hs⟩ := hs
  have hb := (hl.env.sock hf).size
  obtain ⟨h2, h3, h4, h5⟩ := hc.sockView hf
  have hfs : (sockFieldSpec t).isSome := by
    simp only [netTypes, List.mem_cons, List.not_mem_nil, or_false] at hn
    rcases hn with e | e | e | e <;> rw [e] <;> rfl
  unfold Hits
  rw [h2, h3, h4, h5]
  unfold typesOf
  rw [if_pos ht, hs]
  simp only [hk, List.mem_singleton, forall_eq, hasSockField_iff hb hfs]
  unfold sockHolds sockCore
  rw [ht]
  simp only [hs]
  have hnet : (s.key.any fun t => t == .ip4Snet || t == .ip4Dnet || t == .ip6Snet || t == .ip6Dnet) = true := by
    rw [hk]
    simp only [netTypes, List.mem_cons, List.not_mem_nil, or_false] at hn
    simpa [or_assoc] using hn
  have hin : inSet (sockField (sockView E.sock)) s = true ↔
      ∃ e ∈ s.elems, InNetwork (sockField (sockView E.sock) t) (e.drop 4) (host e 0 4) := by
    unfold inSet
    rw [hnet, hk]
    simp only [if_true, List.any_eq_true, inNet, inNetwork_iff, keyOf, List.map_cons, List.map_nil,
      List.flatten_cons, List.flatten_nil, List.append_nil]
  rw [show (inSet (sockField (sockView E.sock)) s != m.negate) = true ↔ (inSet (sockField (sockView E.sock)) s = true ↔ m.negate = false) from by
    cases inSet (sockField (sockView E.sock)) s <;> cases m.negate <;> simp]
  rw [hin]
  constructor
  · rintro ⟨a, b⟩; exact ⟨_, ⟨a, rfl⟩, b⟩
  · rintro ⟨_, ⟨a, rfl⟩, b⟩; exact ⟨a, b⟩

/-- **C40**, end to end: the operation is blocked iff the matcher matches (`Blocked` is what the kernel
understands of the return value, C17). -/
theorem C40_blocks_partial (p : Probe E chain thr img m) (hf : chain.hook.flavor = .sockAddr) (hr : Runs E img w r w')
    (ht : m.type ∈ [MType.ip4Saddr, .ip4Daddr, .ip6Saddr, .ip6Daddr, .ip4Proto, .tcpDport, .udpDport, .metaDport])
    (hop : m.op = .eq) (hproto : m.type = .ip4Proto → host E.sock 36 4 < 256) :
    Blocked chain r ↔ ∃ b, HasSockField E.sock m.type b ∧ (b = m.payload ↔ m.negate = false) := by
  rw [p.blocked_iff hr fun _ hc => C40_eq_partial p.loaded hc hf p.wf ht hop hproto]
  exact ⟨fun h => h.2, fun h => ⟨fun hu => hu.1 hf, h⟩⟩

theorem C40_member_blocks {s : BSet} (p : Probe E chain thr img m) (hf : chain.hook.flavor = .sockAddr) (hr : Runs E img w r w')
    (hs : RefersTo chain m s) (hk : ∀ t ∈ s.key, (sockFieldSpec t).isSome) (hn : ∀ t ∈ s.key, t ∉ netTypes) :
    Blocked chain r ↔ ∃ b, HasSockKey E.sock s.key b ∧ (b ∈ s.elems ↔ m.negate = false) := by
  rw [p.blocked_iff hr fun _ hc => C40_member p.loaded hc hf hs hk hn]
  exact ⟨fun h => h.2, fun h => ⟨fun hu => hu.1 hf, h⟩⟩

/-! ### Concrete cases -/
namespace Sample

/-- A socket operation: family IPv4, protocol `p`, to 10.0.0.2 port 80. -/
def sock (p : Nat) : Env := { base with
  sock := [2, 0, 0, 0] ++ [10, 0, 0, 2] ++ List.replicate 16 0 ++ [0, 80, 0, 0] ++ [2, 0, 0, 0] ++ [1, 0, 0, 0] ++
    [BitVec.ofNat 8 p, BitVec.ofNat 8 (p / 256), 0, 0] ++ List.replicate 32 0 }

/-- `ip4.proto eq 6` and `(ip4.proto) in {6}` -/
def mProto : Matcher := ⟨.ip4Proto, .eq, [6], false⟩
def setProto : BSet := ⟨some "p", [.ip4Proto], 1, false, [[6]]⟩
def mSet0 : Matcher := ⟨.set, .in_, [0, 0, 0, 0], false⟩

theorem setProtoWf : SetsWf [setProto] := by
  refine ⟨?_, by decide⟩
  intro s hs
  simp only [List.mem_cons, List.not_mem_nil, or_false] at hs
  subst hs
  exact ⟨⟨_, rfl, rfl, rfl⟩, by decide, by decide, by decide⟩

theorem sockAbi (p : Nat) : SockAbi (sock p).sock := by
  refine ⟨rfl, rfl, ?_⟩
  show host [BitVec.ofNat 8 p, BitVec.ofNat 8 (p / 256), 0, 0] 0 4 < 65536
  simp only [host, List.drop_zero, List.take_succ_cons, List.take_zero, leNat, BitVec.toNat_ofNat]
  simp
  omega

theorem proto_probe (p : Nat) :
    ∃ img, Probe (envOf (sock p) (one .connect4 [] mProto)) (one .connect4 [] mProto) Sample.thr img mProto :=
  one_probe (sock p) (by decide) (by decide) noSets (by decide) (fun _ => sockAbi p) (by decide +kernel)

theorem protoSet_probe (p : Nat) :
    ∃ img, Probe (envOf (sock p) (one .connect4 [setProto] mSet0)) (one .connect4 [setProto] mSet0) Sample.thr img mSet0 :=
  one_probe (sock p) (by decide) (by decide) setProtoWf (by decide) (fun _ => sockAbi p) (by decide +kernel)

end Sample
open Sample

/-- Non-empty hypotheses. -/
example : ∃ img, Probe (envOf (sock 6) (one .connect4 [] mProto)) (one .connect4 [] mProto) Sample.thr img mProto :=
  proto_probe 6
example : HasSockField (sock 6).sock .tcpDport [0, 80] := ⟨⟨by simp [netOf], by decide⟩, 24, 2, rfl, by decide⟩

/-- **C40 fails** for protocols above 255: an MPTCP (262) socket is in the set {6} (TCP), although its
protocol is not 6. -/
theorem C40_fails_mptcp : ∃ img r w',
    Probe (envOf (sock 262) (one .connect4 [setProto] mSet0)) (one .connect4 [setProto] mSet0) Sample.thr img mSet0 ∧
    host (sock 262).sock 36 4 = 262 ∧
    Runs (envOf (sock 262) (one .connect4 [setProto] mSet0)) img w0 r w' ∧ Blocked (one .connect4 [setProto] mSet0) r := by
  obtain ⟨img, p⟩ := protoSet_probe 262
  obtain ⟨r, w', hr⟩ := C01_returns p.loaded w0
  refine ⟨img, r, w', p, by decide, hr, ?_⟩
  rw [C40_member_blocks (s := setProto) p rfl hr ⟨rfl, rfl⟩ (by decide) (by decide)]
  refine ⟨[6], ⟨[6], [], rfl, ⟨⟨?_, by simp [transOf]⟩, 36, 1, rfl, by decide⟩, rfl⟩, by decide⟩
  intro n hn
  simp only [netOf, Option.some.injEq] at hn
  subst hn
  decide

/-- ... and, with `eq`, is not matched. -/
theorem C40_eq_mptcp : ∃ img r w',
    Probe (envOf (sock 262) (one .connect4 [] mProto)) (one .connect4 [] mProto) Sample.thr img mProto ∧
    Runs (envOf (sock 262) (one .connect4 [] mProto)) img w0 r w' ∧ ¬ Blocked (one .connect4 [] mProto) r := by
  obtain ⟨img, p⟩ := proto_probe 262
  obtain ⟨r, w', hr⟩ := C01_returns p.loaded w0
  refine ⟨img, r, w', p, hr, ?_⟩
  rw [p.blocked hr]
  rintro ⟨c, hc, _, h⟩
  obtain ⟨_, _, _, h5⟩ := hc.sockView rfl
  rw [h5] at h
  revert h
  show ¬ sockHolds (sockView (sock 262).sock) _ [] Sample.thr mProto = true
  simp only [sockHolds, sockCore, mProto]
  decide

/-- A datagram to the IPv4 address 10.0.0.2 (`user_family` is `AF_INET`) of an IPv6 socket (`family` is `AF_INET6`). -/
def mapped : Env := { base with
  sock := [2, 0, 0, 0] ++ [10, 0, 0, 2] ++ List.replicate 16 0 ++ [0, 80, 0, 0] ++ [10, 0, 0, 0] ++ [2, 0, 0, 0] ++ [17, 0, 0, 0] ++ List.replicate 32 0 }

/-- `ip4.daddr eq 10.0.0.2` -/
def mDst : Matcher := ⟨.ip4Daddr, .eq, [10, 0, 0, 2], false⟩

/-- **C40 fails** for the IPv4 datagrams of IPv6 sockets: the one sent to 10.0.0.2, on the IPv4 hook, is not matched by `ip4.daddr eq 10.0.0.2`, as the
family that is tested is the socket's, not the address's. -/
theorem C40_fails_mapped : ∃ img r w',
    Probe (envOf mapped (one .sendmsg4 [] mDst)) (one .sendmsg4 [] mDst) Sample.thr img mDst ∧
    Net.ofFamily (host mapped.sock 0 4) = some .ip4 ∧ slice mapped.sock 4 4 = [10, 0, 0, 2] ∧
    Runs (envOf mapped (one .sendmsg4 [] mDst)) img w0 r w' ∧ ¬ Blocked (one .sendmsg4 [] mDst) r := by
  obtain ⟨img, p⟩ : ∃ img, Probe (envOf mapped (one .sendmsg4 [] mDst)) (one .sendmsg4 [] mDst) Sample.thr img mDst :=
    one_probe mapped (by decide) (by decide) noSets (by decide) (fun _ => ⟨rfl, rfl, by decide⟩) (by decide +kernel)
  obtain ⟨r, w', hr⟩ := C01_returns p.loaded w0
  refine ⟨img, r, w', p, by decide, by decide, hr, ?_⟩
  rw [C40_blocks_partial p rfl hr (by decide) rfl (by intro h; cases h)]
  rintro ⟨b, ⟨⟨h, _⟩, _⟩, _⟩
  exact absurd (h .ip4 rfl) (by decide)

end Bf
