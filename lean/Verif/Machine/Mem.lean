import Verif.Base
/-!
# Bytes, values and memory cells of the modelled BPF machine

The generated program (`/repo/src/libbpfilter/cgen`) is executed by the kernel's BPF machine.
This file and `Machine/Sem.lean` model the part of that machine the generated code uses.  The
machine is little-endian (the code is generated for the host; `BF_*` byte-order conversions in the
code generator are modelled for a little-endian host).
-/
namespace Bf

abbrev Byte := BitVec 8

/-- Little-endian value of a byte string. -/
def leNat : List Byte → Nat
  | [] => 0
  | b :: bs => b.toNat + 256 * leNat bs

/-- The `n` low-order bytes of `v`, little-endian. -/
def leBytes : Nat → Nat → List Byte
  | 0, _ => []
  | n + 1, v => BitVec.ofNat 8 v :: leBytes n (v / 256)

@[simp] theorem leBytes_length (n v : Nat) : (leBytes n v).length = n := by
  induction n generalizing v with
  | zero => rfl
  | succ n ih => simp [leBytes, ih]

theorem leNat_lt (bs : List Byte) : leNat bs < 256 ^ bs.length := by
  induction bs with
  | nil => simp [leNat]
  | cons b bs ih =>
    have hb : b.toNat < 256 := b.isLt
    simp only [leNat, List.length_cons, Nat.pow_succ]
    omega

theorem leNat_leBytes (n v : Nat) : leNat (leBytes n v) = v % 256 ^ n := by
  induction n generalizing v with
  | zero => simp [leBytes, leNat, Nat.mod_one]
  | succ n ih =>
    simp only [leBytes, leNat, ih, BitVec.toNat_ofNat]
    have e : 256 ^ (n + 1) = 256 * 256 ^ n := by rw [Nat.pow_succ, Nat.mul_comm]
    rw [e, Nat.mod_mul]

theorem leBytes_leNat (bs : List Byte) : leBytes bs.length (leNat bs) = bs := by
  induction bs with
  | nil => rfl
  | cons b bs ih =>
    have hb : b.toNat < 256 := b.isLt
    simp only [List.length_cons, leNat, leBytes]
    congr 1
    · apply BitVec.eq_of_toNat_eq
      simp only [BitVec.toNat_ofNat]
      omega
    · have : (b.toNat + 256 * leNat bs) / 256 = leNat bs := by omega
      rw [this, ih]

theorem leNat_inj {a b : List Byte} (hl : a.length = b.length) : leNat a = leNat b ↔ a = b := by
  constructor
  · intro h
    rw [← leBytes_leNat a, ← leBytes_leNat b, hl, h]
  · intro h; rw [h]

/-- Maps a program refers to (`struct bf_handle`, /repo/src/libbpfilter/cgen/handle.h): counters,
log ring buffer, rate-limit state, and one map per set group. -/
inductive MapRef
  | counters
  | log
  | state
  | set (group : Nat)
  deriving DecidableEq, Repr

/-- Memory regions a pointer can point into. -/
inductive Region
  /-- the program's stack frame, offsets relative to `R10` -/
  | stack
  /-- the program's context argument (`xdp_md`, `__sk_buff`, `bpf_nf_ctx`, `bpf_sock_addr`) -/
  | ctx
  /-- start of the linear packet data, as seen through `xdp_md.data`/`data_end` -/
  | xdpData
  /-- `struct nf_hook_state` -/
  | nfState
  /-- `struct net_device` of the netfilter hook -/
  | nfDev
  /-- `struct sk_buff` of the netfilter hook -/
  | skb
  /-- a direct dynptr slice: `len` bytes of the packet from offset `base` -/
  | pkt (base len : Nat)
  /-- the single value of the rate-limit state map -/
  | state
  /-- a value of a set map (never written by the program) -/
  | blob (bytes : List Byte)
  deriving DecidableEq, Repr

/-- A machine value: scalar, pointer, map reference, or uninitialised. -/
inductive Val
  | sc (v : BitVec 64)
  | ptr (r : Region) (off : Int)
  | map (m : MapRef)
  | uninit
  deriving DecidableEq, Repr

/-- One byte of stack: a data byte, the `i`-th byte of a spilled non-scalar value, or a byte of an
initialised `struct bpf_dynptr`. -/
inductive Cell
  | byte (b : Byte)
  | frag (v : Val) (i : Nat)
  | dyn (i : Nat)
  deriving DecidableEq, Repr

/-- Stack contents, by offset from `R10`. -/
abbrev Stack := Int → Cell

/-- `n` cells from offset `o`. -/
def Stack.get (m : Stack) (o : Int) : Nat → List Cell
  | 0 => []
  | n + 1 => m o :: Stack.get m (o + 1) n

/-- Overwrite the cells from offset `o`. -/
def Stack.put (m : Stack) (o : Int) (cs : List Cell) : Stack :=
  fun x => if o ≤ x ∧ x < o + cs.length then (cs[(x - o).toNat]?).getD (m x) else m x

@[simp] theorem Stack.get_length (m : Stack) (o : Int) (n : Nat) : (m.get o n).length = n := by
  induction n generalizing o with
  | zero => rfl
  | succ n ih => simp [Stack.get, ih]

theorem Stack.get_congr {m m' : Stack} {o : Int} {n : Nat}
    (h : ∀ x, o ≤ x → x < o + n → m x = m' x) : m.get o n = m'.get o n := by
  induction n generalizing o with
  | zero => rfl
  | succ n ih =>
    simp only [Stack.get]
    rw [h o (by omega) (by omega), ih]
    intro x h1 h2
    exact h x (by omega) (by omega)

theorem Stack.put_out (m : Stack) (o : Int) (cs : List Cell) (x : Int)
    (h : x < o ∨ o + cs.length ≤ x) : m.put o cs x = m x := by
  unfold Stack.put
  rw [if_neg]
  omega

theorem Stack.put_in (m : Stack) (o : Int) (cs : List Cell) (i : Nat) (h : i < cs.length) :
    m.put o cs (o + i) = cs[i] := by
  unfold Stack.put
  rw [if_pos (by omega)]
  have : (o + (i : Int) - o).toNat = i := by omega
  rw [this, List.getElem?_eq_getElem h]
  rfl

/-- Reading back what was just written. -/
theorem Stack.get_put_same (m : Stack) (o : Int) (cs : List Cell) (n : Nat) (h : n = cs.length) :
    (m.put o cs).get o n = cs := by
  subst h
  have key : ∀ (k : Nat) (rest : List Cell) (pre : List Cell), pre ++ rest = cs → k = rest.length →
      (m.put o cs).get (o + pre.length) k = rest := by
    intro k
    induction k with
    | zero => intro rest pre _ hk; cases rest <;> simp_all [Stack.get]
    | succ k ih =>
      intro rest pre hp hk
      cases rest with
      | nil => simp at hk
      | cons c rest =>
        simp only [Stack.get]
        have hlen : pre.length < cs.length := by rw [← hp]; simp
        rw [Stack.put_in m o cs pre.length hlen]
        have h1 : cs[pre.length] = c := by
          have : cs = pre ++ c :: rest := hp.symm
          subst this; simp
        rw [h1]
        have := ih rest (pre ++ [c]) (by simp [hp]) (by simpa using hk)
        simp only [List.length_append, List.length_cons, List.length_nil] at this
        have e : o + (pre.length : Int) + 1 = o + ((pre.length + (0 + 1) : Nat) : Int) := by omega
        rw [e, this]
  have := key cs.length cs [] rfl rfl
  simpa using this

/-- Reading outside what was just written. -/
theorem Stack.get_put_other (m : Stack) (o : Int) (cs : List Cell) (o' : Int) (n : Nat)
    (h : o' + n ≤ o ∨ o + cs.length ≤ o') : (m.put o cs).get o' n = m.get o' n := by
  apply Stack.get_congr
  intro x h1 h2
  apply Stack.put_out
  omega

/-- A sub-range of a range that was just written. -/
theorem Stack.get_put_sub (m : Stack) (o : Int) (cs : List Cell) (i n : Nat)
    (h : i + n ≤ cs.length) : (m.put o cs).get (o + i) n = (cs.drop i).take n := by
  induction n generalizing i with
  | zero => simp [Stack.get]
  | succ n ih =>
    simp only [Stack.get]
    rw [Stack.put_in m o cs i (by omega)]
    have e : o + (i : Int) + 1 = o + ((i + 1 : Nat) : Int) := by omega
    rw [e, ih (i + 1) (by omega)]
    rw [List.drop_eq_getElem_cons (by omega : i < cs.length), List.take_succ_cons]

/-- The bytes held by data cells, if all of them are data cells. -/
def cellBytes : List Cell → Option (List Byte)
  | [] => some []
  | .byte b :: cs => (cellBytes cs).map (b :: ·)
  | _ :: _ => none

@[simp] theorem cellBytes_map_byte (bs : List Byte) : cellBytes (bs.map .byte) = some bs := by
  induction bs with
  | nil => rfl
  | cons b bs ih => simp [cellBytes, ih]

theorem cellBytes_append (a b : List Cell) :
    cellBytes (a ++ b) = (cellBytes a).bind fun x => (cellBytes b).map (x ++ ·) := by
  induction a with
  | nil => cases h : cellBytes b <;> simp [cellBytes, h]
  | cons c a ih =>
    cases c with
    | byte x =>
      simp only [List.cons_append, cellBytes, ih]
      cases cellBytes a <;> cases cellBytes b <;> rfl
    | frag v i => simp [cellBytes]
    | dyn i => simp [cellBytes]

theorem cellBytes_some {cs : List Cell} {bs : List Byte} (h : cellBytes cs = some bs) :
    cs = bs.map .byte := by
  induction cs generalizing bs with
  | nil => simp [cellBytes] at h; subst h; rfl
  | cons c cs ih =>
    cases c with
    | byte x =>
      simp only [cellBytes, Option.map_eq_some_iff] at h
      obtain ⟨r, hr, rfl⟩ := h
      simp [ih hr]
    | frag v i => simp [cellBytes] at h
    | dyn i => simp [cellBytes] at h

/-- The cells of a stored value of `n` bytes: bytes for scalars; pointers and maps can only be
spilled whole; an uninitialised value cannot be stored. -/
def cellsOf (v : Val) (n : Nat) : Option (List Cell) :=
  match v with
  | .sc b => some ((leBytes n b.toNat).map .byte)
  | .uninit => none
  | v => if n = 8 then some ((List.range 8).map (Cell.frag v)) else none

/-- The value of loaded cells: a zero-extended scalar, or a whole spilled value. -/
def valOf (cs : List Cell) : Option Val :=
  match cs with
  | .frag v 0 :: _ => if cs = (List.range 8).map (Cell.frag v) then some v else none
  | _ => (cellBytes cs).map fun bs => .sc (BitVec.ofNat 64 (leNat bs))

theorem valOf_bytes (bs : List Byte) (_h : bs ≠ []) :
    valOf (bs.map .byte) = some (.sc (BitVec.ofNat 64 (leNat bs))) := by
  cases bs with
  | nil => simp [valOf, cellBytes]
  | cons b bs => simp [valOf, cellBytes]

theorem valOf_frag (v : Val) : valOf ((List.range 8).map (Cell.frag v)) = some v := by
  simp only [List.range, List.range.loop, List.map, valOf, if_true]

end Bf
