import Verif.Pack.Round
/-!
# Printer messages

`/repo/src/libbpfilter/cgen/printer.c`.  Sizes are natural numbers (`size_t` in the code).
-/
namespace Bf

/-- printer.c:22-36 `struct bf_printer_msg`. -/
structure PMsg where
  offset : Nat
  len : Nat
  str : String
  deriving DecidableEq, Repr

/-- printer.c:280-293 `_bf_printer_total_size`. -/
def printerSize (msgs : List PMsg) : Nat :=
  match msgs.getLast? with
  | none => 0
  | some m => m.offset + m.len

/-- printer.c:295-334 `bf_printer_add_msg`: the messages, and the message returned. -/
def printerAdd (msgs : List PMsg) (s : String) : List PMsg × PMsg :=
  match msgs.find? fun m => m.str = s with
  | some m => (msgs, m)
  | none =>
    let m : PMsg := ⟨printerSize msgs, (cstr s).length + 1, s⟩
    (msgs ++ [m], m)

/-- `memcpy(dst + off, src, ..)`: a byte that was never written is `none`. -/
def memcpyAt (dst : List (Option Byte)) (off : Nat) (src : List Byte) : List (Option Byte) :=
  dst.take off ++ src.map some ++ dst.drop (off + src.length)

/-- printer.c:336-372 `bf_printer_assemble`.  `len` bytes of the message are copied: the string, and its final NUL. -/
def printerAssemble (msgs : List PMsg) : List (Option Byte) :=
  if printerSize msgs = 0 then [some 0]
  else msgs.foldl (fun b m => memcpyAt b m.offset ((cstr m.str ++ [0]).take m.len)) (List.replicate (printerSize msgs) none)

/-- printer.c:136-147 `_bf_printer_msg_pack`. -/
def pmsgNode (m : PMsg) : Node := .map [key "offset", .uint m.offset, key "len", .uint m.len, key "str", .str (cstr m.str)]
/-- printer.c:81-107 `_bf_printer_msg_new_from_pack`. -/
def pmsgUnpack (n : Node) : Res PMsg :=
  (kvNode n "offset").bind fun x => (readUint 18446744073709551615 x).bind fun offset =>
  (kvNode n "len").bind fun x => (readUint 18446744073709551615 x).bind fun len =>
  (kvNode n "str").bind fun x => (readStr x).bind fun str => .ok ⟨offset, len, str⟩

/-- printer.c:239-247 `bf_printer_pack`. -/
def printerNode (msgs : List PMsg) : Node := .map [key "msgs", .arr (msgs.map pmsgNode)]
/-- printer.c:196-224 `bf_printer_new_from_pack`. -/
def printerUnpack (n : Node) : Res (List PMsg) :=
  (kvNode n "msgs").bind fun x => (readArr x).bind fun l => readAll pmsgUnpack l

end Bf
