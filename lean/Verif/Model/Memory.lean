import Verif.Model.Basic

set_option autoImplicit false

/-!
# Strings in memory (hotmeal/src/dom.rs, hotmeal/src/stem.rs)

`parse` keeps texts, attribute values and comments as pieces of the input where it can: it compares the address of
the piece that html5ever hands out with the address range of the input. In the other modules a string is its
characters. Here it is a range of addresses in a memory of bytes.
-/

namespace Hotmeal

/-- The memory: a byte at every address. What the addresses at dom.rs:1148-1151 point into. -/
abbrev Mem := Nat → UInt8

/-- A `&str` or the contents of a `StrTendril`: `as_ptr()` and `len()`. dom.rs:1145-1151. -/
structure Slice where
  addr : Nat
  len : Nat
  deriving DecidableEq, Repr

/-- `as_bytes()`. dom.rs:1145-1146. -/
def Slice.bytes (m : Mem) (s : Slice) : List UInt8 := (List.range s.len).map fun i => m (s.addr + i)

/-- `Stem`, stem.rs:17-20. -/
inductive MemStem
  | borrowed (s : Slice)
  | owned (bytes : List UInt8)

namespace MemStem

/-- The bytes of `Stem::as_str`, stem.rs:27-32. -/
def bytes (m : Mem) : MemStem → List UInt8
  | borrowed s => s.bytes m
  | owned bs => bs

/-- `Stem::push_str`, stem.rs:42-51, with the bytes of the argument. -/
def pushStr (m : Mem) : MemStem → List UInt8 → MemStem
  | owned bs, t => owned (bs ++ t)
  | borrowed s, t => owned (s.bytes m ++ t)

/-- `Stem::into_owned`, stem.rs:58-63. -/
def intoOwned (m : Mem) : MemStem → MemStem
  | borrowed s => owned (s.bytes m)
  | owned bs => owned bs

end MemStem

/-- `str::is_char_boundary` of the standard library, which indexing a `str` uses. Called from dom.rs:1155. -/
def Slice.isCharBoundary (m : Mem) (s : Slice) (i : Nat) : Bool :=
  if i = 0 then true
  else if s.len ≤ i then decide (i = s.len)
  else decide (m (s.addr + i) < 128) || decide (192 ≤ m (s.addr + i))

/-- `&s[lo..hi]` of the standard library: a panic if an end is not between two characters. dom.rs:1155. -/
def Slice.index (m : Mem) (s : Slice) (lo hi : Nat) : Option Slice :=
  if lo ≤ hi ∧ s.isCharBoundary m lo ∧ s.isCharBoundary m hi then some ⟨s.addr + lo, hi - lo⟩ else none

/-- `tendril_to_stem_with_input`, dom.rs:1144-1159; `none` is a panic. Simplification: addresses are unbounded, so
`t_start + t_bytes.len()` does not overflow. -/
def tendrilToStem (m : Mem) (input t : Slice) : Option MemStem :=
  if t.addr ≥ input.addr ∧ t.addr + t.len ≤ input.addr + input.len then
    let offset := t.addr - input.addr
    (input.index m offset (offset + t.len)).map .borrowed
  else some (.owned (t.bytes m))

end Hotmeal
