import Verif.Model.DiffTree

set_option autoImplicit false

/-!
# What is given to the hasher

Everywhere else the hash of a node is an abstract function of its kind, its text and the hashes of its children.
Here is the sequence of bytes from which the code computes it, for an abstract hasher `h` (`RapidHasher`) and an
abstract hash of names `atom`. Both are outside of the repository. The hasher is a function of the bytes written;
that it gets them in several calls does not matter for what is shown, since equal calls write equal bytes.
-/

namespace Hotmeal
namespace Hash

/-- `to_ne_bytes` of an unsigned number of `k` bytes, on a little-endian machine.
Written by `data.kind.hash`, diff.rs:606 and 931, and `hash.0.hash`, diff.rs:613 and 941. -/
def le : Nat → Nat → List UInt8
  | 0, _ => []
  | k + 1, n => UInt8.ofNat (n % 256) :: le k (n / 256)

/-- Discriminant of `Namespace`, hotmeal/src/dom.rs:986-991. -/
def nsIndex : Ns → Nat
  | .html => 0
  | .svg => 1
  | .mathml => 2

/-- `derive(Hash)` for `HtmlNodeKind`, hotmeal/src/diff.rs:381-390, on a 64-bit machine: the discriminants as `isize`,
the interned name by its 32-bit hash (`string_cache::Atom`). -/
def kindBytes (atom : Str → UInt32) : HKind → List UInt8
  | .element tag ns => le 8 0 ++ le 4 (atom tag).toNat ++ le 8 (nsIndex ns)
  | .text => le 8 1
  | .comment => le 8 2

/-- `if let Some(text) = &data.text { text.hash(..) }`, diff.rs:608-610 and 934-936; `Hash for Stem`, stem.rs:112-116:
the bytes of the text and a byte that ends it. -/
def textBytes : Option Str → List UInt8
  | none => []
  | some s => s.flatMap String.utf8EncodeChar ++ [0xff]

/-- All that is written for one node, diff.rs:604-617 and 928-942: kind, text, hashes of the children. -/
def input (atom : Str → UInt32) (kind : HKind) (text : Option Str) (children : List UInt64) : List UInt8 :=
  kindBytes atom kind ++ (textBytes text ++ children.flatMap fun x => le 8 x.toNat)

/-- The hash of a node. diff.rs:604-617 and 928-946. -/
def node (atom : Str → UInt32) (h : List UInt8 → UInt64) (kind : HKind) (text : Option Str) (children : List UInt64) :
    UInt64 := h (input atom kind text children)

end Hash
end Hotmeal
