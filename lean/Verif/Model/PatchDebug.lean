import Verif.Model.Json

set_option autoImplicit false

/-!
# How a patch is printed (`impl Debug for Patch`, hotmeal/src/diff.rs)

This is what log files, panics and failing assertions show of a list of patches. `dbg` is what `{:?}` of the standard
library makes of a string.
-/

namespace Hotmeal
namespace PatchDebug

/-- `{}` of a `u32` or a `usize`, for diff.rs:284-377. -/
def num (n : Nat) : Str := Json.digits (n + 1) n

/-- What follows the first number of a slice in `{:?}`, for diff.rs:284-377. -/
def numsTail : List Nat → Str
  | [] => "]".toList
  | n :: l => ", ".toList ++ num n ++ numsTail l

/-- `{:?}` of the slice of a path, for diff.rs:284-377. Also under `{:#?}`, because `write!` starts over with its own
options. -/
def nums : List Nat → Str
  | [] => "[]".toList
  | n :: l => "[".toList ++ num n ++ numsTail l

/-- The slot, diff.rs:301-303, 313-315, 325-327 and 358-360. -/
def slotText : Option Nat → Str
  | none => []
  | some k => " →slot".toList ++ num k

/-- The number of attributes or children, unless there are none, diff.rs:295-300. -/
def countText (n : Nat) (label : Str) : Str :=
  if n = 0 then [] else " (".toList ++ num n ++ label

/-- `impl Debug for Patch`, diff.rs:284-377. -/
def debug (dbg : Str → Str) : Patch → Str
  | .insertElement p tag attrs children slot =>
    "Insert <".toList ++ tag ++ "> @".toList ++ nums p ++ countText attrs.length " attrs)".toList ++
      countText children.length " children)".toList ++ slotText slot
  | .insertText p s slot => "Insert text ".toList ++ dbg (s.take 20) ++ " @".toList ++ nums p ++ slotText slot
  | .insertComment p s slot => "Insert comment ".toList ++ dbg (s.take 20) ++ " @".toList ++ nums p ++ slotText slot
  | .remove p => "Remove @".toList ++ nums p
  | .setText p s => "SetText ".toList ++ dbg (s.take 20) ++ " @".toList ++ nums p
  | .setAttribute p name value => "SetAttr ".toList ++ name.loc ++ "=".toList ++ dbg value ++ " @".toList ++ nums p
  | .removeAttribute p name => "RemoveAttr ".toList ++ name.loc ++ " @".toList ++ nums p
  | .move p q slot => "Move ".toList ++ nums p ++ " → ".toList ++ nums q ++ slotText slot
  | .updateProps p changes => "UpdateProps @".toList ++ nums p ++ " (".toList ++ num changes.length ++ " changes)".toList
  | .opaqueChanged p s => "OpaqueChanged @".toList ++ nums p ++ " ".toList ++ dbg (s.take 40)

end PatchDebug
end Hotmeal
