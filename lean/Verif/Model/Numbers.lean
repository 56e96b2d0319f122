import Verif.Model.Diff

set_option autoImplicit false

/-!
# Numbers of 32 bits in patches

`Verif/Model/Diff.lean` has natural numbers in patches. In the code the numbers of a path are `usize` values cast
to `u32`, and slot numbers are counted in a `u32`.
-/

namespace Hotmeal

/-- The casts `as u32` of a path, hotmeal/src/diff.rs:692, 980, 988, 993, 1076, 1268, 1277 and 1296: the number
modulo 2^32. -/
def Path.u32 (q : Path) : Path := q.map (· % 2 ^ 32)

/-- A patch with all its numbers cast to `u32`. Slot numbers wrap at 2^32 as well (`next_slot += 1` in
`create_slot`, diff.rs:1301-1315, in a release build). -/
def Patch.u32 : Patch → Patch
  | .insertElement at_ tag attrs cs slot => .insertElement at_.u32 tag attrs cs (slot.map (· % 2 ^ 32))
  | .insertText at_ t slot => .insertText at_.u32 t (slot.map (· % 2 ^ 32))
  | .insertComment at_ t slot => .insertComment at_.u32 t (slot.map (· % 2 ^ 32))
  | .remove q => .remove q.u32
  | .setText q t => .setText q.u32 t
  | .setAttribute q n v => .setAttribute q.u32 n v
  | .removeAttribute q n => .removeAttribute q.u32 n
  | .move a b slot => .move a.u32 b.u32 (slot.map (· % 2 ^ 32))
  | .updateProps q ch => .updateProps q.u32 ch
  | .opaqueChanged q c => .opaqueChanged q.u32 c

end Hotmeal
