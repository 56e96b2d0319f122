import Verif.Model.PatchDebug

set_option autoImplicit false

/-!
# How paths, properties and errors are shown (`impl Display`, hotmeal/src/diff.rs:109-174)
-/

namespace Hotmeal
namespace Display

/-- The rest of a path after its first number, diff.rs:164-169. -/
def pathTail : List Nat → Str
  | [] => []
  | n :: l => '.' :: PatchDebug.num n ++ pathTail l

/-- `impl Display for NodePath`, diff.rs:162-172. -/
def path : List Nat → Str
  | [] => []
  | n :: l => PatchDebug.num n ++ pathTail l

/-- `impl Display for PropKey`, diff.rs:109-121. The namespace is not shown. -/
def key : PropKey → Str
  | .text => "_text".toList
  | .attr name => match name.prefix_ with
    | some p => p ++ ':' :: name.loc
    | none => name.loc

/-- `Display` of `DiffError`, which `#[facet(derive(Error))]` makes from the comments at diff.rs:123-151. The errors of the
model that are not values of `DiffError` (panics, and errors of the browser) have no text here. `SlotMissingRelativePath` and
`NotAComment` are never returned and are not in the model. -/
def error : Err → Option Str
  | .noBody => some "no body element found in document".toList
  | .pathOutOfBounds i => some ("path index ".toList ++ PatchDebug.num i ++ " out of bounds".toList)
  | .emptyPath => some "cannot get parent of empty path".toList
  | .slotNotFound s => some ("slot ".toList ++ PatchDebug.num s ++ " not found".toList)
  | .notATextNode => some "node is not a text node".toList
  | .notAnElement => some "node is not an element".toList
  | _ => none

end Display
end Hotmeal
