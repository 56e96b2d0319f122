import Verif.Spec.Html

set_option autoImplicit false

/-!
# `template` elements in a browser

The library keeps what is inside a `<template>` as the children of the element: `get_template_contents`,
hotmeal/src/dom.rs:1721-1725, gives the element itself. In a browser the HTML parser puts it into another tree, the
template's `content`, and the element has no child nodes (HTML standard, 4.12.3; the fuzz targets leave such pages
out for this reason, hotmeal/fuzz/fuzz_targets/common/mod.rs:465-469). The client (hotmeal-wasm/src/lib.rs) uses child
nodes only and never `content` of a node of the page, so `content` does not change. (It uses the `content` of a new
template of its own for rejected names, lib.rs:771-780.)
-/

namespace Hotmeal

/-- The name of templates, in lower case as the parser gives it (dom.rs:1721-1725). -/
def templateTag : Str := "template".toList

/-- An HTML element `template`: these have `content` in a browser (dom.rs:1721-1725). Elements of other namespaces have
not. -/
def NodeData.isTemplate (d : NodeData) : Bool :=
  match d with
  | ⟨.element tag _, .html⟩ => decide (tag = templateTag)
  | _ => false

namespace Arena

/-- What a browser shows (in `innerHTML` and in its tools) for node `n`: the tree, with the `content` of templates in
place of their child nodes (dom.rs:1721-1725 does not tell the two apart). -/
def shown (A : Arena NodeData) (content : Nat → List Html) (n : Nat) : Html :=
  A.fold (fun n cs => Html.ofKind (A.data n).kind (if (A.data n).isTemplate then content n else cs)) n

/-- The nodes of a page as a browser makes them from a document: templates have no children. The nodes of their
content are left over without parent and stand for nothing (dom.rs:1721-1725 leaves them in place). -/
def hollow (A : Arena NodeData) : Arena NodeData :=
  { A with
    parent := fun n => match A.parent n with
      | some p => if (A.data p).isTemplate then none else some p
      | none => none
    children := fun n => if (A.data n).isTemplate then [] else A.children n }

end Arena
end Hotmeal
