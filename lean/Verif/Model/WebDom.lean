import Verif.Model.Wasm

/-!
# The browser client on a DOM that checks and lower-cases names (hotmeal-wasm/src/lib.rs)

`Verif/Model/Wasm.lean` models the client on a DOM that takes every element and attribute name as it
is given. The functions of the client that pass names to the DOM are modelled here once more, on a DOM
that follows the standard: `createElement` and `setAttribute` reject some names, and turn ASCII
letters of the others into lower case where the standard says so. The fallback of the client for
rejected names, which goes through `innerHTML` of a template, is included.

The page is assumed to be an HTML document (not XHTML).
-/

namespace Hotmeal

/-- What the client needs to know about the browser: the names that `createElement` and `setAttribute`
accept, and the HTML fragment parser (`template.innerHTML = …`), as a document whose root has the
parsed nodes as children. Used at hotmeal-wasm/src/lib.rs:728-734 and 772-775. -/
structure WebDom where
  tagOk : Str → Bool
  attrOk : Str → Bool
  fragment : Str → Document

namespace WebDom

variable (dom : WebDom)

/-- DOM standard, `setAttribute` step 2 and `get an attribute by name` step 1: names are lower-cased on
elements of the HTML namespace only. For the calls at lib.rs:406, 415, 582, 596 and 734. -/
def lowered (ns : Ns) (name : Str) : Str := if ns = .html then name.map lowerAscii else name

/-- `Element.setAttribute` on an element of namespace `ns`. Used at lib.rs:406, 596 and 734. -/
def setAttribute (ns : Ns) (name value : Str) (attrs : Attrs) : Res Attrs :=
  if dom.attrOk name then .ok (Wasm.setAttribute (lowered ns name) value attrs)
  else .error .invalidName

/-- `Element.removeAttribute` on an element of namespace `ns`; it accepts every name. Used at lib.rs:415 and 582. -/
def removeAttribute (ns : Ns) (name : Str) (attrs : Attrs) : Attrs :=
  Wasm.removeAttribute (lowered ns name) attrs

/-- `create_element_with_attrs`, lib.rs:722-737. `createElement` gives an element of the HTML
namespace with a lower-case tag. The element that is dropped when an attribute is rejected is not
modelled: the result is the kind of the element. -/
def createWithAttrs (tag : Str) (attrs : Attrs) : Res NodeKind :=
  if dom.tagOk tag then do
    let a ← attrs.foldlM (fun acc kv => dom.setAttribute .html (Wasm.domName kv.1) kv.2 acc) []
    .ok (.element (lowered .html tag) a)
  else .error .invalidName

/-- The attributes written by `create_element_via_html` and `serialize_insert_content`,
lib.rs:750-761 and 793-804. The four `replace` calls of the code escape one character each and the
ampersand first, which is `escAttr`. -/
def writeAttrs (attrs : Attrs) : Str :=
  attrs.flatMap fun kv => ' ' :: (Wasm.domName kv.1 ++ '=' :: '"' :: (escAttr kv.2 ++ ['"']))

mutual
/-- `serialize_insert_content`, lib.rs:784-823. -/
def writeContent : InsertContent → Str
  | .element tag attrs children =>
    '<' :: (tag ++ writeAttrs attrs ++ '>' :: (writeContents children ++ '<' :: '/' :: (tag ++ ['>'])))
  | .text s => escText s
  | .comment s => "<!--".toList ++ s ++ "-->".toList
/-- The loops over the children, lib.rs:765-767 and 806-808. -/
def writeContents : List InsertContent → Str
  | [] => []
  | c :: cs => writeContent c ++ writeContents cs
end

/-- `create_element_via_html`, lib.rs:741-781: the first node of the parsed fragment. Simplification:
the node is copied into the page instead of being taken out of the template. -/
def viaHtml (A : Arena NodeData) (tag : Str) (attrs : Attrs) (children : List InsertContent) :
    Res (Arena NodeData × Nat) :=
  let W := dom.fragment (writeContent (.element tag attrs children))
  match (W.arena.children W.root).head? with
  | none => .error .emptyTemplate
  | some c => cloneSubtree W.arena c A

mutual
/-- `create_insert_content`, lib.rs:826-845. -/
def createInsertContent (A : Arena NodeData) : InsertContent → Res (Arena NodeData × Nat)
  | .element tag attrs children =>
    match dom.createWithAttrs tag attrs with
    | .ok k =>
      let (A, n) := A.newNode ⟨k, .html⟩
      do
        let A ← appendContents A n children
        .ok (A, n)
    | .error _ => dom.viaHtml A tag attrs children
  | .text s => .ok (A.newNode ⟨.text s, .html⟩)
  | .comment s => .ok (A.newNode ⟨.comment s, .html⟩)
/-- The loops over the children, lib.rs:471-474 and 834-837. -/
def appendContents (A : Arena NodeData) (n : Nat) : List InsertContent → Res (Arena NodeData)
  | [] => .ok A
  | c :: cs => do
    let (A, m) ← createInsertContent A c
    let A ← Wasm.appendChild A n m
    appendContents A n cs
end

/-- Remove every name of `existing`, lib.rs:581-583. -/
def clearAttrs (ns : Ns) (attrs : Attrs) : Attrs :=
  (attrs.map fun kv => serName kv.1).eraseDups.foldl (fun acc n => removeAttribute ns n acc) attrs

/-- Attributes after `UpdateProps`, lib.rs:575-599; there is no fallback for rejected names. -/
def updateAttrs (ns : Ns) (old : Attrs) (changes : List PropChange) : Res Attrs :=
  changes.foldlM (fun acc c => match c.name with
    | .text => .ok acc
    | .attr q => dom.setAttribute ns (serName q) (match c.value with
      | some v => v
      | none => (Wasm.existing old (serName q)).getD []) acc) (clearAttrs ns old)

/-- `apply_patch`, lib.rs:387-669. Patches without names are applied as in `Wasm.applyPatch`. -/
def applyPatch (root : Nat) (A : Arena NodeData) (slots : Slots) :
    Patch → Res (Arena NodeData × Slots)
  | .setAttribute path name value => do
    let n ← Wasm.findNode root A slots path
    match A.data n with
    | ⟨.element tag attrs, ns⟩ => do
      let attrs ← dom.setAttribute ns (Wasm.domName name) value attrs
      .ok (A.setData n ⟨.element tag attrs, ns⟩, slots)
    | _ => .error .notAnElement
  | .removeAttribute path name => do
    let n ← Wasm.findNode root A slots path
    match A.data n with
    | ⟨.element tag attrs, ns⟩ =>
      .ok (A.setData n ⟨.element tag (removeAttribute ns (Wasm.domName name) attrs), ns⟩, slots)
    | _ => .error .notAnElement
  | .insertElement at_ tag attrs children slot => do
    let (p, pos) ← Wasm.insertParent root A slots at_
    let (A, n) ← dom.createInsertContent A (.element tag attrs children)
    Wasm.insertAtPosition A slots p n pos slot
  | .updateProps path changes => do
    let n ← Wasm.findNode root A slots path
    let A := match changes.find? (fun c => decide (c.name = .text)) with
      | some ⟨_, some t⟩ => Wasm.setTextContent A n t
      | _ => A
    match A.data n with
    | ⟨.element tag attrs, ns⟩ => do
      let attrs ← dom.updateAttrs ns attrs changes
      .ok (A.setData n ⟨.element tag attrs, ns⟩, slots)
    | _ => .ok (A, slots)
  | P => Wasm.applyPatch root A slots P

/-- `apply_patches_with_slots_on_root`, lib.rs:347-373: stops at the first error. -/
def applyLoop (root : Nat) (A : Arena NodeData) (slots : Slots) :
    List Patch → Res (Arena NodeData × Slots)
  | [] => .ok (A, slots)
  | p :: ps => do
    let (A, slots) ← dom.applyPatch root A slots p
    applyLoop root A slots ps

/-- `apply_patches`, lib.rs:127-141: start with empty slots. -/
def applyPatches (root : Nat) (A : Arena NodeData) (ps : List Patch) : Res (Arena NodeData) := do
  let (A, _) ← dom.applyLoop root A (fun _ => none) ps
  .ok A

end WebDom
end Hotmeal
