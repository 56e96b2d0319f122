/-!
# Basic types

Data types of the model: strings, names, attributes, node kinds, patches, errors.
-/

namespace Hotmeal

/-- A string is the list of its Unicode scalar values.
Models `Stem` (hotmeal/src/stem.rs), whose `Eq`/`Hash` compare `as_str()` only, and
`LocalName`/`Prefix` atoms, which compare as strings. -/
abbrev Str := List Char

/-- `to_ascii_lowercase` on one character. Used at dom.rs:1106, hotmeal-server/src/lib.rs:236. -/
def lowerAscii (c : Char) : Char :=
  if 65 ≤ c.toNat ∧ c.toNat ≤ 90 then Char.ofNat (c.toNat + 32) else c

/-- `Namespace`, hotmeal/src/dom.rs:986-991. -/
inductive Ns
  | html | svg | mathml
  deriving DecidableEq, Repr, Inhabited

/-- `html5ever::QualName`: prefix, namespace URL, local name. Imported at hotmeal/src/diff.rs:16, dom.rs:11. -/
structure QualName where
  prefix_ : Option Str
  ns : Str
  loc : Str
  deriving DecidableEq, Repr, Inhabited

/-- The attribute vector `Vec<(QualName, Stem)>`, hotmeal/src/dom.rs:985 and
hotmeal/src/diff.rs:412. -/
abbrev Attrs := List (QualName × Str)

/-- `NodeKind` with `ElementData` inlined, hotmeal/src/dom.rs:964-986. -/
inductive NodeKind
  | document
  | element (tag : Str) (attrs : Attrs)
  | text (s : Str)
  | comment (s : Str)
  deriving DecidableEq, Repr, Inhabited

/-- `NodeData` of a document arena, hotmeal/src/dom.rs:957-961. -/
structure NodeData where
  kind : NodeKind
  ns : Ns
  deriving DecidableEq, Repr, Inhabited

/-- `HtmlNodeKind`, hotmeal/src/diff.rs:382-390. -/
inductive HKind
  | element (tag : Str) (ns : Ns)
  | text
  | comment
  deriving DecidableEq, Repr, Inhabited

/-- `NodeData<HtmlTreeTypes>` of a cinereus tree, cinereus/src/tree.rs:293-306.
The hash field is not stored: it is always a function of the subtree
(see `DiffTree.ofArena`). -/
structure TData where
  kind : HKind
  props : Attrs
  text : Option Str
  deriving DecidableEq, Repr, Inhabited

/-- `PropKey`, hotmeal/src/diff.rs:102-107. -/
inductive PropKey
  | text
  | attr (name : QualName)
  deriving DecidableEq, Repr, Inhabited

/-- `PropValue`, cinereus/src/tree.rs:168-173. -/
inductive PropValue
  | same
  | different (v : Str)
  deriving DecidableEq, Repr, Inhabited

/-- `PropertyInFinalState`, cinereus/src/tree.rs:178-184. -/
structure PropFinal where
  key : PropKey
  value : PropValue
  deriving DecidableEq, Repr, Inhabited

/-- `InsertContent`, hotmeal/src/diff.rs:194-206. `AttrPair` is the pair (name, value). -/
inductive InsertContent
  | element (tag : Str) (attrs : Attrs) (children : List InsertContent)
  | text (s : Str)
  | comment (s : Str)
  deriving Repr, Inhabited

/-- `PropChange`, hotmeal/src/diff.rs:206-214. -/
structure PropChange where
  name : PropKey
  value : Option Str
  deriving DecidableEq, Repr, Inhabited

/-- `NodePath`/`NodeRef`, hotmeal/src/diff.rs:160 and 184. `u32` entries are naturals. -/
abbrev Path := List Nat

/-- `Patch`, hotmeal/src/diff.rs:222-281. -/
inductive Patch
  | insertElement (at_ : Path) (tag : Str) (attrs : Attrs) (children : List InsertContent)
      (detachToSlot : Option Nat)
  | insertText (at_ : Path) (text : Str) (detachToSlot : Option Nat)
  | insertComment (at_ : Path) (text : Str) (detachToSlot : Option Nat)
  | remove (node : Path)
  | setText (path : Path) (text : Str)
  | setAttribute (path : Path) (name : QualName) (value : Str)
  | removeAttribute (path : Path) (name : QualName)
  | move (from_ : Path) (to : Path) (detachToSlot : Option Nat)
  | updateProps (path : Path) (changes : List PropChange)
  | opaqueChanged (path : Path) (content : Str)
  deriving Repr, Inhabited

/-- The `DiffError` values that the modelled code can return (hotmeal/src/diff.rs:127-151),
plus `panic` for a Rust panic (`expect`, an `indextree` precondition), `hierarchy` and `invalidName`
for the `HierarchyRequestError` and `InvalidCharacterError` of the browser DOM, and `emptyTemplate`
for the error of `create_element_via_html` (hotmeal-wasm/src/lib.rs:777-780), and `noMount` for the
"mount point not found" of `resolve_mount_point` (hotmeal-wasm/src/lib.rs:340-344). -/
inductive Err
  | noBody
  | emptyPath
  | slotNotFound (slot : Nat)
  | pathOutOfBounds (index : Nat)
  | notATextNode
  | notAnElement
  | panic
  | hierarchy
  | invalidName
  | emptyTemplate
  | noMount
  deriving DecidableEq, Repr, Inhabited

/-- Result of a fallible operation. As `Result<_, DiffError>`, diff.rs:127-156, or a panic. -/
abbrev Res (α : Type) := Except Err α

end Hotmeal
