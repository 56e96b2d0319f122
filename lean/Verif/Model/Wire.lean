import Verif.Model.Basic

set_option autoImplicit false

/-!
# Strings that may be borrowed, and the wire form of names

`Patch<'a>` with `Stem<'a>` fields, its conversion to an owned patch (hotmeal/src/diff.rs:1915-2019), and
the proxies through which attribute names are serialized (hotmeal/src/diff.rs:20-77). The bytes
are in `Model/Postcard`. Here, a patch that was encoded and decoded is the patch with all names converted to
the proxy and back (`Patch.wire`); `C81_patches_arrive` shows that the bytes do the same.
-/

namespace Hotmeal

/-- `Stem`, hotmeal/src/stem.rs:17-20. Both variants hold a string; what differs is the lifetime. -/
inductive Stem
  | borrowed (s : Str)
  | owned (s : Str)
  deriving DecidableEq, Repr, Inhabited

namespace Stem

/-- `Stem::as_str`, stem.rs:27-32. -/
def asStr : Stem → Str
  | borrowed s => s
  | owned s => s

/-- `Stem::into_owned`, stem.rs:58-63. -/
def intoOwned : Stem → Stem
  | borrowed s => owned s
  | owned s => owned s

/-- `Stem::push_str`, stem.rs:42-51. -/
def pushStr : Stem → Str → Stem
  | owned e, s => owned (e ++ s)
  | borrowed b, s => owned (b ++ s)

/-- The stem borrows nothing, so it lives as long as one wishes (`Stem<'static>`). stem.rs:58-63. -/
def Owned : Stem → Prop
  | borrowed _ => False
  | owned _ => True

end Stem

/-- Attributes with stems: `Vec<AttrPair<'a>>`, diff.rs:79-85. -/
abbrev StemAttrs := List (QualName × Stem)

/-- `InsertContent<'a>`, diff.rs:194-206. -/
inductive StemContent
  | element (tag : Str) (attrs : StemAttrs) (children : List StemContent)
  | text (s : Stem)
  | comment (s : Stem)

/-- `PropChange<'a>`, diff.rs:211-217. -/
structure StemChange where
  name : PropKey
  value : Option Stem

/-- `Patch<'a>`, diff.rs:222-281. -/
inductive StemPatch
  | insertElement (at_ : Path) (tag : Str) (attrs : StemAttrs) (children : List StemContent)
      (detachToSlot : Option Nat)
  | insertText (at_ : Path) (text : Stem) (detachToSlot : Option Nat)
  | insertComment (at_ : Path) (text : Stem) (detachToSlot : Option Nat)
  | remove (node : Path)
  | setText (path : Path) (text : Stem)
  | setAttribute (path : Path) (name : QualName) (value : Stem)
  | removeAttribute (path : Path) (name : QualName)
  | move (from_ : Path) (to : Path) (detachToSlot : Option Nat)
  | updateProps (path : Path) (changes : List StemChange)
  | opaqueChanged (path : Path) (content : Stem)

/-- `AttrPair::into_owned` over a vector, diff.rs:1915-1923. -/
def StemAttrs.intoOwned (as : StemAttrs) : StemAttrs := as.map fun kv => (kv.1, kv.2.intoOwned)

mutual
/-- `InsertContent::into_owned`, diff.rs:1925-1942. -/
def StemContent.intoOwned : StemContent → StemContent
  | .element tag attrs children => .element tag (StemAttrs.intoOwned attrs) (intoOwnedL children)
  | .text s => .text s.intoOwned
  | .comment s => .comment s.intoOwned
/-- `children.into_iter().map(|c| c.into_owned()).collect()`, diff.rs:1936. -/
def StemContent.intoOwnedL : List StemContent → List StemContent
  | [] => []
  | c :: cs => c.intoOwned :: intoOwnedL cs
end

/-- `PropChange::into_owned`, diff.rs:1944-1952. -/
def StemChange.intoOwned (c : StemChange) : StemChange := ⟨c.name, c.value.map Stem.intoOwned⟩

/-- `Patch::into_owned`, diff.rs:1954-2019. -/
def StemPatch.intoOwned : StemPatch → StemPatch
  | .insertElement at_ tag attrs children slot =>
    .insertElement at_ tag (StemAttrs.intoOwned attrs) (StemContent.intoOwnedL children) slot
  | .insertText at_ text slot => .insertText at_ text.intoOwned slot
  | .insertComment at_ text slot => .insertComment at_ text.intoOwned slot
  | .remove node => .remove node
  | .setText path text => .setText path text.intoOwned
  | .setAttribute path name value => .setAttribute path name value.intoOwned
  | .removeAttribute path name => .removeAttribute path name
  | .move from_ to slot => .move from_ to slot
  | .updateProps path changes => .updateProps path (changes.map StemChange.intoOwned)
  | .opaqueChanged path content => .opaqueChanged path content.intoOwned

/-- `QualNameProxy`, diff.rs:44-49. -/
structure QualNameProxy where
  prefix_ : Option Str
  ns : Str
  loc : Str
  deriving DecidableEq, Repr

/-- `From<&QualName> for QualNameProxy`, diff.rs:63-77. -/
def QualName.toProxy (q : QualName) : QualNameProxy :=
  ⟨q.prefix_.filter (fun s => !s.isEmpty), q.ns, q.loc⟩

/-- `From<QualNameProxy> for QualName`, diff.rs:51-61. -/
def QualNameProxy.toName (p : QualNameProxy) : QualName :=
  ⟨p.prefix_.filter (fun s => !s.isEmpty), p.ns, p.loc⟩

/-- A name that was serialized and read back. diff.rs:43-77. -/
def QualName.wire (q : QualName) : QualName := q.toProxy.toName

/-- The names of attributes, serialized and read back: `#[facet(opaque, proxy = QualNameProxy)]`,
diff.rs:82. -/
def Attrs.wire (as : Attrs) : Attrs := as.map fun kv => (kv.1.wire, kv.2)

/-- `PropKey` serialized and read back, diff.rs:100-107. -/
def PropKey.wire : PropKey → PropKey
  | .text => .text
  | .attr q => .attr q.wire

mutual
/-- `InsertContent` serialized and read back. Tags go through `LocalNameProxy` (diff.rs:24-40),
which keeps the string. -/
def InsertContent.wire : InsertContent → InsertContent
  | .element tag attrs children => .element tag attrs.wire (wireL children)
  | .text s => .text s
  | .comment s => .comment s
/-- `InsertContent.wire` for every element of a list. diff.rs:189-202. -/
def InsertContent.wireL : List InsertContent → List InsertContent
  | [] => []
  | c :: cs => c.wire :: wireL cs
end

/-- `Patch` serialized and read back, diff.rs:219-281. -/
def Patch.wire : Patch → Patch
  | .insertElement at_ tag attrs children slot =>
    .insertElement at_ tag attrs.wire (InsertContent.wireL children) slot
  | .setAttribute path name value => .setAttribute path name.wire value
  | .removeAttribute path name => .removeAttribute path name.wire
  | .updateProps path changes => .updateProps path (changes.map fun c => ⟨c.name.wire, c.value⟩)
  | p => p

end Hotmeal
