import Verif.Model.WebDom
import Verif.Model.Diff
import Verif.Model.Wire

set_option autoImplicit false

/-!
# Mount points (hotmeal-wasm/src/lib.rs)

Patches can be applied to an element of the page that is named by a CSS selector, instead of the body.
-/

namespace Hotmeal
namespace Mount

/-- A CSS selector, as the set of elements it matches in a page. Parsing of the selector, and with it
the error for an invalid selector (lib.rs:340-341), is not modelled. -/
abbrev Selector := Arena NodeData → Nat → Bool

/-- `dyn_ref::<Element>().is_some()`. hotmeal-wasm/src/lib.rs:465. -/
def isElement (E : Arena NodeData) (n : Nat) : Bool := match (E.data n).kind with
  | .element _ _ => true
  | _ => false

/-- The tag of an element. What `body()` at lib.rs:335 looks at. -/
def tagOf (E : Arena NodeData) (n : Nat) : Option Str := match (E.data n).kind with
  | .element tag _ => some tag
  | _ => none

/-- `Document.querySelector`: the first element of the document, in tree order, that matches. Used at lib.rs:340. -/
def querySelector (E : Arena NodeData) (doc : Nat) (sel : Selector) : Option Nat :=
  (E.descendants doc).find? fun n => isElement E n && sel E n

/-- `Document.body`: the first `body` or `frameset` child of the document element, if that is an `html`
element. Simplification: namespaces are not looked at. Used at lib.rs:137 and 335. -/
def documentBody (E : Arena NodeData) (doc : Nat) : Option Nat := do
  let html ← (E.children doc).find? (isElement E)
  if tagOf E html = some "html".toList then
    (E.children html).find? fun n =>
      decide (tagOf E n = some "body".toList ∨ tagOf E n = some "frameset".toList)
  else none

/-- The selector argument: `"body"` is treated separately from all others. lib.rs:333. -/
inductive Target
  | body
  | css (sel : Selector)

/-- `resolve_mount_point`, lib.rs:331-345. `doc` is the document node of the page. -/
def resolveMountPoint (E : Arena NodeData) (doc : Nat) : Target → Res Nat
  | .body => match documentBody E doc with
    | some b => .ok b
    | none => .error .noBody
  | .css sel => match querySelector E doc sel with
    | some n => .ok n
    | none => .error .noMount

/-- `apply_patches_on` and `apply_patches_with_slots_on`, lib.rs:155-170, with no slots from before. The
number of patches, which the code returns, is left out. -/
def applyPatchesOn (dom : WebDom) (E : Arena NodeData) (doc : Nat) (sel : Target) (ps : List Patch) :
    Res (Arena NodeData) := do
  let root ← resolveMountPoint E doc sel
  dom.applyPatches root E ps

/-- A page that is kept up to date through `apply_patches_postcard_on` (lib.rs:172-181): for each
version after the first one the patches from the version before it arrive and are applied. Of the
encoding only the conversion of names is modelled (`Patch.wire`). -/
def updatesOn {H : Type} [DecidableEq H] (dom : WebDom) (hashNode : HKind → Option Str → List H → H)
    (doc : Nat) (sel : Target) : Arena NodeData → Document → List Document → Res (Arena NodeData)
  | E, _, [] => .ok E
  | E, old, new :: rest => do
    let ps ← diff hashNode old new
    let E ← applyPatchesOn dom E doc sel (ps.map Patch.wire)
    updatesOn dom hashNode doc sel E new rest

/-! ### Some selectors -/

/-- The value of an attribute, by the name it is written with. For selectors given at lib.rs:340. -/
def attrValue (E : Arena NodeData) (n : Nat) (name : Str) : Option Str := match (E.data n).kind with
  | .element _ attrs => (attrs.find? fun kv => serName kv.1 == name).map (·.2)
  | _ => none

/-- The words of a `class` attribute. For selectors given at lib.rs:340. -/
def words (s : Str) : List Str :=
  s.splitOnP fun c => c == ' ' || c == '\n' || c == '\t' || c == '\x0c' || c == '\r'

/-- A part of the CSS selector language. Names are matched exactly as they are written.
For selectors given at lib.rs:340. -/
inductive Css
  /-- `*` -/
  | any
  /-- `div` -/
  | type (tag : Str)
  /-- `#app` -/
  | id (s : Str)
  /-- `.content` -/
  | cls (s : Str)
  /-- `[name]` -/
  | has (name : Str)
  /-- `[name="value"]` -/
  | attr (name value : Str)
  /-- `div.content` -/
  | both (a b : Css)
  /-- `a, b` -/
  | either (a b : Css)
  /-- `a > b` -/
  | child (a b : Css)
  /-- `a b` -/
  | inside (a b : Css)

/-- Selectors 4, for the part of the language above. For selectors given at lib.rs:340. -/
def Css.matches : Css → Selector
  | .any, E, n => isElement E n
  | .type tag, E, n => decide (tagOf E n = some tag)
  | .id s, E, n => decide (attrValue E n "id".toList = some s)
  | .cls s, E, n => match attrValue E n "class".toList with
    | some v => (words v).contains s
    | none => false
  | .has name, E, n => (attrValue E n name).isSome
  | .attr name value, E, n => decide (attrValue E n name = some value)
  | .both a b, E, n => a.matches E n && b.matches E n
  | .either a b, E, n => a.matches E n || b.matches E n
  | .child a b, E, n => b.matches E n && match E.parent n with
    | some p => a.matches E p
    | none => false
  | .inside a b, E, n => b.matches E n && (List.range E.next).any fun x =>
      x != n && E.isAncestorOrSelf x E.next n && a.matches E x

end Mount
end Hotmeal
