import Verif.Model.Dom

/-!
# The browser client (hotmeal-wasm/src/lib.rs)

The DOM of the page is modelled by the same arena as the library's document: a node has a kind, a
parent and an ordered child list. The DOM operations used by the client (`childNodes`,
`parentNode`, `appendChild`, `replaceChild`, `createElement`, `createTextNode`, `createComment`,
`textContent`, `setAttribute`, `removeAttribute`) are modelled after the DOM standard.

The name of an attribute in the page is the written name (`serName`) of the `QualName` it is stored
under. An attribute that is set by the client is stored without prefix and namespace.

Simplifications: element and attribute names are assumed to be accepted by `createElement` and
`setAttribute` unchanged, so neither the fallback through `innerHTML` (lib.rs:739-823) nor the
lower-casing of names that the DOM does for HTML elements is modelled in this file; both are in
`Verif/Model/WebDom.lean`. Events, logging and error texts are not modelled; an error is reported as
the corresponding `Err`.
-/

namespace Hotmeal
namespace Wasm

/-- `get_slot_root`, lib.rs:376-385: slot 0 is always the root. -/
def view (root : Nat) (slots : Slots) : Slots := Arena.upd slots 0 (some root)

/-- `find_node`, lib.rs:861-890; `navigate_within_node`, lib.rs:848-857, is the same loop. -/
def findNode (root : Nat) (A : Arena NodeData) (slots : Slots) (path : Path) : Res Nat :=
  navigate A (view root slots) path

/-- `dyn_ref::<Element>()`. lib.rs:465 and 575. -/
def asElement (A : Arena NodeData) (n : Nat) : Res Nat :=
  match (A.data n).kind with
  | .element _ _ => .ok n
  | _ => .error .notAnElement

/-- `Node.appendChild`: fails when `c` contains `p`. Used at lib.rs:473 and 713-715. -/
def appendChild (A : Arena NodeData) (p c : Nat) : Res (Arena NodeData) :=
  if A.isAncestorOrSelf c A.next p then .error .hierarchy else .ok (A.appendRaw p c)

/-- `p.replaceChild(new, occ)` for a child `occ` of `p`: fails when `new` contains `p`.
Used at lib.rs:426, 436, 619 and 700. -/
def replaceChild (A : Arena NodeData) (p new occ : Nat) : Res (Arena NodeData) :=
  if A.isAncestorOrSelf new A.next p then .error .hierarchy
  else if new = occ then .ok A
  else do
    let A ← A.insertBefore occ new
    .ok (A.detach occ)

/-- Replace a node by an empty text node if it has a parent, lib.rs:424-427, 434-437, 617-620. -/
def replaceByEmpty (A : Arena NodeData) (n : Nat) : Res (Arena NodeData) :=
  match A.parent n with
  | none => .ok A
  | some p =>
    let (A, e) := A.newNode Document.emptyText
    replaceChild A p e n

/-- `insert_at_position`, lib.rs:673-719. -/
def insertAtPosition (A : Arena NodeData) (slots : Slots) (p n pos : Nat) (slot : Option Nat) :
    Res (Arena NodeData × Slots) :=
  match (A.children p)[pos]? with
  | some occ => do
    let A ← replaceChild A p n occ
    .ok (A, match slot with
      | none => slots
      | some s => Arena.upd slots s (some occ))
  | none => do
    let A := fillGaps A p (pos - (A.children p).length)
    let A ← appendChild A p n
    .ok (A, slots)

/-- The parent lookup of the insert patches, lib.rs:448-467, 495-514, 533-552. -/
def insertParent (root : Nat) (A : Arena NodeData) (slots : Slots) (path : Path) :
    Res (Nat × Nat) :=
  if path.length < 2 then .error .emptyPath
  else
    match path.getLast? with
    | none => .error .emptyPath
    | some pos => do
      let p ← findNode root A slots path.dropLast
      let p ← asElement A p
      .ok (p, pos)

/-- The attribute name passed to the DOM, lib.rs:402-405, 411-414 and 730-733: an empty prefix is
left out. -/
def domName (q : QualName) : Str := match q.prefix_ with
  | none => q.loc
  | some p => if p = [] then q.loc else p ++ ':' :: q.loc

/-- `Element.setAttribute`: changes the value of the attribute with the given name or adds one.
Used at lib.rs:406, 596 and 734. -/
def setAttribute (name value : Str) : Attrs → Attrs
  | [] => [(⟨none, [], name⟩, value)]
  | (k, v) :: rest =>
    if serName k = name then (k, value) :: rest else (k, v) :: setAttribute name value rest

/-- `Element.removeAttribute`: removes the first attribute with the given name. Used at lib.rs:415 and 582. -/
def removeAttribute (name : Str) (attrs : Attrs) : Attrs :=
  attrs.eraseP fun kv => decide (serName kv.1 = name)

/-- `set_attribute` for each attribute, lib.rs:728-736. -/
def setAttrs (attrs : Attrs) : Attrs :=
  attrs.foldl (fun acc kv => setAttribute (domName kv.1) kv.2 acc) []

mutual
/-- `create_insert_content`, lib.rs:826-845. -/
def createInsertContent (A : Arena NodeData) : InsertContent → Res (Arena NodeData × Nat)
  | .element tag attrs children =>
    let (A, n) := A.newNode ⟨.element tag (setAttrs attrs), .html⟩
    do
      let A ← appendContents A n children
      .ok (A, n)
  | .text s => .ok (A.newNode ⟨.text s, .html⟩)
  | .comment s => .ok (A.newNode ⟨.comment s, .html⟩)
/-- The loops over the children, lib.rs:471-474 and 834-837. -/
def appendContents (A : Arena NodeData) (n : Nat) : List InsertContent → Res (Arena NodeData)
  | [] => .ok A
  | c :: cs => do
    let (A, m) ← createInsertContent A c
    let A ← appendChild A n m
    appendContents A n cs
end

/-- `node.textContent = s`: the text of a text or comment node; for an element, its children are
replaced by one text node, or by nothing when `s` is empty. Used at lib.rs:397 and 572. -/
def setTextContent (A : Arena NodeData) (n : Nat) (s : Str) : Arena NodeData :=
  match A.data n with
  | ⟨.text _, ns⟩ => A.setData n ⟨.text s, ns⟩
  | ⟨.comment _, ns⟩ => A.setData n ⟨.comment s, ns⟩
  | ⟨.element _ _, _⟩ =>
    let A := detachAll A (A.children n)
    if s = [] then A else (A.addChild n ⟨.text s, .html⟩).1
  | ⟨.document, _⟩ => A

/-- The map `existing`, lib.rs:576-579: of two attributes with the same name the last one counts. -/
def existing (attrs : Attrs) (name : Str) : Option Str :=
  (attrs.reverse.find? fun kv => decide (serName kv.1 = name)).map Prod.snd

/-- Remove every name of `existing`, lib.rs:581-583. The code removes the names in the order of a
hash map, which makes no difference. -/
def clearAttrs (attrs : Attrs) : Attrs :=
  (attrs.map fun kv => serName kv.1).eraseDups.foldl (fun acc n => removeAttribute n acc) attrs

/-- Attributes after `UpdateProps`, lib.rs:575-599: all attributes are removed, then one is set for
each change. Unlike elsewhere, an empty prefix is written here. -/
def updateAttrs (old : Attrs) (changes : List PropChange) : Attrs :=
  changes.foldl (fun acc c => match c.name with
    | .text => acc
    | .attr q => setAttribute (serName q) (match c.value with
      | some v => v
      | none => (existing old (serName q)).getD []) acc) (clearAttrs old)

/-- `apply_patch`, lib.rs:387-669. -/
def applyPatch (root : Nat) (A : Arena NodeData) (slots : Slots) :
    Patch → Res (Arena NodeData × Slots)
  | .setText path s => do
    let n ← findNode root A slots path
    .ok (setTextContent A n s, slots)
  | .setAttribute path name value => do
    let n ← findNode root A slots path
    match A.data n with
    | ⟨.element tag attrs, ns⟩ =>
      .ok (A.setData n ⟨.element tag (setAttribute (domName name) value attrs), ns⟩, slots)
    | _ => .error .notAnElement
  | .removeAttribute path name => do
    let n ← findNode root A slots path
    match A.data n with
    | ⟨.element tag attrs, ns⟩ =>
      .ok (A.setData n ⟨.element tag (removeAttribute (domName name) attrs), ns⟩, slots)
    | _ => .error .notAnElement
  | .remove path =>
    match path with
    | [] => .error .panic
    | [s] =>
      if s = 0 then do
        let A ← replaceByEmpty A root
        .ok (A, slots)
      else .ok (A, Arena.upd slots s none)
    | s :: i :: is => do
      let n ← findNode root A slots (s :: i :: is)
      let A ← replaceByEmpty A n
      .ok (A, slots)
  | .insertElement at_ tag attrs children slot => do
    let (p, pos) ← insertParent root A slots at_
    let (A, n) ← createInsertContent A (.element tag attrs children)
    insertAtPosition A slots p n pos slot
  | .insertText at_ s slot => do
    let (p, pos) ← insertParent root A slots at_
    let (A, n) := A.newNode ⟨.text s, .html⟩
    insertAtPosition A slots p n pos slot
  | .insertComment at_ s slot => do
    let (p, pos) ← insertParent root A slots at_
    let (A, n) := A.newNode ⟨.comment s, .html⟩
    insertAtPosition A slots p n pos slot
  | .updateProps path changes => do
    let n ← findNode root A slots path
    let A := match changes.find? (fun c => decide (c.name = .text)) with
      | some ⟨_, some t⟩ => setTextContent A n t
      | _ => A
    match A.data n with
    | ⟨.element tag attrs, ns⟩ =>
      .ok (A.setData n ⟨.element tag (updateAttrs attrs changes), ns⟩, slots)
    | _ => .ok (A, slots)
  | .move from_ to slot => do
    let (n, A, slots) ← match from_ with
      | [s] => match slots s with
        | none => .error (.slotNotFound s)
        | some n => .ok (n, A, Arena.upd slots s none)
      | _ => do
        let n ← findNode root A slots from_
        let A ← replaceByEmpty A n
        .ok (n, A, slots)
    let (p, pos) ← insertParent root A slots to
    insertAtPosition A slots p n pos slot
  | .opaqueChanged path _ => do
    let n ← findNode root A slots path
    let _ ← asElement A n
    .ok (A, slots)

/-- `apply_patches_with_slots_on_root`, lib.rs:347-373: stops at the first error. -/
def applyLoop (root : Nat) (A : Arena NodeData) (slots : Slots) :
    List Patch → Res (Arena NodeData × Slots)
  | [] => .ok (A, slots)
  | p :: ps => do
    let (A, slots) ← applyPatch root A slots p
    applyLoop root A slots ps

/-- `apply_patches`, lib.rs:127-141: start with empty slots. -/
def applyPatches (root : Nat) (A : Arena NodeData) (ps : List Patch) : Res (Arena NodeData) := do
  let (A, _) ← applyLoop root A (fun _ => none) ps
  .ok A

end Wasm
end Hotmeal
