import Verif.Model.Arena

/-!
# Document, patch application and serialization (hotmeal/src/dom.rs)
-/

namespace Hotmeal

/-- `Document`, dom.rs:35-48. The list of parse errors is not modelled. -/
structure Document where
  arena : Arena NodeData
  root : Nat
  doctype : Option Str

/-! ## Serialization -/

/-- Text escaping, dom.rs:833-839. -/
def escTextChar (c : Char) : Str :=
  if c = '&' then "&amp;".toList else if c = '<' then "&lt;".toList else [c]

/-- Text escaping of a whole string, dom.rs:833-839. -/
def escText (s : Str) : Str := s.flatMap escTextChar

/-- Attribute value escaping, dom.rs:868-876. -/
def escAttrChar (c : Char) : Str :=
  if c = '&' then "&amp;".toList
  else if c = '"' then "&quot;".toList
  else if c = '<' then "&lt;".toList
  else if c = '>' then "&gt;".toList
  else [c]

/-- Attribute value escaping of a whole string, dom.rs:868-876. -/
def escAttr (s : Str) : Str := s.flatMap escAttrChar

/-- `QualName` as written in a start tag, dom.rs:860-865. -/
def serName (q : QualName) : Str :=
  (match q.prefix_ with
   | none => []
   | some p => p ++ [':']) ++ q.loc

/-- Attributes of a start tag, dom.rs:857-878. -/
def serAttrs (attrs : Attrs) : Str :=
  attrs.flatMap fun kv => ' ' :: (serName kv.1 ++ '=' :: '"' :: (escAttr kv.2 ++ ['"']))

/-- `is_void_element`, dom.rs:925-943. -/
def isVoid (tag : Str) : Bool :=
  ["area".toList, "base".toList, "br".toList, "col".toList, "embed".toList, "hr".toList,
   "img".toList, "input".toList, "link".toList, "meta".toList, "param".toList,
   "source".toList, "track".toList, "wbr".toList].contains tag

/-- `is_raw_text_element`, dom.rs:951-953. -/
def isRawText (tag : Str) : Bool :=
  ["script".toList, "style".toList, "noscript".toList].contains tag

/-- One step of `serialize_node` / `serialize_node_raw` / `serialize_element`, dom.rs:822-921,
given the serializers of the children. The flag says whether text is written raw. -/
def serKind (k : NodeKind) (rs : List (Bool → Str)) (raw : Bool) : Str :=
  match k with
  | .document => []
  | .text s => if raw then s else escText s
  | .comment s => "<!--".toList ++ s ++ "-->".toList
  | .element tag attrs =>
    '<' :: tag ++ serAttrs attrs ++ ['>'] ++
      (if isVoid tag then []
       else (rs.map (fun r => r (isRawText tag))).flatten ++ "</".toList ++ tag ++ ['>'])

/-- `serialize_node` (`raw = false`) and `serialize_node_raw` (`raw = true`), dom.rs:822-921. -/
def serialize (A : Arena NodeData) (n : Nat) (raw : Bool) : Str :=
  A.fold (fun n rs => serKind (A.data n).kind rs) n raw

/-- `serialize_inner_html`, dom.rs:403-409. -/
def serializeInner (A : Arena NodeData) (n : Nat) : Str :=
  (A.children n).flatMap fun c => serialize A c false

namespace Document

/-- Is the node an element with this tag? As at dom.rs:180-184. -/
def hasTag (D : Document) (tag : Str) (n : Nat) : Bool :=
  match (D.arena.data n).kind with
  | .element t _ => t == tag
  | _ => false

/-- `Document::body`, dom.rs:178-186. -/
def body (D : Document) : Option Nat :=
  (D.arena.children D.root).find? (D.hasTag "body".toList)

/-- `Document::head`, dom.rs:189-197. -/
def head (D : Document) : Option Nat :=
  (D.arena.children D.root).find? (D.hasTag "head".toList)

/-- An empty element. As at dom.rs:208-214. -/
def elem (tag : Str) : NodeData := ⟨.element tag [], .html⟩

/-- The empty text node used as placeholder, dom.rs:554-557 and others. -/
def emptyText : NodeData := ⟨.text [], .html⟩

/-- `ensure_body`, dom.rs:201-217. -/
def ensureBody (D : Document) : Document × Nat :=
  match D.body with
  | some b => (D, b)
  | none =>
    let (A, b) := D.arena.addChild D.root (elem "body".toList)
    ({ D with arena := A }, b)

/-- `Document::new`, dom.rs:51-89. -/
def new : Document :=
  let A : Arena NodeData := ⟨0, fun _ => none, fun _ => [], fun _ => default⟩
  let (A, html) := A.newNode (elem "html".toList)
  let (A, _) := A.addChild html (elem "head".toList)
  let (A, _) := A.addChild html (elem "body".toList)
  ⟨A, html, none⟩

/-- `to_html`, dom.rs:370-379. -/
def toHtml (D : Document) : Str :=
  (match D.doctype with
   | none => []
   | some d => "<!DOCTYPE ".toList ++ d ++ ['>']) ++ serialize D.arena D.root false

/-- `to_html_without_doctype`, dom.rs:383-387. -/
def toHtmlWithoutDoctype (D : Document) : Str := serialize D.arena D.root false

/-- `to_body_html`, dom.rs:391-400. -/
def toBodyHtml (D : Document) : Str :=
  match D.body with
  | none => []
  | some b => serializeInner D.arena b

/-! ## Element API -/

/-- `set_attr` on an attribute list, dom.rs:273-277 and 576-583. -/
def setAttrList (name : QualName) (value : Str) : Attrs → Attrs
  | [] => [(name, value)]
  | (k, v) :: rest => if k = name then (k, value) :: rest else (k, v) :: setAttrList name value rest

/-- `remove_attr` on an attribute list, dom.rs:284 and 592. -/
def removeAttrList (name : QualName) (a : Attrs) : Attrs := a.filter fun kv => kv.1 ≠ name

/-- `set_attr`, dom.rs:269-279. -/
def setAttr (D : Document) (n : Nat) (name : QualName) (value : Str) : Document :=
  match D.arena.data n with
  | ⟨.element tag attrs, ns⟩ =>
    { D with arena := D.arena.setData n ⟨.element tag (setAttrList name value attrs), ns⟩ }
  | _ => D

/-- `remove_attr`, dom.rs:282-286. -/
def removeAttr (D : Document) (n : Nat) (name : QualName) : Document :=
  match D.arena.data n with
  | ⟨.element tag attrs, ns⟩ =>
    { D with arena := D.arena.setData n ⟨.element tag (removeAttrList name attrs), ns⟩ }
  | _ => D

/-- `set_text`, dom.rs:289-293: text nodes only. -/
def setTextApi (D : Document) (n : Nat) (s : Str) : Document :=
  match D.arena.data n with
  | ⟨.text _, ns⟩ => { D with arena := D.arena.setData n ⟨.text s, ns⟩ }
  | _ => D

end Document

/-! ## Patch application -/

/-- The slot map `HashMap<u32, NodeId>`. dom.rs:464 and 477. -/
abbrev Slots := Nat → Option Nat

/-- The `for &idx in &path[1..]` loop, dom.rs:426-433. -/
def navLoop (A : Arena NodeData) : Nat → List Nat → Res Nat
  | cur, [] => .ok cur
  | cur, i :: is => match (A.children cur)[i]? with
    | none => .error (.pathOutOfBounds i)
    | some c => navLoop A c is

/-- `navigate_slot_path`, dom.rs:413-436. -/
def navigate (A : Arena NodeData) (slots : Slots) : Path → Res Nat
  | [] => .error .emptyPath
  | s :: rest => match slots s with
    | none => .error (.slotNotFound s)
    | some r => navLoop A r rest

/-- `get_slot_parent`, dom.rs:440-454. -/
def slotParent (A : Arena NodeData) (slots : Slots) (path : Path) : Res (Nat × Nat) :=
  if path.length < 2 then .error .emptyPath
  else
    match path.getLast? with
    | none => .error .emptyPath
    | some pos => do
      let p ← navigate A slots path.dropLast
      .ok (p, pos)

/-- Append `k` empty text nodes, dom.rs:762-769. -/
def fillGaps (A : Arena NodeData) (p : Nat) : Nat → Arena NodeData
  | 0 => A
  | k + 1 => fillGaps (A.addChild p Document.emptyText).1 p k

/-- `Document::insert_at_position`, dom.rs:742-780. -/
def insertAtPosition (A : Arena NodeData) (p pos n : Nat) : Res (Arena NodeData) :=
  let A := fillGaps A p (pos - (A.children p).length)
  match (A.children p)[pos]? with
  | none => A.append p n
  | some sib => A.insertBefore sib n

/-- Displacement part of `insert_at`, dom.rs:717-733. -/
def displace (A : Arena NodeData) (slots : Slots) (p pos : Nat) (slot : Option Nat) :
    Arena NodeData × Slots :=
  match slot with
  | none => (A, slots)
  | some s => match (A.children p)[pos]? with
    | none => (A, slots)
    | some d => (A.detach d, Arena.upd slots s (some d))

/-- `Document::insert_at`, dom.rs:702-740. -/
def insertAt (A : Arena NodeData) (slots : Slots) (at_ : Path) (n : Nat) (slot : Option Nat) :
    Res (Arena NodeData × Slots) := do
  let (p, pos) ← slotParent A slots at_
  let (A, slots) := displace A slots p pos slot
  let A ← insertAtPosition A p pos n
  .ok (A, slots)

mutual
/-- `Document::create_insert_content`, dom.rs:782-820. -/
def createInsertContent (A : Arena NodeData) : InsertContent → Res (Arena NodeData × Nat)
  | .element tag attrs children =>
    let (A, n) := A.newNode ⟨.element tag attrs, .html⟩
    do
      let A ← appendInsertContents A n children
      .ok (A, n)
  | .text s => .ok (A.newNode ⟨.text s, .html⟩)
  | .comment s => .ok (A.newNode ⟨.comment s, .html⟩)
/-- The loop appending created children, dom.rs:520-523 and 800-803. -/
def appendInsertContents (A : Arena NodeData) (n : Nat) : List InsertContent →
    Res (Arena NodeData)
  | [] => .ok A
  | c :: cs => do
    let (A, m) ← createInsertContent A c
    let A ← A.append n m
    appendInsertContents A n cs
end

/-- `clone_subtree_from`, dom.rs:327-357: copies the subtree of `n` in `src` into `A`. -/
def cloneSubtree (src : Arena NodeData) (n : Nat) :
    Arena NodeData → Res (Arena NodeData × Nat) :=
  src.fold (β := Arena NodeData → Res (Arena NodeData × Nat)) (fun n rs A =>
    let (A, m) := A.newNode (src.data n)
    do
      let A ← rs.foldlM (fun A r => do
        let (A, c) ← r A
        A.append m c) A
      .ok (A, m)) n

/-- Attribute rebuild of `UpdateProps`, dom.rs:640-672. -/
def rebuildAttrs (old : Attrs) (changes : List PropChange) : Attrs :=
  changes.filterMap fun c => match c.name with
    | .text => none
    | .attr q => some (q, match c.value with
      | some v => v
      | none => ((old.find? (fun kv => kv.1 = q)).map Prod.snd).getD [])

/-- The new text of a text/comment node under `UpdateProps`, dom.rs:626-637. -/
def updText (old : Str) (changes : List PropChange) : Str :=
  match changes.find? (fun c => decide (c.name = .text)) with
  | some ⟨_, some t⟩ => t
  | _ => old

/-- Detach every node of a list, dom.rs:681-683. -/
def detachAll (A : Arena NodeData) (ns : List Nat) : Arena NodeData := ns.foldl Arena.detach A

/-- The nodes that `OpaqueChanged` copies: the children of the first child of the body of the
parsed wrapper, dom.rs:684-700. -/
def wrapperChildren (W : Document) : List Nat :=
  match W.body with
  | none => []
  | some b => match (W.arena.children b).head? with
    | none => []
    | some d => W.arena.children d

/-- The wrapper text of `OpaqueChanged`, dom.rs:686-687. -/
def opaqueWrapper (content : Str) : Str :=
  "<html><body><div>".toList ++ content ++ "</div></body></html>".toList

/-- Replace a node by a fresh empty text node: `insert_before(empty)` then `detach`,
dom.rs:558-559 and 612-613. -/
def replaceByEmpty (A : Arena NodeData) (n : Nat) : Res (Arena NodeData) := do
  let (A, e) := A.newNode Document.emptyText
  let A ← A.insertBefore n e
  .ok (A.detach n)

/-- `Document::apply_patch`, dom.rs:493-700. `parse` is the HTML parser used for
`OpaqueChanged`. -/
def applyPatch (parse : Str → Document) (A : Arena NodeData) (slots : Slots) :
    Patch → Res (Arena NodeData × Slots)
  | .insertElement at_ tag attrs children slot =>
    let (A, n) := A.newNode ⟨.element tag attrs, .html⟩
    do
      let A ← appendInsertContents A n children
      insertAt A slots at_ n slot
  | .insertText at_ s slot =>
    let (A, n) := A.newNode ⟨.text s, .html⟩
    insertAt A slots at_ n slot
  | .insertComment at_ s slot =>
    let (A, n) := A.newNode ⟨.comment s, .html⟩
    insertAt A slots at_ n slot
  | .remove path => do
    let n ← navigate A slots path
    let A ← replaceByEmpty A n
    .ok (A, slots)
  | .setText path s => do
    let n ← navigate A slots path
    match A.data n with
    | ⟨.text _, ns⟩ => .ok (A.setData n ⟨.text s, ns⟩, slots)
    | ⟨.comment _, ns⟩ => .ok (A.setData n ⟨.comment s, ns⟩, slots)
    | _ => .error .notATextNode
  | .setAttribute path name value => do
    let n ← navigate A slots path
    match A.data n with
    | ⟨.element tag attrs, ns⟩ =>
      .ok (A.setData n ⟨.element tag (Document.setAttrList name value attrs), ns⟩, slots)
    | _ => .error .notAnElement
  | .removeAttribute path name => do
    let n ← navigate A slots path
    match A.data n with
    | ⟨.element tag attrs, ns⟩ =>
      .ok (A.setData n ⟨.element tag (Document.removeAttrList name attrs), ns⟩, slots)
    | _ => .error .notAnElement
  | .move from_ to slot => do
    let n ← navigate A slots from_
    let A ← if 1 < from_.length then replaceByEmpty A n else .ok (A.detach n)
    insertAt A slots to n slot
  | .updateProps path changes => do
    let n ← navigate A slots path
    match A.data n with
    | ⟨.text s, ns⟩ => .ok (A.setData n ⟨.text (updText s changes), ns⟩, slots)
    | ⟨.comment s, ns⟩ => .ok (A.setData n ⟨.comment (updText s changes), ns⟩, slots)
    | ⟨.element tag attrs, ns⟩ =>
      .ok (A.setData n ⟨.element tag (rebuildAttrs attrs changes), ns⟩, slots)
    | _ => .ok (A, slots)
  | .opaqueChanged path content => do
    let n ← navigate A slots path
    let A := detachAll A (A.children n)
    let W := parse (opaqueWrapper content)
    let A ← (wrapperChildren W).foldlM (fun A c => do
      let (A, m) ← cloneSubtree W.arena c A
      A.append n m) A
    .ok (A, slots)

/-- The loop of `apply_patches`, dom.rs:468-470: stops at the first error. -/
def applyLoop (parse : Str → Document) (A : Arena NodeData) (slots : Slots) :
    List Patch → Res (Arena NodeData × Slots)
  | [] => .ok (A, slots)
  | p :: ps => do
    let (A, slots) ← applyPatch parse A slots p
    applyLoop parse A slots ps

/-- `init_patch_slots`, dom.rs:476-481. -/
def initSlots (D : Document) : Document × Slots :=
  let (D, b) := D.ensureBody
  (D, Arena.upd (fun _ => none) 0 (some b))

/-- `apply_patches`, dom.rs:457-473. An error leaves the document partly patched in the code;
`applyPatchesKeep` below gives that state. -/
def applyPatches (parse : Str → Document) (D : Document) (patches : List Patch) :
    Res Document :=
  if patches.isEmpty then .ok D
  else
    let (D, slots) := initSlots D
    do
      let (A, _) ← applyLoop parse D.arena slots patches
      .ok { D with arena := A }

/-- The arena in which a failing `apply_patch` leaves the document: an insert has already created
its (unattached) node, dom.rs:507-524, 531, 539; a move has already taken its node out,
dom.rs:600-616. The other patches fail before they change anything. -/
def errorArena (A : Arena NodeData) (slots : Slots) : Patch → Arena NodeData
  | .insertElement _ tag attrs children _ =>
    let (A', n) := A.newNode ⟨.element tag attrs, .html⟩
    match appendInsertContents A' n children with
    | .ok A'' => A''
    | .error _ => A'
  | .insertText _ s _ => (A.newNode ⟨.text s, .html⟩).1
  | .insertComment _ s _ => (A.newNode ⟨.comment s, .html⟩).1
  | .move from_ _ _ => match navigate A slots from_ with
    | .error _ => A
    | .ok n =>
      match (if 1 < from_.length then replaceByEmpty A n else .ok (A.detach n) : Res _) with
      | .ok A' => A'
      | .error _ => A
  | _ => A

/-- The loop of `apply_patches` with the state it leaves behind, dom.rs:468-470. -/
def applyKeep (parse : Str → Document) (A : Arena NodeData) (slots : Slots) :
    List Patch → Arena NodeData × Option Err
  | [] => (A, none)
  | p :: ps => match applyPatch parse A slots p with
    | .ok (A', slots') => applyKeep parse A' slots' ps
    | .error e => (errorArena A slots p, some e)

/-- `apply_patches` with the document it leaves behind and the error it returns, dom.rs:457-473. -/
def applyPatchesKeep (parse : Str → Document) (D : Document) (patches : List Patch) :
    Document × Option Err :=
  if patches.isEmpty then (D, none)
  else
    let (D, slots) := initSlots D
    let (A, e) := applyKeep parse D.arena slots patches
    ({ D with arena := A }, e)

end Hotmeal
