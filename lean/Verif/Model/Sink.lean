import Verif.Model.Dom

/-!
# Parsing glue (hotmeal/src/dom.rs:1012-1774)

The tokenizer and tree builder of `html5ever` are external: they appear as a sequence of sink
calls. Modelled here are the calls of `ArenaSink` that change the tree, `finish`, and the
wrapping done by `parse`.
-/

namespace Hotmeal

/-- `u8::is_ascii_whitespace`. Used at dom.rs:1015. -/
def isAsciiWs (c : Char) : Bool :=
  c = ' ' || c = '\t' || c = '\n' || c = Char.ofNat 12 || c = '\r'

/-- `to_ascii_lowercase` on one character, used at dom.rs:1023 and 1106. -/
def toLowerAscii (c : Char) : Char :=
  if 65 ≤ c.toNat ∧ c.toNat ≤ 90 then Char.ofNat (c.toNat + 32) else c

/-- `has_doctype_prefix`, dom.rs:1012-1024. Written on characters: white space and `<!doctype`
are ASCII, and no byte of a multi-byte character is ASCII. -/
def hasDoctypePrefix (input : Str) : Bool :=
  let rest := input.dropWhile isAsciiWs
  let kw := "<!doctype".toList
  decide (kw.length ≤ rest.length) &&
    ((rest.take kw.length).zip kw).all (fun p => toLowerAscii p.1 == p.2)

/-- `str::contains`. Used at dom.rs:1107. -/
def containsSub (pat : Str) : Str → Bool
  | [] => pat.isEmpty
  | c :: cs => pat.isPrefixOf (c :: cs) || containsSub pat cs

/-- `has_html_structure`, dom.rs:1105-1108. -/
def hasHtmlStructure (input : Str) : Bool :=
  let lower := input.map toLowerAscii
  containsSub "<html".toList lower || containsSub "<body".toList lower

/-- The text handed to `html5ever` by `parse`, dom.rs:1052-1066. -/
def parseInput (input : Str) : Str :=
  if hasDoctypePrefix input then input
  else if hasHtmlStructure input then "<!DOCTYPE html>".toList ++ input
  else "<!DOCTYPE html><html><body>".toList ++ input ++ "</body></html>".toList

/-- `parse`, dom.rs:1038-1074, over an external document parser. -/
def parseWith (html5 : Str → Document) (input : Str) : Document :=
  let D := html5 (parseInput input)
  if hasDoctypePrefix input then D else { D with doctype := none }

/-! ## The tree sink -/

/-- `ArenaSink`, dom.rs:1125-1140, without the parse errors and the input slice. -/
structure Sink where
  arena : Arena NodeData
  document : Nat
  doctype : Option Str

/-- `NodeOrText`. Matched on at dom.rs:1423, 1477, 1529, 1596. -/
inductive NodeOrText
  | node (n : Nat)
  | text (s : Str)

namespace Sink

/-- `ArenaSink::new`, dom.rs:1290-1306. -/
def new : Sink :=
  let A : Arena NodeData := ⟨0, fun _ => none, fun _ => [], fun _ => default⟩
  let (A, d) := A.newNode ⟨.document, .html⟩
  ⟨A, d, none⟩

/-- `create_element`, dom.rs:1383-1402. -/
def createElement (S : Sink) (tag : Str) (ns : Ns) (attrs : Attrs) : Sink × Nat :=
  let (A, n) := S.arena.newNode ⟨.element tag attrs, ns⟩
  ({ S with arena := A }, n)

/-- `create_comment`, dom.rs:1404-1409. -/
def createComment (S : Sink) (s : Str) : Sink × Nat :=
  let (A, n) := S.arena.newNode ⟨.comment s, .html⟩
  ({ S with arena := A }, n)

/-- `create_pi`, dom.rs:1411-1417: an empty comment; target and data are dropped. -/
def createPi (S : Sink) : Sink × Nat :=
  let (A, n) := S.arena.newNode ⟨.comment [], .html⟩
  ({ S with arena := A }, n)

/-- The text of a text node. As at dom.rs:1490 and 1630. -/
def textOf (A : Arena NodeData) (n : Nat) : Option Str :=
  match (A.data n).kind with
  | .text s => some s
  | _ => none

/-- Append to an existing text node, `existing.push_tendril`, dom.rs:1505 and 1642. -/
def pushText (A : Arena NodeData) (n : Nat) (old s : Str) : Arena NodeData :=
  A.setData n ⟨.text (old ++ s), (A.data n).ns⟩

/-- `append` with `AppendText`, dom.rs:1478-1521. -/
def appendText (A : Arena NodeData) (p : Nat) (s : Str) : Arena NodeData :=
  match (A.children p).getLast? with
  | some l => match textOf A l with
    | some old => pushText A l old s
    | none => (A.addChild p ⟨.text s, .html⟩).1
  | none => (A.addChild p ⟨.text s, .html⟩).1

/-- `append`, dom.rs:1420-1523. -/
def append (S : Sink) (p : Nat) : NodeOrText → Res Sink
  | .node n => do
    let A ← S.arena.append p n
    .ok { S with arena := A }
  | .text s => .ok { S with arena := appendText S.arena p s }

/-- `previous_sibling()`: the child before `sib` in its parent's list. Used at dom.rs:1620. -/
def prevSibling (A : Arena NodeData) (sib : Nat) : Option Nat :=
  match A.parent sib with
  | none => none
  | some p => match (A.children p).idxOf sib with
    | 0 => none
    | i + 1 => (A.children p)[i]?

/-- `append_before_sibling` with `AppendText`, dom.rs:1597-1690. -/
def textBefore (A : Arena NodeData) (sib : Nat) (s : Str) : Res (Arena NodeData) :=
  match (prevSibling A sib).bind (fun l => (textOf A l).map (fun old => (l, old))) with
  | some (l, old) => .ok (pushText A l old s)
  | none =>
    let (A, t) := A.newNode ⟨.text s, .html⟩
    A.insertBefore sib t

/-- `append_before_sibling`, dom.rs:1525-1690. -/
def appendBeforeSibling (S : Sink) (sib : Nat) : NodeOrText → Res Sink
  | .node n => do
    let A ← S.arena.insertBefore sib n
    .ok { S with arena := A }
  | .text s => do
    let A ← textBefore S.arena sib s
    .ok { S with arena := A }

/-- `append_based_on_parent_node`, dom.rs:1692-1711. -/
def appendBasedOnParent (S : Sink) (element prev : Nat) (c : NodeOrText) : Res Sink :=
  match S.arena.parent element with
  | some _ => S.appendBeforeSibling element c
  | none => S.append prev c

/-- `append_doctype_to_document`, dom.rs:1713-1720. -/
def appendDoctype (S : Sink) (name : Str) : Sink := { S with doctype := some name }

/-- The loop of `add_attrs_if_missing`, dom.rs:1738-1758. -/
def addMissing (have_ : Attrs) : Attrs → Attrs
  | [] => have_
  | (k, v) :: rest =>
    if have_.any (fun kv => kv.1 = k) then addMissing have_ rest
    else addMissing (have_ ++ [(k, v)]) rest

/-- `add_attrs_if_missing`, dom.rs:1727-1760. -/
def addAttrsIfMissing (S : Sink) (n : Nat) (attrs : Attrs) : Sink :=
  match S.arena.data n with
  | ⟨.element tag old, ns⟩ =>
    { S with arena := S.arena.setData n ⟨.element tag (addMissing old attrs), ns⟩ }
  | _ => S

/-- `remove_from_parent`, dom.rs:1762-1764. -/
def removeFromParent (S : Sink) (n : Nat) : Sink := { S with arena := S.arena.detach n }

/-- `reparent_children`, dom.rs:1766-1773. -/
def reparentChildren (S : Sink) (n newParent : Nat) : Res Sink := do
  let A ← (S.arena.children n).foldlM (fun A c => (A.detach c).append newParent c) S.arena
  .ok { S with arena := A }

/-- `finish`, dom.rs:1321-1337: the root is the first child of the document node. -/
def finish (S : Sink) : Document :=
  ⟨S.arena, ((S.arena.children S.document).head?).getD S.document, S.doctype⟩

/-- A call made by the tree builder. `impl TreeSink`, dom.rs:1313-1775. -/
inductive Call
  | createElement (tag : Str) (ns : Ns) (attrs : Attrs)
  | createComment (s : Str)
  | createPi (target data : Str)
  | append (p : Nat) (c : NodeOrText)
  | appendBeforeSibling (sib : Nat) (c : NodeOrText)
  | appendBasedOnParent (element prev : Nat) (c : NodeOrText)
  | appendDoctype (name : Str)
  | addAttrsIfMissing (n : Nat) (attrs : Attrs)
  | removeFromParent (n : Nat)
  | reparentChildren (n newParent : Nat)

/-- Effect of one call. `impl TreeSink`, dom.rs:1313-1775. -/
def run (S : Sink) : Call → Res Sink
  | .createElement t ns a => .ok (S.createElement t ns a).1
  | .createComment s => .ok (S.createComment s).1
  | .createPi _ _ => .ok S.createPi.1
  | .append p c => S.append p c
  | .appendBeforeSibling sib c => S.appendBeforeSibling sib c
  | .appendBasedOnParent e p c => S.appendBasedOnParent e p c
  | .appendDoctype n => .ok (S.appendDoctype n)
  | .addAttrsIfMissing n a => .ok (S.addAttrsIfMissing n a)
  | .removeFromParent n => .ok (S.removeFromParent n)
  | .reparentChildren n p => S.reparentChildren n p

/-- Effect of a sequence of calls. `parse_document` drives the sink, dom.rs:1068. -/
def runAll (S : Sink) (cs : List Call) : Res Sink := cs.foldlM run S

/-- The calls with which `html5ever::parse_fragment` begins in `parse_body_fragment`,
dom.rs:1082-1102: it creates the context element `body` (which it never attaches) and the root element
`html`, and puts the root below the document node. The calls for the text follow. -/
def fragmentStart : List Call :=
  [.createElement "body".toList .html [], .createElement "html".toList .html [], .append 0 (.node 2)]

end Sink
end Hotmeal
