import Verif.Model.BodyHtml
import Verif.Model.Sink

set_option autoImplicit false

/-!
# What is printed for debugging (hotmeal/src/dom.rs, hotmeal-wasm/src/lib.rs)

The library prints the body of a document with `dump_body`. The client prints the body of the page with
`dump_browser_dom`, and what the library makes of a text with `dump_rust_parsed`.

`dbg` is what `{:?}` of the standard library makes of a string.
-/

namespace Hotmeal
namespace Dump

/-- `"  ".repeat(indent)`, dom.rs:137, lib.rs:946 and 987. -/
def pad (indent : Nat) : Str := List.replicate (2 * indent) ' '

/-- The order of strings, dom.rs:148. Strings are compared by their bytes in Rust, which is the order of the
characters. -/
def strLe : Str → Str → Bool
  | [], _ => true
  | _ :: _, [] => false
  | a :: s, b :: t => decide (a.val < b.val) || (a == b && strLe s t)

/-- Where an attribute goes among sorted ones, part of `sort_by` at dom.rs:148. -/
def insertAttr (x : Str × Str) : List (Str × Str) → List (Str × Str)
  | [] => [x]
  | y :: l => if strLe x.1 y.1 then x :: y :: l else y :: insertAttr x l

/-- `sort_by` with the names, dom.rs:148. Simplification: another algorithm, with the same result (both are stable). -/
def sortAttrs : List (Str × Str) → List (Str × Str)
  | [] => []
  | x :: l => insertAttr x (sortAttrs l)

/-- The attributes of an element, dom.rs:143-148. -/
def attrsOf (attrs : Attrs) : List (Str × Str) := sortAttrs (attrs.map fun kv => (kv.1.loc, kv.2))

/-- One node for `dump_node`, dom.rs:136-175. `cs` are its children. -/
def dumpKind (dbg : Str → Str) (k : NodeKind) (cs : List (Nat → Str)) (indent : Nat) : Str :=
  match k with
  | .element tag attrs =>
    pad indent ++ '<' :: tag.map toLowerAscii ++ (attrsOf attrs).flatMap (fun kv => ' ' :: kv.1 ++ '=' :: dbg kv.2) ++
      ">\n".toList ++ cs.flatMap (fun c => c (indent + 1)) ++ pad indent ++ "</".toList ++ tag.map toLowerAscii ++
      ">\n".toList
  | .text s => pad indent ++ "TEXT: ".toList ++ dbg s ++ ['\n']
  | .comment s => pad indent ++ "COMMENT: ".toList ++ dbg s ++ ['\n']
  | .document => pad indent ++ "#document\n".toList ++ cs.flatMap fun c => c (indent + 1)

/-- `dump_node`, dom.rs:136-175. -/
def dumpNode (dbg : Str → Str) (A : Arena NodeData) (n : Nat) : Nat → Str :=
  A.fold (fun n cs => dumpKind dbg (A.data n).kind cs) n

/-- `dump_subtree`, dom.rs:125-129. -/
def dumpSubtree (dbg : Str → Str) (D : Document) (n : Nat) : Str := dumpNode dbg D.arena n 0

/-- `dump_body`, dom.rs:132-134. -/
def dumpBody (dbg : Str → Str) (D : Document) : Option Str := D.body.map (dumpSubtree dbg D)

/-! ### The client -/

/-- An ASCII letter in upper case. -/
def toUpperAscii (c : Char) : Char := if 'a' ≤ c ∧ c ≤ 'z' then Char.ofNat (c.toNat - 32) else c

/-- `Node.nodeName` of an element, used at lib.rs:952: HTML elements have it in upper case. -/
def nodeName (ns : Ns) (tag : Str) : Str := if ns = .html then tag.map toUpperAscii else tag

/-- The replacements of line feeds and spaces, lib.rs:957 and 996. -/
def visible (s : Str) : Str :=
  s.flatMap fun c => if c = '\n' then "\\n".toList else if c = ' ' then "·".toList else [c]

/-- The line for a node in `dump_browser_dom`, lib.rs:949-963. -/
def browserLine (dbg : Str → Str) (d : NodeData) : Str :=
  match d.kind with
  | .element tag _ => "Element(".toList ++ nodeName d.ns tag ++ ")\n".toList
  | .text s => "Text(".toList ++ dbg (visible s) ++ ")\n".toList
  | .comment _ => "Node(type=8)\n".toList
  | .document => "Node(type=9)\n".toList

/-- The line for a node in `dump_rust_parsed`, lib.rs:989-1002. `upper` is `str::to_uppercase`. -/
def parsedLine (dbg upper : Str → Str) (d : NodeData) : Str :=
  match d.kind with
  | .document => "Document\n".toList
  | .element tag _ => "Element(".toList ++ upper tag ++ ")\n".toList
  | .text s => "Text(".toList ++ dbg (visible s) ++ ")\n".toList
  | .comment s => "Comment(".toList ++ dbg s ++ ")\n".toList

/-- The functions `dump_node` of both, lib.rs:945-972 and 986-1006: the line of the node, then its children, indented. -/
def lines (line : NodeData → Str) (A : Arena NodeData) (n : Nat) : Nat → Str :=
  A.fold (fun n cs indent => pad indent ++ line (A.data n) ++ cs.flatMap fun c => c (indent + 1)) n

/-- `dump_browser_dom`, lib.rs:936-975. -/
def dumpBrowserDom (dbg : Str → Str) (E : Arena NodeData) (doc : Nat) : Res Str := do
  let b ← Mount.resolveMountPoint E doc .body
  .ok (lines (browserLine dbg) E b 0)

/-- `find_body`, lib.rs:1008-1021: the first element with this tag in any case, in the order of the document. -/
def findBody (D : Document) : Option Nat :=
  (D.arena.descendants D.root).find? fun n =>
    match (D.arena.data n).kind with
    | .element tag _ => decide (tag.map toLowerAscii = "body".toList)
    | _ => false

/-- `dump_rust_parsed`, lib.rs:980-1027. `parse` is the parser behind `diff_html`. -/
def dumpRustParsed (dbg upper : Str → Str) (parse : Str → Document) (html : Str) : Option Str :=
  let D := parse (BodyHtml.wrapBody html)
  (findBody D).map fun b => lines (parsedLine dbg upper) D.arena b 0

end Dump
end Hotmeal
