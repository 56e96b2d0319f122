import Verif.Model.Sink

set_option autoImplicit false

/-!
# Reading HTML text

The HTML parser (`html5ever` in the library, the browser's own parser in the client) is external. This file has the
part of its standard (HTML Living Standard, section 13.2 "Parsing HTML documents") that is needed to read what the
library writes: the states of the tokenizer for tags, double-quoted attributes, comments, raw text and four character
references, and the insertion modes for pages with a head and a body.

The reader is partial: wherever the standard does something that is not described here (repairs of any kind, elements
with rules of their own such as `select` and `template`, character references other than the four, foreign elements), the
result is `none`. Where the result is not `none`, it is what the standard prescribes. Some facts about the standard are
used to leave things out, which hold as long as every end tag closes the current node: the list of active formatting
elements, after its last marker, is a part of the stack, so that nothing is reconstructed and the adoption agency just
pops; no end tags are implied; the form element pointer is set if a `form` is open; and the insertion mode inside of a
body follows from the current node (sections 13.2.6.4.9 to 13.2.6.4.15: "in table" if that is a `table`, and so on).

The parser is called at hotmeal/src/dom.rs:1068 and 1094-1101.
-/

namespace Hotmeal
namespace Reader

/-- What the tree construction does, one step at a time. The calls of the sink that go with each step are in `build`. -/
inductive Ev
  | open_ (tag : Str) (attrs : Attrs)
  | close
  | char (c : Char)
  | comment (s : Str)
  | doctype (name : Str)
  deriving DecidableEq, Repr

/-- Insertion modes, section 13.2.6.4. -/
inductive Mode
  | initial
  | beforeHtml
  | beforeHead
  | inHead
  | afterHead
  | inBody
  | afterBody
  | afterAfterBody
  deriving DecidableEq, Repr

/-- The three states of the tokenizer for text without tags: RCDATA, RAWTEXT and script data, sections 13.2.5.2 to
13.2.5.4. -/
inductive RawKind
  | rcdata
  | rawtext
  | script
  deriving DecidableEq, Repr

/-- States of the tokenizer, section 13.2.5. -/
inductive Lex
  | data
  | dataRef (ref : Str)
  | tagOpen
  | endTagOpen
  | tagName (acc : Str)
  | endName (acc : Str)
  | beforeAttr (tag : Str) (attrs : Attrs)
  | attrName (tag : Str) (attrs : Attrs) (acc : Str)
  | beforeValue (tag : Str) (attrs : Attrs) (name : Str)
  | value (tag : Str) (attrs : Attrs) (name acc : Str)
  | valueRef (tag : Str) (attrs : Attrs) (name acc ref : Str)
  | afterValue (tag : Str) (attrs : Attrs)
  | markup (acc : Str)
  | commentStart
  | commentStartDash
  | comment (acc : Str)
  | commentDash (acc : Str)
  | commentEnd (acc : Str)
  | beforeDoctypeName
  | doctypeName (acc : Str)
  | raw (k : RawKind) (tag : Str)
  | rawRef (tag ref : Str)
  | rawLt (k : RawKind) (tag : Str)
  | rawEnd (k : RawKind) (tag buf : Str)
  deriving DecidableEq, Repr

/-- State of the reader: the tokenizer, the insertion mode, the tags of the open elements (the current node first),
whether a line feed that comes next is dropped, and what has been done. -/
structure St where
  lex : Lex
  mode : Mode
  stack : List Str
  skip : Bool
  out : List Ev
  deriving DecidableEq, Repr

/-! ## Characters -/

/-- Carriage returns, alone or before a line feed, are read as line feeds, section 13.2.3.5. -/
def newlines : Str → Str
  | [] => []
  | '\r' :: '\n' :: cs => '\n' :: newlines cs
  | '\r' :: cs => '\n' :: newlines cs
  | c :: cs => c :: newlines cs

/-- Tab, line feed, form feed and space. -/
def isWs (c : Char) : Bool := c = ' ' || c = '\t' || c = '\n' || c = Char.ofNat 12

/-- ASCII letters. -/
def isAlpha (c : Char) : Bool := (97 ≤ c.toNat && c.toNat ≤ 122) || (65 ≤ c.toNat && c.toNat ≤ 90)

/-- The character references that are read, section 13.5. No other reference begins with one of these. -/
def refChar (name : Str) : Option Char :=
  if name = "amp".toList then some '&'
  else if name = "lt".toList then some '<'
  else if name = "gt".toList then some '>'
  else if name = "quot".toList then some '"'
  else none

/-! ## Elements -/

/-- Elements that are not read inside of a body: those with insertion modes or rules of their own, and those for
which the parser's idea of their content is not the writer's. -/
def foreignTags : List Str :=
  ["html", "head", "body", "frameset", "frame", "caption", "col", "colgroup", "tbody", "td", "tfoot", "th", "thead",
   "tr", "select", "option", "optgroup", "math", "svg", "image", "plaintext", "xmp", "noframes", "noscript",
   "template", "keygen", "basefont", "bgsound"].map String.toList

/-- The elements that are read as children of a part of a table, sections 13.2.6.4.9 and 13.2.6.4.12 to 13.2.6.4.14. -/
def tableKids (parent : Str) : Option (List Str) :=
  if parent = "table".toList then
    some (["caption", "colgroup", "thead", "tbody", "tfoot", "script", "style"].map String.toList)
  else if parent = "thead".toList ∨ parent = "tbody".toList ∨ parent = "tfoot".toList then
    some (["tr", "script", "style"].map String.toList)
  else if parent = "tr".toList then some (["td", "th", "script", "style"].map String.toList)
  else if parent = "colgroup".toList then some ["col".toList]
  else none

/-- Headings. -/
def headings : List Str := ["h1", "h2", "h3", "h4", "h5", "h6"].map String.toList

/-- Elements whose start tag closes a `p` element, section 13.2.6.4.7. -/
def closesP : List Str :=
  ["address", "article", "aside", "blockquote", "center", "details", "dialog", "dir", "div", "dl", "fieldset",
   "figcaption", "figure", "footer", "header", "hgroup", "main", "menu", "nav", "ol", "p", "search", "section",
   "summary", "ul", "pre", "listing", "form", "table", "li", "dd", "dt", "hr", "h1", "h2", "h3", "h4", "h5", "h6"].map String.toList

/-- The special category, section 13.2.4.2. -/
def special : List Str :=
  ["address", "applet", "area", "article", "aside", "base", "basefont", "bgsound", "blockquote", "body", "br",
   "button", "caption", "center", "col", "colgroup", "dd", "details", "dir", "div", "dl", "dt", "embed", "fieldset",
   "figcaption", "figure", "footer", "form", "frame", "frameset", "h1", "h2", "h3", "h4", "h5", "h6", "head",
   "header", "hgroup", "hr", "html", "iframe", "img", "input", "keygen", "li", "link", "listing", "main", "marquee",
   "menu", "meta", "nav", "noembed", "noframes", "noscript", "object", "ol", "p", "param", "plaintext", "pre",
   "script", "search", "section", "select", "source", "style", "summary", "table", "tbody", "td", "template",
   "textarea", "tfoot", "th", "thead", "title", "tr", "track", "ul", "wbr", "xmp"].map String.toList

/-- Does a start tag of a list item close one of the open elements `same`? The loop in the rules for `li`, `dd` and
`dt`, section 13.2.6.4.7. -/
def closesItem (same : List Str) : List Str → Bool
  | [] => false
  | x :: xs =>
    if same.contains x then true
    else if special.contains x && !(["address", "div", "p"].map String.toList).contains x then false
    else closesItem same xs

/-- The start tag of an element just adds the element to the current node, section 13.2.6.4.7: it closes no open
element. (More elements are refused than necessary: one that closes a `p` is refused below any `p`.) -/
def fitsBody (stack : List Str) (tag : Str) : Bool :=
  !foreignTags.contains tag &&
  !(closesP.contains tag && stack.contains "p".toList) &&
  !(headings.contains tag && (stack.head?.any fun t => headings.contains t)) &&
  !(tag == "li".toList && closesItem ["li".toList] stack) &&
  !((tag == "dd".toList || tag == "dt".toList) && closesItem ["dd".toList, "dt".toList] stack) &&
  !((tag == "a".toList || tag == "nobr".toList || tag == "button".toList || tag == "form".toList) && stack.contains tag) &&
  !((["rb", "rt", "rp", "rtc"].map String.toList).contains tag && stack.head? != some "ruby".toList)

/-- The same with parts of tables. -/
def fits (stack : List Str) (tag : Str) : Bool :=
  match stack.head?.bind tableKids with
  | some kids => kids.contains tag
  | none => fitsBody stack tag

/-- A character is added to the current node: outside of cells and captions, a table has no text but white space,
sections 13.2.6.4.9, 13.2.6.4.10 and 13.2.6.4.12. -/
def charFits (stack : List Str) (c : Char) : Bool := (stack.head?.bind tableKids).isNone || isWs c

/-- Void elements that are read, sections 13.2.6.4.4, 13.2.6.4.7 and 13.2.6.4.12. -/
def voidTags : List Str :=
  ["area", "base", "br", "col", "embed", "hr", "img", "input", "link", "meta", "param", "source", "track", "wbr"].map
    String.toList

/-- Elements with text instead of nodes, and how that is read. -/
def rawKind (tag : Str) : Option RawKind :=
  if tag = "script".toList then some .script
  else if tag = "style".toList ∨ tag = "iframe".toList ∨ tag = "noembed".toList then some .rawtext
  else if tag = "title".toList ∨ tag = "textarea".toList then some .rcdata
  else none

/-- Elements that drop a line feed at their beginning. -/
def dropsLf (tag : Str) : Bool := ["pre".toList, "listing".toList, "textarea".toList].contains tag

/-- Elements of a head that are read, section 13.2.6.4.4. -/
def headTags : List Str := ["base", "link", "meta", "title", "style", "script"].map String.toList

/-! ## Tree construction -/

/-- Insert an element that was fitting. -/
def insert (s : St) (tag : Str) (attrs : Attrs) : St :=
  if voidTags.contains tag then
    { s with lex := .data, skip := false, out := s.out ++ [.open_ tag attrs, .close] }
  else
    { s with
      lex := match rawKind tag with
        | some k => .raw k tag
        | none => .data
      skip := dropsLf tag
      stack := tag :: s.stack
      out := s.out ++ [.open_ tag attrs] }

/-- A start tag, section 13.2.6.4. -/
def onStart (s : St) (tag : Str) (attrs : Attrs) : Option St :=
  match s.mode with
  | .beforeHtml =>
    if tag = "html".toList then some { insert s tag attrs with mode := .beforeHead } else none
  | .beforeHead =>
    if tag = "head".toList then some { insert s tag attrs with mode := .inHead }
    else if tag = "body".toList then
      -- the head is implied
      some { insert { s with out := s.out ++ [.open_ "head".toList [], .close] } tag attrs with mode := .inBody }
    else none
  | .inHead => if headTags.contains tag then some (insert s tag attrs) else none
  | .afterHead => if tag = "body".toList then some { insert s tag attrs with mode := .inBody } else none
  | .inBody => if fits s.stack tag then some (insert s tag attrs) else none
  | _ => none

/-- An end tag, section 13.2.6.4. -/
def onEnd (s : St) (tag : Str) : Option St :=
  match s.mode with
  | .inHead =>
    if s.stack.head? = some tag then
      some { s with
        lex := .data, skip := false, stack := s.stack.tail, out := s.out ++ [.close]
        mode := if tag = "head".toList then .afterHead else .inHead }
    else none
  | .inBody =>
    if s.stack.head? = some tag then
      if tag = "body".toList then some { s with lex := .data, skip := false, mode := .afterBody }
      else if tag = "html".toList then none
      else some { s with lex := .data, skip := false, stack := s.stack.tail, out := s.out ++ [.close] }
    else none
  | .afterBody =>
    if tag = "html".toList then some { s with lex := .data, mode := .afterAfterBody } else none
  | _ => none

/-- Insert a character. -/
def insertChar (s : St) (c : Char) : St :=
  if s.skip && c = '\n' then { s with skip := false }
  else { s with skip := false, out := s.out ++ [.char c] }

/-- A character outside of raw text, section 13.2.6.4. -/
def onChar (s : St) (c : Char) : Option St :=
  match s.mode with
  | .initial | .beforeHtml | .beforeHead => if isWs c then some s else none
  | .inHead | .afterHead => if isWs c then some (insertChar s c) else none
  | .inBody => if charFits s.stack c then some (insertChar s c) else none
  | _ => none

/-- A comment, section 13.2.6.4. Comments outside of head and body are not read. -/
def onComment (s : St) (text : Str) : Option St :=
  match s.mode with
  | .inHead | .inBody => some { s with lex := .data, skip := false, out := s.out ++ [.comment text] }
  | _ => none

/-- A doctype, section 13.2.6.4.1. -/
def onDoctype (s : St) (name : Str) : Option St :=
  match s.mode with
  | .initial => some { s with lex := .data, mode := .beforeHtml, out := s.out ++ [.doctype name] }
  | _ => none

/-! ## The tokenizer -/

/-- An attribute is dropped if there is one of that name already, section 13.2.5.33. -/
def addAttr (attrs : Attrs) (name v : Str) : Attrs :=
  if attrs.any (fun kv => kv.1.loc = name) then attrs else attrs ++ [(⟨none, [], name⟩, v)]

/-- One character inside of raw text, sections 13.2.5.2 to 13.2.5.4. -/
def rawChar (s : St) (k : RawKind) (tag : Str) (c : Char) : St :=
  if c = '<' then { s with lex := .rawLt k tag }
  else if c = '&' ∧ k = .rcdata then { s with lex := .rawRef tag [] }
  else { insertChar s c with lex := .raw k tag }

/-- One character of the input, section 13.2.5, after `newlines`. In a comment, the states for a less-than sign are left out: they only
report errors. -/
def step (s : St) (c : Char) : Option St :=
  if c = '\r' ∨ c = Char.ofNat 0 then none
  else match s.lex with
  | .data =>
    if c = '<' then some { s with lex := .tagOpen }
    else if c = '&' then some { s with lex := .dataRef [] }
    else onChar s c
  | .dataRef ref =>
    if c = ';' then (refChar ref).bind (onChar { s with lex := .data })
    else if isAlpha c then some { s with lex := .dataRef (ref ++ [c]) }
    else none
  | .tagOpen =>
    if c = '!' then some { s with lex := .markup [] }
    else if c = '/' then some { s with lex := .endTagOpen }
    else if isAlpha c then some { s with lex := .tagName [toLowerAscii c] }
    else none
  | .endTagOpen => if isAlpha c then some { s with lex := .endName [toLowerAscii c] } else none
  | .tagName acc =>
    if isWs c then some { s with lex := .beforeAttr acc [] }
    else if c = '>' then onStart s acc []
    else if c = '/' then none
    else some { s with lex := .tagName (acc ++ [toLowerAscii c]) }
  | .endName acc =>
    if c = '>' then onEnd s acc
    else if isWs c ∨ c = '/' then none
    else some { s with lex := .endName (acc ++ [toLowerAscii c]) }
  | .beforeAttr tag attrs =>
    if isWs c then some s
    else if c = '>' then onStart s tag attrs
    else if c = '/' ∨ c = '=' then none
    else some { s with lex := .attrName tag attrs [toLowerAscii c] }
  | .attrName tag attrs acc =>
    if c = '=' then some { s with lex := .beforeValue tag attrs acc }
    else if isWs c ∨ c = '/' ∨ c = '>' then none
    else some { s with lex := .attrName tag attrs (acc ++ [toLowerAscii c]) }
  | .beforeValue tag attrs name =>
    if c = '"' then some { s with lex := .value tag attrs name [] } else none
  | .value tag attrs name acc =>
    if c = '"' then some { s with lex := .afterValue tag (addAttr attrs name acc) }
    else if c = '&' then some { s with lex := .valueRef tag attrs name acc [] }
    else some { s with lex := .value tag attrs name (acc ++ [c]) }
  | .valueRef tag attrs name acc ref =>
    if c = ';' then (refChar ref).map fun d => { s with lex := .value tag attrs name (acc ++ [d]) }
    else if isAlpha c then some { s with lex := .valueRef tag attrs name acc (ref ++ [c]) }
    else none
  | .afterValue tag attrs =>
    if isWs c then some { s with lex := .beforeAttr tag attrs }
    else if c = '>' then onStart s tag attrs
    else none
  | .markup acc =>
    let acc := acc ++ [toLowerAscii c]
    if acc = ['-', '-'] then some { s with lex := .commentStart }
    else if acc = "doctype".toList then some { s with lex := .beforeDoctypeName }
    else if acc = ['-'] ∨ acc.isPrefixOf "doctype".toList then some { s with lex := .markup acc }
    else none
  | .commentStart =>
    if c = '-' then some { s with lex := .commentStartDash }
    else if c = '>' then none
    else some { s with lex := .comment [c] }
  | .commentStartDash =>
    if c = '-' then some { s with lex := .commentEnd [] }
    else if c = '>' then none
    else some { s with lex := .comment ['-', c] }
  | .comment acc =>
    if c = '-' then some { s with lex := .commentDash acc }
    else some { s with lex := .comment (acc ++ [c]) }
  | .commentDash acc =>
    if c = '-' then some { s with lex := .commentEnd acc }
    else some { s with lex := .comment (acc ++ ['-', c]) }
  | .commentEnd acc =>
    if c = '>' then onComment s acc
    else if c = '!' then none
    else if c = '-' then some { s with lex := .commentEnd (acc ++ ['-']) }
    else some { s with lex := .comment (acc ++ ['-', '-', c]) }
  | .beforeDoctypeName =>
    if isWs c then some s
    else if c = '>' then none
    else some { s with lex := .doctypeName [toLowerAscii c] }
  | .doctypeName acc =>
    if c = '>' then onDoctype s acc
    else if isWs c then none
    else some { s with lex := .doctypeName (acc ++ [toLowerAscii c]) }
  | .raw k tag => some (rawChar s k tag c)
  | .rawRef tag ref =>
    if c = ';' then (refChar ref).map fun d => { insertChar s d with lex := .raw .rcdata tag }
    else if isAlpha c then some { s with lex := .rawRef tag (ref ++ [c]) }
    else none
  | .rawLt k tag =>
    if c = '/' then some { s with lex := .rawEnd k tag [] }
    else if c = '!' ∧ k = .script then none
    else some (rawChar (insertChar s '<') k tag c)
  | .rawEnd k tag buf =>
    if isAlpha c then some { s with lex := .rawEnd k tag (buf ++ [c]) }
    else if buf.map toLowerAscii = tag then
      if c = '>' then onEnd s tag
      else if isWs c ∨ c = '/' then none
      else some (rawChar (('<' :: '/' :: buf).foldl insertChar s) k tag c)
    else some (rawChar (('<' :: '/' :: buf).foldl insertChar s) k tag c)

/-- A text from a state. -/
def run (s : St) (text : Str) : Option St := text.foldlM step s

/-- What is done for a whole page, sections 13.2.6.4.1 to 13.2.6.4.23. Pages that end early are not read. -/
def page (text : Str) : Option (List Ev) :=
  match run ⟨.data, .initial, [], false, []⟩ (newlines text) with
  | some s => if s.mode = .afterAfterBody ∧ s.lex = .data then some s.out else none
  | none => none

/-- What is done for a fragment in the context of a `body` element, section 13.4. The one element on the stack is the
root `html`. -/
def fragment (text : Str) : Option (List Ev) :=
  match run ⟨.data, .inBody, ["html".toList], false, []⟩ (newlines text) with
  | some s => if s.stack = ["html".toList] ∧ s.lex = .data then some s.out else none
  | none => none

/-! ## The calls of the sink -/

/-- The sink and the open elements, the current node first. -/
abbrev Site := Sink × List Nat

/-- The calls for one step: "insert a foreign element" (section 13.2.6.1) creates the element, appends it to the
current node and pushes it. Simplification: characters are handed over one at a time. -/
def build1 : Site → Ev → Res Site
  | (S, stack), .open_ tag attrs => do
    let (S, n) := S.createElement tag .html attrs
    let S ← S.append (stack.headD S.document) (.node n)
    .ok (S, n :: stack)
  | (S, stack), .close => .ok (S, stack.tail)
  | (S, stack), .char c => do
    let S ← S.append (stack.headD S.document) (.text [c])
    .ok (S, stack)
  | (S, stack), .comment s => do
    let (S, n) := S.createComment s
    let S ← S.append (stack.headD S.document) (.node n)
    .ok (S, stack)
  | (S, stack), .doctype name => .ok (S.appendDoctype name, stack)

/-- The calls for all steps. -/
def build (σ : Site) (evs : List Ev) : Res Site := evs.foldlM build1 σ

/-- The document that `html5ever::parse_document` makes of a text, dom.rs:1068. -/
def readPage (text : Str) : Option Document :=
  match page text with
  | none => none
  | some evs => match build (Sink.new, []) evs with
    | .ok (S, _) => some S.finish
    | .error _ => none

/-- The document that `parse_body_fragment` makes of a text, dom.rs:1082-1102. -/
def readFragment (text : Str) : Option Document :=
  match fragment text, Sink.new.runAll Sink.fragmentStart with
  | some evs, .ok S => match build (S, [2]) evs with
    | .ok (S, _) => some S.finish
    | .error _ => none
  | _, _ => none

end Reader
end Hotmeal
