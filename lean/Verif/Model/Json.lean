import Verif.Model.Wire
import Verif.Model.Numbers
import Verif.Model.WebDom

set_option autoImplicit false

/-!
# Patches as JSON

`facet_json::to_string` and `from_str`, as called by `diff_html` and `apply_patches_json`, hotmeal-wasm/src/lib.rs:47-57
and 119-124. The crate is not part of the repository. This is JSON (RFC 8259) without the numbers that do not occur
(negative ones, fractions, exponents) and without `true` and `false`, and the usual form of Rust values: a struct is an
object with its fields, a variant with fields is an object whose only member has the name of the variant, a variant
without fields is its name, a `Vec` is an array, `None` is `null`, a `Stem` is a string (`#[facet(cow)]`, stem.rs:15),
and transparent types are what they hold (diff.rs:28, 159, 183).
-/

namespace Hotmeal

/-- A JSON value. hotmeal-wasm/src/lib.rs:53. -/
inductive Json
  | null
  | num (n : Nat)
  | str (s : Str)
  | arr (xs : List Json)
  | obj (fs : List (Str × Json))

namespace Json

/-! ### Writing text -/

/-- A digit of base 16 or 10. RFC 8259, for hotmeal-wasm/src/lib.rs:53. -/
def digit (n : Nat) : Char := "0123456789abcdef".toList.getD n '0'

/-- A number in base ten. The first argument bounds the number of digits. hotmeal-wasm/src/lib.rs:53. -/
def digits : Nat → Nat → Str
  | 0, _ => []
  | k + 1, n => if n < 10 then [digit n] else digits k (n / 10) ++ [digit (n % 10)]

/-- A character inside a string. hotmeal-wasm/src/lib.rs:53. -/
def escape (c : Char) : Str :=
  if c = '"' then ['\\', '"']
  else if c = '\\' then ['\\', '\\']
  else if c = '\n' then ['\\', 'n']
  else if c = '\r' then ['\\', 'r']
  else if c = '\t' then ['\\', 't']
  else if c.val < 0x20 then ['\\', 'u', '0', '0', digit (c.toNat / 16), digit (c.toNat % 16)]
  else [c]

/-- A string. hotmeal-wasm/src/lib.rs:53. -/
def quote (s : Str) : Str := '"' :: (s.flatMap escape ++ ['"'])

mutual
/-- `facet_json::to_string`: the text of a value, without spaces. hotmeal-wasm/src/lib.rs:53. -/
def print : Json → Str
  | .null => "null".toList
  | .num n => digits (n + 1) n
  | .str s => quote s
  | .arr xs => '[' :: printItems xs
  | .obj fs => '{' :: printMembers fs
/-- The elements of an array and the closing bracket. hotmeal-wasm/src/lib.rs:53. -/
def printItems : List Json → Str
  | [] => [']']
  | x :: xs => print x ++ printMore xs
/-- The elements after the first. hotmeal-wasm/src/lib.rs:53. -/
def printMore : List Json → Str
  | [] => [']']
  | x :: xs => ',' :: (print x ++ printMore xs)
/-- The members of an object and the closing brace. hotmeal-wasm/src/lib.rs:53. -/
def printMembers : List (Str × Json) → Str
  | [] => ['}']
  | (k, x) :: fs => quote k ++ (':' :: (print x ++ printMoreMembers fs))
/-- The members after the first. hotmeal-wasm/src/lib.rs:53. -/
def printMoreMembers : List (Str × Json) → Str
  | [] => ['}']
  | (k, x) :: fs => ',' :: (quote k ++ (':' :: (print x ++ printMoreMembers fs)))
end

/-! ### Reading text -/

/-- White space of JSON. RFC 8259, for hotmeal-wasm/src/lib.rs:120. -/
def isSpace (c : Char) : Bool := c = ' ' || c = '\n' || c = '\r' || c = '\t'

/-- The text after white space. hotmeal-wasm/src/lib.rs:120. -/
def skip (s : Str) : Str := s.dropWhile isSpace

/-- The value of a digit of base 16. hotmeal-wasm/src/lib.rs:120. -/
def hexVal (c : Char) : Option Nat :=
  if '0' ≤ c ∧ c ≤ '9' then some (c.toNat - '0'.toNat)
  else if 'a' ≤ c ∧ c ≤ 'f' then some (c.toNat - 'a'.toNat + 10)
  else if 'A' ≤ c ∧ c ≤ 'F' then some (c.toNat - 'A'.toNat + 10)
  else none

/-- Four digits of base 16. hotmeal-wasm/src/lib.rs:120. -/
def hex4 (a b c d : Char) : Option Nat := do
  let a ← hexVal a
  let b ← hexVal b
  let c ← hexVal c
  let d ← hexVal d
  some (((a * 16 + b) * 16 + c) * 16 + d)

/-- The character of a number that is not a surrogate. hotmeal-wasm/src/lib.rs:120. -/
def charOf (n : Nat) : Option Char := if h : n.isValidChar then some (Char.ofNatAux n h) else none

/-- The character of a letter after a backslash. RFC 8259, for hotmeal-wasm/src/lib.rs:120. -/
def simple (c : Char) : Option Char :=
  if c = '"' then some '"'
  else if c = '\\' then some '\\'
  else if c = '/' then some '/'
  else if c = 'b' then some '\x08'
  else if c = 'f' then some '\x0c'
  else if c = 'n' then some '\n'
  else if c = 'r' then some '\r'
  else if c = 't' then some '\t'
  else none

/-- A string after its opening quote, and what follows its closing quote. Two escaped halves make one character.
Control characters have to be escaped. hotmeal-wasm/src/lib.rs:120. -/
def string : Str → Option (Str × Str)
  | [] => none
  | '"' :: r => some ([], r)
  | '\\' :: 'u' :: a :: b :: c :: d :: r => do
    let n ← hex4 a b c d
    if 0xD800 ≤ n ∧ n < 0xDC00 then
      match r with
      | '\\' :: 'u' :: a :: b :: c :: d :: r => do
        let m ← hex4 a b c d
        if 0xDC00 ≤ m ∧ m < 0xE000 then do
          let x ← charOf (0x10000 + (n - 0xD800) * 0x400 + (m - 0xDC00))
          let (s, r) ← string r
          some (x :: s, r)
        else none
      | _ => none
    else do
      let x ← charOf n
      let (s, r) ← string r
      some (x :: s, r)
  | '\\' :: c :: r => do
    let x ← simple c
    let (s, r) ← string r
    some (x :: s, r)
  | '\\' :: [] => none
  | c :: r =>
    if c.val < 0x20 then none
    else do
      let (s, r) ← string r
      some (c :: s, r)

/-- The value of decimal digits, after those read before. hotmeal-wasm/src/lib.rs:120. -/
def number (n : Nat) : Str → Nat × Str
  | [] => (n, [])
  | c :: r => if c.isDigit then number (n * 10 + (c.toNat - '0'.toNat)) r else (n, c :: r)

/-- The elements of an array or the members of an object, at least one, up to the closing bracket. The number bounds how
many. hotmeal-wasm/src/lib.rs:120. -/
def items {α : Type} (get : Str → Option (α × Str)) (close : Char) : Nat → Str → Option (List α × Str)
  | 0, _ => none
  | k + 1, s => do
    let (x, r) ← get s
    match skip r with
    | [] => none
    | c :: r =>
      if c = ',' then do
        let (xs, r) ← items get close k r
        some (x :: xs, r)
      else if c = close then some ([x], r)
      else none

/-- A member of an object. hotmeal-wasm/src/lib.rs:120. -/
def member (get : Str → Option (Json × Str)) (s : Str) : Option ((Str × Json) × Str) :=
  match skip s with
  | '"' :: r => do
    let (k, r) ← string r
    match skip r with
    | ':' :: r => do
      let (x, r) ← get r
      some ((k, x), r)
    | _ => none
  | _ => none

/-- A value, and what follows it. The number bounds depth and lengths. hotmeal-wasm/src/lib.rs:120. -/
def value : Nat → Str → Option (Json × Str)
  | 0, _ => none
  | k + 1, s =>
    match skip s with
    | [] => none
    | c :: r =>
      if c = 'n' then
        match r with
        | 'u' :: 'l' :: 'l' :: r => some (.null, r)
        | _ => none
      else if c = '"' then (string r).map fun p => (.str p.1, p.2)
      else if c = '[' then
        match skip r with
        | ']' :: r => some (.arr [], r)
        | _ => (items (value k) ']' k r).map fun p => (.arr p.1, p.2)
      else if c = '{' then
        match skip r with
        | '}' :: r => some (.obj [], r)
        | _ => (items (member (value k)) '}' k r).map fun p => (.obj p.1, p.2)
      else if c.isDigit then some (.num (number 0 (c :: r)).1, (number 0 (c :: r)).2)
      else none

/-- A whole text. hotmeal-wasm/src/lib.rs:120. -/
def parse (s : Str) : Option Json :=
  match value (s.length + 1) s with
  | some (x, r) => if skip r = [] then some x else none
  | none => none

/-! ### Patches as values -/

/-- `Option`. diff.rs:45, 216, 232. -/
def ofOption {α : Type} (f : α → Json) : Option α → Json
  | none => .null
  | some x => f x

/-- A variant with fields. diff.rs:189-281. -/
def variant (name : String) (x : Json) : Json := .obj [(name.toList, x)]

/-- A struct. diff.rs:44-48, 80-85, 206-214. -/
def struct (fs : List (String × Json)) : Json := .obj (fs.map fun f => (f.1.toList, f.2))

/-- `QualName` through `QualNameProxy`, diff.rs:42-77. -/
def ofName (q : QualName) : Json :=
  struct [("prefix", ofOption .str q.toProxy.prefix_), ("ns", .str q.toProxy.ns), ("local", .str q.toProxy.loc)]

/-- `AttrPair`, diff.rs:79-85. -/
def ofAttr (kv : QualName × Str) : Json := struct [("name", ofName kv.1), ("value", .str kv.2)]

mutual
/-- `InsertContent`, diff.rs:189-202. -/
def ofContent : InsertContent → Json
  | .element tag attrs cs => variant "Element"
    (struct [("tag", .str tag), ("attrs", .arr (attrs.map ofAttr)), ("children", .arr (ofContents cs))])
  | .text s => variant "Text" (.str s)
  | .comment s => variant "Comment" (.str s)
/-- The elements of `children`, diff.rs:197. -/
def ofContents : List InsertContent → List Json
  | [] => []
  | c :: cs => ofContent c :: ofContents cs
end

/-- `PropKey`, diff.rs:100-107. -/
def ofKey : PropKey → Json
  | .text => .str "Text".toList
  | .attr q => variant "Attr" (ofName q)

/-- `PropChange`, diff.rs:206-214. -/
def ofChange (c : PropChange) : Json := struct [("name", ofKey c.name), ("value", ofOption .str c.value)]

/-- `NodePath` and `NodeRef`, diff.rs:156-186. -/
def ofPath (q : Path) : Json := .arr (q.map .num)

/-- `Patch`, diff.rs:219-281. -/
def ofPatch : Patch → Json
  | .insertElement at_ tag attrs cs slot => variant "InsertElement" (struct [("at", ofPath at_), ("tag", .str tag),
      ("attrs", .arr (attrs.map ofAttr)), ("children", .arr (ofContents cs)), ("detach_to_slot", ofOption .num slot)])
  | .insertText at_ s slot => variant "InsertText"
    (struct [("at", ofPath at_), ("text", .str s), ("detach_to_slot", ofOption .num slot)])
  | .insertComment at_ s slot => variant "InsertComment"
    (struct [("at", ofPath at_), ("text", .str s), ("detach_to_slot", ofOption .num slot)])
  | .remove q => variant "Remove" (struct [("node", ofPath q)])
  | .setText q s => variant "SetText" (struct [("path", ofPath q), ("text", .str s)])
  | .setAttribute q n v => variant "SetAttribute" (struct [("path", ofPath q), ("name", ofName n), ("value", .str v)])
  | .removeAttribute q n => variant "RemoveAttribute" (struct [("path", ofPath q), ("name", ofName n)])
  | .move a b slot => variant "Move"
    (struct [("from", ofPath a), ("to", ofPath b), ("detach_to_slot", ofOption .num slot)])
  | .updateProps q ch => variant "UpdateProps" (struct [("path", ofPath q), ("changes", .arr (ch.map ofChange))])
  | .opaqueChanged q s => variant "OpaqueChanged" (struct [("path", ofPath q), ("content", .str s)])

/-- `facet_json::to_string(&patches)`, hotmeal-wasm/src/lib.rs:53. -/
def write (ps : List Patch) : Str := print (.arr (ps.map ofPatch))

/-! ### Values as patches -/

/-- A string. hotmeal-wasm/src/lib.rs:120. -/
def toStr : Json → Option Str
  | .str s => some s
  | _ => none

/-- A `u32`: larger numbers are rejected. diff.rs:161, 232. -/
def toU32 : Json → Option Nat
  | .num n => if n < 2 ^ 32 then some n else none
  | _ => none

/-- A `Vec`. diff.rs:197, 230, 276. -/
def toList {α : Type} (f : Json → Option α) : Json → Option (List α)
  | .arr xs => xs.mapM f
  | _ => none

/-- An `Option`. diff.rs:45, 216, 232. -/
def toOption {α : Type} (f : Json → Option α) : Json → Option (Option α)
  | .null => some none
  | x => (f x).map some

/-- A field of a struct, in any place; other members are ignored. hotmeal-wasm/src/lib.rs:120. -/
def field {α : Type} (name : String) (f : Json → Option α) : Json → Option α
  | .obj fs => (fs.lookup name.toList).bind f
  | _ => none

/-- `QualName` through `QualNameProxy`, diff.rs:42-77. -/
def toName (j : Json) : Option QualName := do
  let p ← field "prefix" (toOption toStr) j
  let ns ← field "ns" toStr j
  let loc ← field "local" toStr j
  some (QualNameProxy.toName ⟨p, ns, loc⟩)

/-- `AttrPair`, diff.rs:79-85. -/
def toAttr (j : Json) : Option (QualName × Str) := do
  let q ← field "name" toName j
  let v ← field "value" toStr j
  some (q, v)

/-- `InsertContent`, diff.rs:189-202. The first argument bounds the depth; the code recurses without a bound. -/
def toContent : Nat → Json → Option InsertContent
  | 0, _ => none
  | k + 1, .obj [(name, x)] =>
    if name = "Element".toList then do
      let tag ← field "tag" toStr x
      let attrs ← field "attrs" (toList toAttr) x
      let cs ← field "children" (toList (toContent k)) x
      some (.element tag attrs cs)
    else if name = "Text".toList then (toStr x).map .text
    else if name = "Comment".toList then (toStr x).map .comment
    else none
  | _ + 1, _ => none

/-- `PropKey`, diff.rs:100-107. -/
def toKey : Json → Option PropKey
  | .str s => if s = "Text".toList then some .text else none
  | .obj [(name, x)] => if name = "Attr".toList then (toName x).map .attr else none
  | _ => none

/-- `PropChange`, diff.rs:206-214. -/
def toChange (j : Json) : Option PropChange := do
  let k ← field "name" toKey j
  let v ← field "value" (toOption toStr) j
  some ⟨k, v⟩

/-- `NodePath` and `NodeRef`, diff.rs:156-186. -/
def toPath : Json → Option Path := toList toU32

/-- `Patch`, diff.rs:219-281. The first argument bounds the depth of inserted content. -/
def toPatch (depth : Nat) : Json → Option Patch
  | .obj [(name, x)] =>
    if name = "InsertElement".toList then do
      let at_ ← field "at" toPath x
      let tag ← field "tag" toStr x
      let attrs ← field "attrs" (toList toAttr) x
      let cs ← field "children" (toList (toContent depth)) x
      let slot ← field "detach_to_slot" (toOption toU32) x
      some (.insertElement at_ tag attrs cs slot)
    else if name = "InsertText".toList then do
      let at_ ← field "at" toPath x
      let s ← field "text" toStr x
      let slot ← field "detach_to_slot" (toOption toU32) x
      some (.insertText at_ s slot)
    else if name = "InsertComment".toList then do
      let at_ ← field "at" toPath x
      let s ← field "text" toStr x
      let slot ← field "detach_to_slot" (toOption toU32) x
      some (.insertComment at_ s slot)
    else if name = "Remove".toList then do
      let q ← field "node" toPath x
      some (.remove q)
    else if name = "SetText".toList then do
      let q ← field "path" toPath x
      let s ← field "text" toStr x
      some (.setText q s)
    else if name = "SetAttribute".toList then do
      let q ← field "path" toPath x
      let n ← field "name" toName x
      let v ← field "value" toStr x
      some (.setAttribute q n v)
    else if name = "RemoveAttribute".toList then do
      let q ← field "path" toPath x
      let n ← field "name" toName x
      some (.removeAttribute q n)
    else if name = "Move".toList then do
      let a ← field "from" toPath x
      let b ← field "to" toPath x
      let slot ← field "detach_to_slot" (toOption toU32) x
      some (.move a b slot)
    else if name = "UpdateProps".toList then do
      let q ← field "path" toPath x
      let ch ← field "changes" (toList toChange) x
      some (.updateProps q ch)
    else if name = "OpaqueChanged".toList then do
      let q ← field "path" toPath x
      let s ← field "content" toStr x
      some (.opaqueChanged q s)
    else none
  | _ => none

/-- `facet_json::from_str(patches_json)`, hotmeal-wasm/src/lib.rs:120. Content is not deeper than the text is long. -/
def read (s : Str) : Option (List Patch) := (parse s).bind (toList (toPatch s.length))

/-- `diff_html` of hotmeal-wasm, lib.rs:47-57, for parsed documents. -/
def diffHtml {H : Type} [DecidableEq H] (hashNode : HKind → Option Str → List H → H) (old new : Document) : Res Str := do
  let ps ← diff hashNode old new
  .ok (write ps)

/-- `apply_patches_json`, hotmeal-wasm/src/lib.rs:119-124, for a page with the body `root`: the number of patches, or
nothing when the text cannot be read or a patch fails. What a failing patch list leaves behind is the matter of
`WebDom.applyPatchesKeep`. -/
def applyJson (dom : WebDom) (root : Nat) (A : Arena NodeData) (s : Str) : Option (Nat × Arena NodeData) :=
  match read s with
  | none => none
  | some ps =>
    match dom.applyPatches root A ps with
    | .ok A' => some (ps.length, A')
    | .error _ => none

end Json
end Hotmeal
