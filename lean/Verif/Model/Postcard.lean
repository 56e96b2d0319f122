import Verif.Model.Server
import Verif.Model.WasmKeep
import Verif.Model.Wire

set_option autoImplicit false

/-!
# Patches and events as bytes

`facet_postcard::to_vec` and `from_slice`, as called at hotmeal-server/src/lib.rs:74-81 and 155 and
hotmeal-wasm/src/lib.rs:145-149 and 174-181. The crate is not part of the repository. This is the postcard wire
format as published: numbers are varints (seven bits to a byte, the lowest first, the top bit of all bytes but the
last is set), strings and byte vectors have their length in bytes in front, other vectors the number of elements, an
`Option` is a byte 0 or a byte 1 and the value, the fields of a struct follow each other, and an enum starts with the
number of the variant. `Stem` is a string (`#[facet(cow)]`, stem.rs:15), names go through their proxies.

The writer runs on the server, where a length has 64 bits, and the reader in the browser, where it has 32 (wasm32).
-/

namespace Hotmeal.Postcard

/-- The bytes of a message. hotmeal-server/src/lib.rs:66. -/
abbrev Bytes := List UInt8

/-! ### Writing -/

/-- A varint of at most `k` bytes (5 for `u32`, 10 for `usize` on the server). Postcard wire format, for
hotmeal-server/src/lib.rs:155. -/
def putVarint : Nat → Nat → Bytes
  | 0, _ => []
  | k + 1, n => if n < 128 then [n.toUInt8] else (n % 128 + 128).toUInt8 :: putVarint k (n / 128)

/-- A `u32`. diff.rs:161. -/
def putU32 (n : Nat) : Bytes := putVarint 5 n

/-- A length (`usize` of the server). hotmeal-server/src/lib.rs:155. -/
def putLen (n : Nat) : Bytes := putVarint 10 n

/-- The bytes of a text: UTF-8. hotmeal-server/src/lib.rs:65. -/
def utf8 (s : Str) : Bytes := s.flatMap String.utf8EncodeChar

/-- A byte vector. hotmeal-server/src/lib.rs:66. -/
def putBytes (b : Bytes) : Bytes := putLen b.length ++ b

/-- A `String` or a `Stem`. diff.rs:30, stem.rs:17-20. -/
def putStr (s : Str) : Bytes := putBytes (utf8 s)

/-- An `Option`. diff.rs:45, 216, 232. -/
def putOption {α : Type} (put : α → Bytes) : Option α → Bytes
  | none => [0]
  | some x => 1 :: put x

/-- The elements of a vector. diff.rs:197, 230, 276. -/
def putAll {α : Type} (put : α → Bytes) (xs : List α) : Bytes := xs.flatMap put

/-- A `Vec`. diff.rs:197, 230, 276. -/
def putSeq {α : Type} (put : α → Bytes) (xs : List α) : Bytes := putLen xs.length ++ putAll put xs

/-- `QualName` through `QualNameProxy`, diff.rs:42-77. -/
def putName (q : QualName) : Bytes :=
  putOption putStr q.toProxy.prefix_ ++ putStr q.toProxy.ns ++ putStr q.toProxy.loc

/-- `AttrPair`, diff.rs:79-85. -/
def putAttr (kv : QualName × Str) : Bytes := putName kv.1 ++ putStr kv.2

mutual
/-- `InsertContent`, diff.rs:189-202. -/
def putContent : InsertContent → Bytes
  | .element tag attrs cs => 0 :: (putStr tag ++ putSeq putAttr attrs ++ (putLen cs.length ++ putContents cs))
  | .text s => 1 :: putStr s
  | .comment s => 2 :: putStr s
/-- The elements of `children`, diff.rs:197. -/
def putContents : List InsertContent → Bytes
  | [] => []
  | c :: cs => putContent c ++ putContents cs
end

/-- `PropKey`, diff.rs:100-107. -/
def putKey : PropKey → Bytes
  | .text => [0]
  | .attr q => 1 :: putName q

/-- `PropChange`, diff.rs:206-214. -/
def putChange (c : PropChange) : Bytes := putKey c.name ++ putOption putStr c.value

/-- `NodePath` and `NodeRef`, diff.rs:156-186. -/
def putPath (q : Path) : Bytes := putSeq putU32 q

/-- `Patch`, diff.rs:219-281. -/
def putPatch : Patch → Bytes
  | .insertElement at_ tag attrs cs slot =>
    0 :: (putPath at_ ++ putStr tag ++ putSeq putAttr attrs ++ (putLen cs.length ++ putContents cs) ++
      putOption putU32 slot)
  | .insertText at_ s slot => 1 :: (putPath at_ ++ putStr s ++ putOption putU32 slot)
  | .insertComment at_ s slot => 2 :: (putPath at_ ++ putStr s ++ putOption putU32 slot)
  | .remove q => 3 :: putPath q
  | .setText q s => 4 :: (putPath q ++ putStr s)
  | .setAttribute q n v => 5 :: (putPath q ++ putName n ++ putStr v)
  | .removeAttribute q n => 6 :: (putPath q ++ putName n)
  | .move a b slot => 7 :: (putPath a ++ putPath b ++ putOption putU32 slot)
  | .updateProps q ch => 8 :: (putPath q ++ putSeq putChange ch)
  | .opaqueChanged q s => 9 :: (putPath q ++ putStr s)

/-- `facet_postcard::to_vec(&owned_patches)`, hotmeal-server/src/lib.rs:155. -/
def writePatches (ps : List Patch) : Bytes := putSeq putPatch ps

/-- `LiveReloadEvent::to_postcard`, hotmeal-server/src/lib.rs:74-76, with the patches encoded before (lib.rs:155). -/
def writeEvent : Event → Bytes
  | .reload => [0]
  | .patches route ps => 1 :: (putStr route ++ putBytes (writePatches ps))
  | .headChanged route => 2 :: putStr route

/-! ### Reading -/

/-- A reader takes bytes from the front, or fails. hotmeal-wasm/src/lib.rs:178. -/
abbrev Reader := StateT Bytes Option

/-- The next byte. hotmeal-wasm/src/lib.rs:178. -/
def getByte : Reader UInt8
  | [] => none
  | b :: bs => some (b, bs)

/-- A varint of at most `k` bytes. hotmeal-wasm/src/lib.rs:178. -/
def getVarint : Nat → Reader Nat
  | 0 => fun _ => none
  | k + 1 => do
    let b ← getByte
    if b < 128 then pure b.toNat
    else do
      let n ← getVarint k
      pure (b.toNat - 128 + 128 * n)

/-- A number of 32 bits: `u32`, and lengths in the browser. hotmeal-wasm/src/lib.rs:178. -/
def getU32 : Reader Nat := do
  let n ← getVarint 5
  if n < 2 ^ 32 then pure n else fun _ => none

/-- The next `n` bytes. hotmeal-wasm/src/lib.rs:178. -/
def take (n : Nat) : Reader Bytes := fun bs => if n ≤ bs.length then some (bs.take n, bs.drop n) else none

/-- A byte vector. hotmeal-server/src/lib.rs:66. -/
def getBytes : Reader Bytes := do
  let n ← getU32
  take n

/-- `String::from_utf8` of the standard library: fails on bytes that are not UTF-8. hotmeal-wasm/src/lib.rs:178. -/
def fromUtf8 (b : Bytes) : Option Str := b.toByteArray.utf8Decode?.map Array.toList

/-- A string. diff.rs:30, stem.rs:17-20. -/
def getStr : Reader Str := do
  let b ← getBytes
  fun bs => (fromUtf8 b).map (·, bs)

/-- An `Option`. diff.rs:45, 216, 232. -/
def getOption {α : Type} (get : Reader α) : Reader (Option α) := do
  let b ← getByte
  if b = 0 then pure none
  else if b = 1 then do
    let x ← get
    pure (some x)
  else fun _ => none

/-- `n` elements. diff.rs:197, 230, 276. -/
def getAll {α : Type} (get : Reader α) : Nat → Reader (List α)
  | 0 => pure []
  | n + 1 => do
    let x ← get
    let xs ← getAll get n
    pure (x :: xs)

/-- A `Vec`. diff.rs:197, 230, 276. -/
def getSeq {α : Type} (get : Reader α) : Reader (List α) := do
  let n ← getU32
  getAll get n

/-- `QualName` through `QualNameProxy`, diff.rs:42-77. -/
def getName : Reader QualName := do
  let p ← getOption getStr
  let ns ← getStr
  let loc ← getStr
  pure (QualNameProxy.toName ⟨p, ns, loc⟩)

/-- `AttrPair`, diff.rs:79-85. -/
def getAttr : Reader (QualName × Str) := do
  let q ← getName
  let v ← getStr
  pure (q, v)

/-- `InsertContent`, diff.rs:189-202. The first argument bounds the depth; the code recurses without a bound. -/
def getContent : Nat → Reader InsertContent
  | 0 => fun _ => none
  | k + 1 => do
    let d ← getU32
    match d with
    | 0 => do
      let tag ← getStr
      let attrs ← getSeq getAttr
      let cs ← getSeq (getContent k)
      pure (.element tag attrs cs)
    | 1 => do
      let s ← getStr
      pure (.text s)
    | 2 => do
      let s ← getStr
      pure (.comment s)
    | _ => fun _ => none

/-- `PropKey`, diff.rs:100-107. -/
def getKey : Reader PropKey := do
  let d ← getU32
  match d with
  | 0 => pure .text
  | 1 => do
    let q ← getName
    pure (.attr q)
  | _ => fun _ => none

/-- `PropChange`, diff.rs:206-214. -/
def getChange : Reader PropChange := do
  let k ← getKey
  let v ← getOption getStr
  pure ⟨k, v⟩

/-- `NodePath` and `NodeRef`, diff.rs:156-186. -/
def getPath : Reader Path := getSeq getU32

/-- `Patch`, diff.rs:219-281. The argument bounds the depth of inserted content. -/
def getPatch (depth : Nat) : Reader Patch := do
  let d ← getU32
  match d with
  | 0 => do
    let at_ ← getPath
    let tag ← getStr
    let attrs ← getSeq getAttr
    let cs ← getSeq (getContent depth)
    let slot ← getOption getU32
    pure (.insertElement at_ tag attrs cs slot)
  | 1 => do
    let at_ ← getPath
    let s ← getStr
    let slot ← getOption getU32
    pure (.insertText at_ s slot)
  | 2 => do
    let at_ ← getPath
    let s ← getStr
    let slot ← getOption getU32
    pure (.insertComment at_ s slot)
  | 3 => do
    let q ← getPath
    pure (.remove q)
  | 4 => do
    let q ← getPath
    let s ← getStr
    pure (.setText q s)
  | 5 => do
    let q ← getPath
    let n ← getName
    let v ← getStr
    pure (.setAttribute q n v)
  | 6 => do
    let q ← getPath
    let n ← getName
    pure (.removeAttribute q n)
  | 7 => do
    let a ← getPath
    let b ← getPath
    let slot ← getOption getU32
    pure (.move a b slot)
  | 8 => do
    let q ← getPath
    let ch ← getSeq getChange
    pure (.updateProps q ch)
  | 9 => do
    let q ← getPath
    let s ← getStr
    pure (.opaqueChanged q s)
  | _ => fun _ => none

/-- `facet_postcard::from_slice(patches_blob)`, hotmeal-wasm/src/lib.rs:146 and 178. Content cannot be deeper than the
message is long. Bytes behind the value are ignored, as by `postcard::from_bytes`. -/
def readPatches (b : Bytes) : Option (List Patch) := (getSeq (getPatch b.length) b).map Prod.fst

/-- An event as the browser gets it, hotmeal-server/src/lib.rs:58-70: the patches are still bytes. -/
inductive RawEvent
  | reload
  | patches (route : Str) (blob : Bytes)
  | headChanged (route : Str)
  deriving DecidableEq, Repr

/-- `LiveReloadEvent`, hotmeal-server/src/lib.rs:58-70. -/
def getEvent : Reader RawEvent := do
  let d ← getU32
  match d with
  | 0 => pure .reload
  | 1 => do
    let route ← getStr
    let blob ← getBytes
    pure (.patches route blob)
  | 2 => do
    let route ← getStr
    pure (.headChanged route)
  | _ => fun _ => none

/-- `LiveReloadEvent::from_postcard`, hotmeal-server/src/lib.rs:79-81. -/
def readEvent (b : Bytes) : Option RawEvent := (getEvent b).map Prod.fst

/-- `on_event` and `handle_live_reload_event` of the client, hotmeal-wasm/src/lib.rs:174-181 and 204-235, for an event
that comes as bytes: an error of the decoder or of a patch is only logged. -/
def handleBytes (dom : WebDom) (fresh p : Page) (b : Bytes) : Page :=
  match readEvent b with
  | none => p
  | some .reload => fresh
  | some (.headChanged _) => fresh
  | some (.patches _ blob) =>
    match readPatches blob with
    | none => p
    | some ps => { p with arena := (dom.applyPatchesKeep p.body p.arena ps).1 }

/-- As `keepRun`, with the events sent as bytes: hotmeal-server/src/lib.rs:74-76, hotmeal-wasm/src/lib.rs:174-181,
204-208 and 254-320. -/
def byteRun {E : Type} (dom : WebDom) (diffHtml : Str → Str → Except E (List Patch)) (load : Str → Page)
    (route : Str) (S : Server) (p : Page) : List (Bool × Server.Call) → Server × Page
  | [] => (S, p)
  | (on, c) :: cs =>
    let (S, ev) := S.run diffHtml c
    let p := if on = true ∧ c.route = some route then
        match ev with
        | none => p
        | some e => handleBytes dom (((S.html route).map load).getD p) p (writeEvent e)
      else p
    byteRun dom diffHtml load route S p cs

end Hotmeal.Postcard
