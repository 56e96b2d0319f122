import Verif.Spec.Html

set_option autoImplicit false

/-!
# Specification: patches as rewriting of trees

What a patch does, said on trees as values: there are no nodes, ids, parents or arenas here, only
trees numbered by slots. Slot 0 holds the tree that is being patched, the other slots hold trees
that were displaced by an earlier patch and wait for a later patch.

A path `s :: q` is the tree in slot `s` and a list of child indexes.

The library and the browser client differ in a few respects, which are the fields of `Dialect`.
`Dialect.apply` is partial: `none` stands for a patch that this specification says nothing about.
-/

namespace Hotmeal

namespace Html

/-- The subtree at a list of child indexes. -/
def get? : Html → List Nat → Option Html
  | t, [] => some t
  | .element _ _ cs, i :: is => match cs[i]? with
    | none => none
    | some c => c.get? is
  | _, _ :: _ => none

/-- Put `u` in the place of the subtree at a list of child indexes. -/
def put (u : Html) : List Nat → Html → Html
  | [], _ => u
  | i :: is, .element tag attrs cs => .element tag attrs (cs.modify i (put u is))
  | _ :: _, t => t

end Html

/-- The respects in which the library and the browser client differ. -/
structure Dialect where
  /-- The attributes of an element that is created with the given attributes. -/
  create : Attrs → Attrs
  /-- `SetAttribute` -/
  setAttr : QualName → Str → Attrs → Attrs
  /-- `RemoveAttribute` -/
  removeAttr : QualName → Attrs → Attrs
  /-- `UpdateProps` -/
  update : List PropChange → Attrs → Attrs
  /-- What setting the text of an element makes of its content; `none`: not possible. -/
  elementText : Option (Str → List Html)
  /-- A node is put, without a slot for the node that is there, at an index that is taken: do the
  nodes from there on move up, or is the node that is there lost? -/
  shifts : Bool
  /-- What `OpaqueChanged` makes of the content of an element. -/
  content : Str → List Html → List Html

mutual
/-- The tree of inserted content. -/
def Dialect.made (d : Dialect) : InsertContent → Html
  | .element tag attrs cs => .element tag (d.create attrs) (d.madeL cs)
  | .text s => .text s
  | .comment s => .comment s
/-- The trees of a list of inserted content. -/
def Dialect.madeL (d : Dialect) : List InsertContent → List Html
  | [] => []
  | c :: cs => d.made c :: d.madeL cs
end

/-- Trees, by slot number. -/
abbrev Store := Nat → Option Html

namespace Store

/-- Only slot 0 is filled. -/
def init (t : Html) : Store := fun k => if k = 0 then some t else none

/-- Fill or clear a slot. -/
def slot (σ : Store) (k : Nat) (t : Option Html) : Store := fun i => if i = k then t else σ i

/-- The tree at a path. -/
def find (σ : Store) : Path → Option Html
  | [] => none
  | s :: q => match σ s with
    | none => none
    | some t => t.get? q

/-- Replace the tree at a path. -/
def write (σ : Store) : Path → Html → Store
  | [], _ => σ
  | s :: q, u => σ.slot s ((σ s).map (Html.put u q))

/-- Take the tree at a path away: a tree inside another one leaves an empty text in its place, the
tree of a slot leaves the slot empty. Slot 0 cannot be emptied. -/
def take (σ : Store) (path : Path) : Option (Html × Store) :=
  match σ.find path with
  | none => none
  | some t => match path with
    | [] => none
    | [s] => if s = 0 then none else some (t, σ.slot s none)
    | _ => some (t, σ.write path (.text []))

/-- Put `x` at index `pos` of a list of trees. Beyond the end, empty texts fill the gap. -/
def place (shifts : Bool) (pos : Nat) (x : Html) (displace : Bool) (cs : List Html) : List Html :=
  match cs[pos]? with
  | none => cs ++ List.replicate (pos - cs.length) (.text []) ++ [x]
  | some _ => if shifts && !displace then cs.take pos ++ x :: cs.drop pos else cs.set pos x

/-- Put `x` at the place given by a path and a slot for the tree that is there. -/
def insert (shifts : Bool) (σ : Store) (at_ : Path) (x : Html) (slot : Option Nat) :
    Option Store :=
  if slot = some 0 then none else
  match at_.getLast?, σ.find at_.dropLast with
  | some pos, some (.element tag attrs cs) =>
    let σ' := σ.write at_.dropLast (.element tag attrs (place shifts pos x slot.isSome cs))
    match slot, cs[pos]? with
    | some k, some occ => some (σ'.slot k (some occ))
    | _, _ => some σ'
  | _, _ => none

end Store

/-- The text that `UpdateProps` sets, if any. -/
def textChange (changes : List PropChange) : Option Str :=
  (changes.find? (fun c => decide (c.name = .text))).bind PropChange.value

/-- What a patch does. -/
def Dialect.apply (d : Dialect) (σ : Store) : Patch → Option Store
  | .insertElement at_ tag attrs cs slot =>
    σ.insert d.shifts at_ (.element tag (d.create attrs) (d.madeL cs)) slot
  | .insertText at_ s slot => σ.insert d.shifts at_ (.text s) slot
  | .insertComment at_ s slot => σ.insert d.shifts at_ (.comment s) slot
  | .remove path => (σ.take path).map Prod.snd
  | .move from_ to slot => match σ.take from_ with
    | none => none
    | some (t, σ') => σ'.insert d.shifts to t slot
  | .setText path s => match σ.find path with
    | some (.text _) => some (σ.write path (.text s))
    | some (.comment _) => some (σ.write path (.comment s))
    | some (.element tag attrs _) => d.elementText.map fun f =>
      σ.write path (.element tag attrs (f s))
    | _ => none
  | .setAttribute path name v => match σ.find path with
    | some (.element tag attrs cs) => some (σ.write path (.element tag (d.setAttr name v attrs) cs))
    | _ => none
  | .removeAttribute path name => match σ.find path with
    | some (.element tag attrs cs) => some (σ.write path (.element tag (d.removeAttr name attrs) cs))
    | _ => none
  | .updateProps path changes => match σ.find path with
    | some (.text s) => some (σ.write path (.text ((textChange changes).getD s)))
    | some (.comment s) => some (σ.write path (.comment ((textChange changes).getD s)))
    | some (.element tag attrs cs) => some (σ.write path (.element tag (d.update changes attrs)
        (match d.elementText, textChange changes with
          | some f, some t => f t
          | _, _ => cs)))
    | _ => none
  | .opaqueChanged path s => match σ.find path with
    | some (.element tag attrs cs) => some (σ.write path (.element tag attrs (d.content s cs)))
    | _ => none

/-- What a list of patches does, one after the other. -/
def Dialect.run (d : Dialect) (σ : Store) : List Patch → Option Store
  | [] => some σ
  | p :: ps => match d.apply σ p with
    | none => none
    | some σ' => d.run σ' ps

/-! ## The library -/

/-- Change the value of the first attribute with that name; a new attribute comes last. -/
def Attrs.put (same : QualName → Bool) (new : QualName) (value : Str) (a : Attrs) : Attrs :=
  match a.findIdx? (fun kv => same kv.1) with
  | some i => a.modify i (fun kv => (kv.1, value))
  | none => a ++ [(new, value)]

/-- The library: attributes are found by their qualified name, an element has no text of its own,
nodes move up, and `content` is what the parser makes of the content of an opaque element. -/
def Dialect.library (content : Str → List Html) : Dialect where
  create a := a
  setAttr name value := Attrs.put (fun k => decide (k = name)) name value
  removeAttr name a := a.filter (fun kv => kv.1 ≠ name)
  update changes a := changes.filterMap fun c => match c.name with
    | .text => none
    | .attr q => some (q, match c.value with
      | some v => v
      | none => ((a.find? (fun kv => decide (kv.1 = q))).map Prod.snd).getD [])
  elementText := none
  shifts := true
  content s _ := content s

/-! ## The browser -/

/-- The name under which an attribute is written, without an empty prefix. -/
def QualName.shown (q : QualName) : Str := match q.prefix_ with
  | none => q.loc
  | some [] => q.loc
  | some p => p ++ ':' :: q.loc

/-- The name under which an attribute is written. -/
def QualName.written (q : QualName) : Str := match q.prefix_ with
  | none => q.loc
  | some p => p ++ ':' :: q.loc

/-- Set the attribute with a written name. -/
def Attrs.putWritten (name value : Str) (a : Attrs) : Attrs :=
  a.put (fun k => decide (k.written = name)) ⟨none, [], name⟩ value

/-- Attributes whose written name occurred before. -/
def Attrs.repeated (seen : List Str) : Attrs → Attrs
  | [] => []
  | (k, v) :: rest =>
    if k.written ∈ seen then (k, v) :: repeated seen rest else repeated (k.written :: seen) rest

/-- The browser: attributes are found by their written name, setting the text of an element replaces
its content, a node at a taken index is lost, and opaque content is left alone. -/
def Dialect.page : Dialect where
  create a := a.foldl (fun acc kv => acc.putWritten kv.1.shown kv.2) []
  setAttr name value a := a.putWritten name.shown value
  removeAttr name a := match a.findIdx? (fun kv => decide (kv.1.written = name.shown)) with
    | some i => a.eraseIdx i
    | none => a
  update changes a := changes.foldl (fun acc c => match c.name with
    | .text => acc
    | .attr q => acc.putWritten q.written (match c.value with
      | some v => v
      | none => ((a.reverse.find? (fun kv => decide (kv.1.written = q.written))).map Prod.snd).getD []))
    (a.repeated [])
  elementText := some fun s => if s = [] then [] else [.text s]
  shifts := false
  content _ cs := cs

end Hotmeal
