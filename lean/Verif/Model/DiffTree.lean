import Verif.Model.Arena

/-!
# Attributes and the tree interface used by the matcher
-/

namespace Hotmeal

/-- A score is an exact fraction `num / den`; the code uses `f64`.
hotmeal/src/diff.rs:420, cinereus/src/matching.rs:684. -/
structure Score where
  num : Nat
  den : Nat
  deriving DecidableEq, Repr, Inhabited

namespace Score
/-- `s >= t` for fractions with positive denominators. Used at matching.rs:477, 528, 554, 613 and 656. -/
def ge (s t : Score) : Bool := t.num * s.den ≤ s.num * t.den
/-- `s > t` for fractions with positive denominators. Used at matching.rs:528. -/
def gt (s t : Score) : Bool := t.num * s.den < s.num * t.den
end Score

namespace Attrs

/-- Attribute names in order. hotmeal/src/diff.rs:426-427. -/
def keys (a : Attrs) : List QualName := a.map Prod.fst

/-- `attrs.iter().find(|(k, _)| k == key).map(|(_, v)| v)`, hotmeal/src/diff.rs:466. -/
def find (a : Attrs) (k : QualName) : Option Str := (a.find? (fun kv => kv.1 = k)).map Prod.snd

/-- The names of a list without duplicates, as collected into a `HashSet`,
hotmeal/src/diff.rs:426-427. -/
def keySet (a : Attrs) : List QualName := a.keys.eraseDups

/-- `HtmlProps::similarity`, hotmeal/src/diff.rs:420-437. -/
def similarity (a b : Attrs) : Score :=
  if a.isEmpty && b.isEmpty then ⟨1, 1⟩
  else
    let inter := (a.keySet.filter (fun k => k ∈ b.keySet)).length
    let union := a.keySet.length + b.keySet.length
    if union = 0 then ⟨1, 1⟩ else ⟨2 * inter, union⟩

/-- The loop of `HtmlProps::diff`, hotmeal/src/diff.rs:464-484; `forced` is `forced_one`. -/
def diffLoop (self : Attrs) (orderDiffers : Bool) : Bool → Attrs → List PropFinal
  | _, [] => []
  | forced, (key, newVal) :: rest =>
    let valueSame := self.find key = some newVal
    let force := orderDiffers && decide valueSame && !forced
    let value := if valueSame ∧ ¬ force then PropValue.same else PropValue.different newVal
    ⟨.attr key, value⟩ :: diffLoop self orderDiffers (forced || force) rest

/-- `HtmlProps::diff`, hotmeal/src/diff.rs:439-487. -/
def diff (self other : Attrs) : List PropFinal :=
  let selfCommon := self.keys.filter (fun k => k ∈ other.keys)
  let otherCommon := other.keys.filter (fun k => k ∈ self.keys)
  diffLoop self (selfCommon != otherCommon) false other

/-- `is_opaque`, hotmeal/src/diff.rs:719-728 and 815-821. -/
def isOpaque (a : Attrs) : Bool := a.any (fun kv => kv.1.loc == "data-hotmeal-opaque".toList)

end Attrs

/-- The trait `DiffTree`, cinereus/src/tree.rs:67-135, as a record of its methods. `H` is the
type of subtree hashes (`NodeHash(u64)` in the code). -/
structure DiffTree (H : Type) where
  root : Nat
  hash : Nat → H
  kind : Nat → HKind
  props : Nat → Attrs
  text : Nat → Option Str
  parent : Nat → Option Nat
  children : Nat → List Nat
  position : Nat → Nat
  height : Nat → Nat
  iter : List Nat
  postOrder : List Nat
  descendants : Nat → List Nat
  isOpaque : Nat → Bool

namespace DiffTree
/-- `child_count`, cinereus/src/tree.rs:96-98. -/
def childCount {H : Type} (T : DiffTree H) (n : Nat) : Nat := (T.children n).length

/-- The algebra of `height`, cinereus/src/tree.rs:461-472 and hotmeal/src/diff.rs:592-601. -/
def heightAlg (_ : Nat) (hs : List Nat) : Nat := if hs.isEmpty then 0 else 1 + hs.foldl max 0

/-- `impl DiffTree for Tree` (cinereus/src/tree.rs:475-533 wrapped by `OpaqueAwareTree`,
hotmeal/src/diff.rs:768-822) and `impl DiffTree for DiffableDocument`
(hotmeal/src/diff.rs:636-729): both read an arena in the same way. `hashNode` stands for the
Merkle hash of kind, optional text and child hashes (hotmeal/src/diff.rs:604-619, 923-952).
The node table and the position cache of `DiffableDocument` are in `Model/Tables`; C69 shows that they change nothing. -/
def ofArena {H : Type} (hashNode : HKind → Option Str → List H → H) (A : Arena TData)
    (root : Nat) : DiffTree H where
  root := root
  hash := A.fold (fun n hs => hashNode (A.data n).kind (A.data n).text hs)
  kind := fun n => (A.data n).kind
  props := fun n => (A.data n).props
  text := fun n => (A.data n).text
  parent := A.parent
  children := A.children
  position := fun n => match A.parent n with
    | none => 0
    | some p => Arena.posIn (A.children p) n
  height := A.fold heightAlg
  iter := A.descendants root
  postOrder := A.postOrder root
  descendants := A.descendants
  isOpaque := fun n => (A.data n).props.isOpaque

end DiffTree
end Hotmeal
