import Verif.Model.Dom

/-!
# Walking through a document (hotmeal/src/dom.rs:294-318)

The links between siblings are those of `indextree`, of which the arena of the model has the lists of children. For a node
without parent the model has no siblings (see `Verif/Model/Arena.lean`), so nothing is said about such nodes below.
-/

namespace Hotmeal
namespace Document

/-- `Document::parent`, dom.rs:295-298. -/
def parentOf (D : Document) (n : Nat) : Option Nat := D.arena.parent n

/-- `Document::first_child`, dom.rs:300-303. -/
def firstChild (D : Document) (n : Nat) : Option Nat := (D.arena.children n).head?

/-- `Document::last_child`, dom.rs:305-308. -/
def lastChild (D : Document) (n : Nat) : Option Nat := (D.arena.children n).getLast?

/-- `Document::next_sibling`, dom.rs:310-313: the child after `n` in the list of its parent. -/
def nextSibling (D : Document) (n : Nat) : Option Nat :=
  match D.arena.parent n with
  | none => none
  | some p => (D.arena.children p)[(D.arena.children p).idxOf n + 1]?

/-- `Document::prev_sibling`, dom.rs:315-318: the child before `n` in the list of its parent. -/
def prevSibling (D : Document) (n : Nat) : Option Nat :=
  match D.arena.parent n with
  | none => none
  | some p => match (D.arena.children p).idxOf n with
    | 0 => none
    | i + 1 => (D.arena.children p)[i]?

/-- `Document::child_count`, dom.rs:320-323. -/
def childCount (D : Document) (n : Nat) : Nat := (D.arena.children n).length

end Document
end Hotmeal
