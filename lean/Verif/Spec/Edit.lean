import Verif.Model.EditScript

set_option autoImplicit false

/-!
# What an edit script says, read as a description

An edit script is read here as a set of statements about the tree that comes out, without an order of execution.
Nothing of the generator (`Model/EditScript`) is used but the type of operations.
-/

namespace Hotmeal

/-- A node of the tree that comes out: kept from the old tree, or inserted. -/
inductive EditNode
  | kept (a : Nat)
  | fresh (b : Nat)
  deriving DecidableEq, Repr

variable (A : Arena TData) (pairs : List (Nat × Nat)) (ops : List EditOp)

/-- The node that stands for the node `b` of the new tree: the old node that it is matched with, or the one
inserted for it. -/
inductive Stands : Nat → EditNode → Prop
  | kept {a b : Nat} : (a, b) ∈ pairs → Stands b (.kept a)
  | fresh {b pb i : Nat} {k : HKind} : .insert b pb i k ∈ ops → Stands b (.fresh b)

/-- `Placed c p i`: `c` is child number `i` of `p` in the tree that comes out, because the script says so or
because `c` is neither moved nor deleted. -/
inductive Placed : EditNode → EditNode → Nat → Prop
  | insert {b pb i : Nat} {k : HKind} {p : EditNode} : .insert b pb i k ∈ ops → Stands pairs ops pb p →
    Placed (.fresh b) p i
  | move {a b pb i : Nat} {p : EditNode} : .move a b pb i ∈ ops → Stands pairs ops pb p → Placed (.kept a) p i
  | stay {a pa i : Nat} : (∀ b pb j, .move a b pb j ∉ ops) → .delete a ∉ ops → A.parent a = some pa →
    (A.children pa)[i]? = some a → Placed (.kept a) (.kept pa) i

/-- The text of the kept node `a`: the one that the script sets, or the old one. -/
inductive TextAfter (a : Nat) : Option Str → Prop
  | set {b : Nat} {t : Str} : .setText a b t ∈ ops → TextAfter a (some t)
  | same : (∀ b t, .setText a b t ∉ ops) → TextAfter a (A.data a).text

/-- The list `new` has, in order, the attributes named by the changes, with the value of the change or the old
value. -/
inductive AttrsAfter (old : Attrs) : List PropFinal → Attrs → Prop
  | nil : AttrsAfter old [] []
  | different {q : QualName} {v : Str} {cs : List PropFinal} {new : Attrs} : AttrsAfter old cs new →
    AttrsAfter old (⟨.attr q, .different v⟩ :: cs) ((q, v) :: new)
  | same {q : QualName} {v : Str} {cs : List PropFinal} {new : Attrs} : (q, v) ∈ old → AttrsAfter old cs new →
    AttrsAfter old (⟨.attr q, .same⟩ :: cs) ((q, v) :: new)

/-- The attributes of the kept node `a`: updated by the script, or the old ones. -/
inductive PropsAfter (a : Nat) : Attrs → Prop
  | update {b : Nat} {ch : List PropFinal} {new : Attrs} : .updateProps a b ch ∈ ops →
    AttrsAfter (A.data a).props ch new → PropsAfter a new
  | same : (∀ b ch, .updateProps a b ch ∉ ops) → PropsAfter a (A.data a).props

end Hotmeal
