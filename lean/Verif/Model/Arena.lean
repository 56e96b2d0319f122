import Verif.Model.Basic

/-!
# The arena

Model of `indextree::Arena` 4.7.4 (external crate; behaviour taken from its documentation).
Nodes are never freed by the modelled code, so an arena is a bound on the ids in use and three
total functions. Sibling links are represented by the order of the child list; links between
parentless siblings (created by `insert_before` on a parentless node and removed by the
`detach` that always follows it in the modelled code) are not represented.
-/

namespace Hotmeal

/-- `indextree::Arena<α>`. Used for all trees: hotmeal/src/dom.rs:35-40, cinereus/src/tree.rs:385-390. -/
structure Arena (α : Type) where
  /-- ids in use are those below `next` -/
  next : Nat
  parent : Nat → Option Nat
  children : Nat → List Nat
  data : Nat → α

namespace Arena

variable {α : Type}

/-- Point update of a function. Models the assignments through `get_mut`, e.g. dom.rs:270, and `HashMap::insert`. -/
def upd {β : Type} (f : Nat → β) (n : Nat) (v : β) : Nat → β := fun m => if m = n then v else f m

/-- `Arena::new_node`: a fresh, parentless, childless node. Used at dom.rs:208, 223, 515 and others, tree.rs:411. -/
def newNode (A : Arena α) (d : α) : Arena α × Nat :=
  ({ next := A.next + 1
     parent := upd A.parent A.next none
     children := upd A.children A.next []
     data := upd A.data A.next d }, A.next)

/-- `arena[id].get_mut()` assignment. Used at dom.rs:563-625, diff.rs:949. -/
def setData (A : Arena α) (n : Nat) (d : α) : Arena α := { A with data := upd A.data n d }

/-- `NodeId::detach`. Used at dom.rs:265, 559, 732, diff.rs:1322. -/
def detach (A : Arena α) (n : Nat) : Arena α :=
  match A.parent n with
  | none => A
  | some p =>
    { A with
      parent := upd A.parent n none
      children := upd A.children p ((A.children p).erase n) }

/-- Walk up from `n` looking for `x`, including `n` itself. Fuelled version of
`NodeId::ancestors(arena).any(|a| a == x)`. Models the check inside `append` of indextree, called at dom.rs:250. -/
def isAncestorOrSelf (A : Arena α) (x : Nat) : Nat → Nat → Bool
  | 0, n => n == x
  | k + 1, n => n == x || match A.parent n with
    | none => false
    | some p => isAncestorOrSelf A x k p

/-- The effect of `NodeId::append` once its precondition is checked: detach `c` and make it the
last child of `p`. Used at dom.rs:250, 773, diff.rs:1323. -/
def appendRaw (A : Arena α) (p c : Nat) : Arena α :=
  let A := A.detach c
  { A with
    parent := upd A.parent c (some p)
    children := upd A.children p (A.children p ++ [c]) }

/-- `NodeId::append`: panics when `c` is `p` or an ancestor of `p`. Used at dom.rs:250, 773, diff.rs:1323. -/
def append (A : Arena α) (p c : Nat) : Res (Arena α) :=
  if A.isAncestorOrSelf c A.next p then .error .panic else .ok (A.appendRaw p c)

/-- `new_node` followed by `append` of the new node. A fresh node is never an ancestor, so the
precondition of `append` holds (`Arena.append_newNode`) and the unchecked effect is used.
As in `Tree::add_child`, tree.rs:410-414, and dom.rs:515-523. -/
def addChild (A : Arena α) (p : Nat) (d : α) : Arena α × Nat :=
  let (A, c) := A.newNode d
  (A.appendRaw p c, c)

/-- Insert `x` in a list before the first occurrence of `s`.
Effect of `insert_before` (dom.rs:255) on the list of children. -/
def insBefore (s x : Nat) : List Nat → List Nat
  | [] => []
  | y :: ys => if y = s then x :: y :: ys else y :: insBefore s x ys

/-- Insert `x` in a list after the first occurrence of `s`.
Effect of `insert_after` (dom.rs:260) on the list of children. -/
def insAfter (s x : Nat) : List Nat → List Nat
  | [] => []
  | y :: ys => if y = s then y :: x :: ys else y :: insAfter s x ys

/-- `NodeId::insert_before`: `sib.insert_before(new)`. Panics on `sib = new` and when the parent
of `sib` is `new`; no deeper cycle check. On a parentless `sib` the new node ends up parentless
(only sibling links change, see the file comment). Used at dom.rs:255, 558, 776, 1563, diff.rs:1337. -/
def insertBefore (A : Arena α) (sib new : Nat) : Res (Arena α) :=
  if sib = new then .error .panic
  else
    let A := A.detach new
    match A.parent sib with
    | none => .ok A
    | some p =>
      if p = new then .error .panic
      else .ok { A with
        parent := upd A.parent new (some p)
        children := upd A.children p (insBefore sib new (A.children p)) }

/-- `NodeId::insert_after`, same preconditions as `insertBefore`. Used at dom.rs:260. -/
def insertAfter (A : Arena α) (sib new : Nat) : Res (Arena α) :=
  if sib = new then .error .panic
  else
    let A := A.detach new
    match A.parent sib with
    | none => .ok A
    | some p =>
      if p = new then .error .panic
      else .ok { A with
        parent := upd A.parent new (some p)
        children := upd A.children p (insAfter sib new (A.children p)) }

/-- Index of a node in a child list, `iter().position(|c| c == n).unwrap_or(0)`.
As at tree.rs:437-445, diff.rs:681-697 and 1267-1277. -/
def posIn (l : List Nat) (n : Nat) : Nat := if n ∈ l then l.idxOf n else 0

/-- Generic bottom-up recursion over a subtree with fuel: every recursive read-only function of
the code over a subtree is an instance. For example dom.rs:822-945, diff.rs:587-627. -/
def foldF {β : Type} (A : Arena α) (alg : Nat → List β → β) : Nat → Nat → β
  | 0, n => alg n []
  | k + 1, n => alg n ((A.children n).map (foldF A alg k))

/-- `foldF` with enough fuel for any acyclic arena (`Arena.fold_eq`). For example dom.rs:822-945, diff.rs:587-627. -/
def fold {β : Type} (A : Arena α) (alg : Nat → List β → β) (n : Nat) : β := A.foldF alg A.next n

/-- `NodeId::descendants`: pre-order, including the node itself. Used at diff.rs:545 and 708, tree.rs:450 and 461. -/
def descendants (A : Arena α) (n : Nat) : List Nat :=
  A.fold (fun n rs => n :: rs.flatten) n

/-- The explicit-stack post-order iterator, hotmeal/src/diff.rs:732-762 and
cinereus/src/tree.rs:536-568, with fuel counting stack pops. -/
def postOrderLoop (A : Arena α) : Nat → List (Nat × Bool) → List Nat
  | 0, _ => []
  | _, [] => []
  | k + 1, (n, true) :: st => n :: postOrderLoop A k st
  | k + 1, (n, false) :: st =>
    postOrderLoop A k ((A.children n).map (fun c => (c, false)) ++ (n, true) :: st)

/-- `PostOrderIterator::new(root).collect()`. Every node is popped twice. diff.rs:732-765, tree.rs:536-570. -/
def postOrder (A : Arena α) (root : Nat) : List Nat :=
  A.postOrderLoop (2 * A.next + 2) [(root, false)]

end Arena
end Hotmeal
