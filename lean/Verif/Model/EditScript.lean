import Verif.Model.Matching

/-!
# Edit script (cinereus/src/chawathe.rs)
-/

namespace Hotmeal

/-- `EditOp`, cinereus/src/chawathe.rs:27-78. -/
inductive EditOp
  | updateProps (a b : Nat) (changes : List PropFinal)
  | setText (a b : Nat) (text : Str)
  | insert (b parentB position : Nat) (kind : HKind)
  | move (a b newParentB newPosition : Nat)
  | delete (a : Nat)
  deriving DecidableEq, Repr, Inhabited

variable {H : Type} [DecidableEq H]

/-- Is the change a `PropValue::Different`? cinereus/src/chawathe.rs:256-258. -/
def PropFinal.isDifferent (c : PropFinal) : Bool := match c.value with
  | .same => false
  | .different _ => true

/-- Property part of phase 1, chawathe.rs:243-266. -/
def propOps (TA TB : DiffTree H) (a b : Nat) : List EditOp :=
  if (TA.props a).isEmpty && (TB.props b).isEmpty then []
  else
    let changes := (TA.props a).diff (TB.props b)
    if changes.any PropFinal.isDifferent || changes.length < (TA.props a).length then
      [.updateProps a b changes]
    else []

/-- Text part of phase 1, chawathe.rs:225-241. -/
def textOps (TA TB : DiffTree H) (a b : Nat) : List EditOp :=
  if TA.text a = TB.text b then []
  else match TB.text b with
    | some t => [.setText a b t]
    | none => []

/-- Phase 1, chawathe.rs:219-267. -/
def updateOps (TA TB : DiffTree H) (M : Matching) (opqA opqB : List Nat) : List EditOp :=
  M.pairs.flatMap fun p =>
    if p.1 ∈ opqA ∨ p.2 ∈ opqB then []
    else textOps TA TB p.1 p.2 ++ propOps TA TB p.1 p.2

/-- Phases 2 and 3, chawathe.rs:269-290. -/
def insertOps (TB : DiffTree H) (M : Matching) (opqB : List Nat) : List EditOp :=
  TB.iter.flatMap fun b =>
    if M.containsB b then []
    else match TB.parent b with
      | none => []
      | some pb => if b ∈ opqB then [] else [.insert b pb (TB.position b) (TB.kind b)]

/-- The decision of phase 4 for one pair, chawathe.rs:300-370. -/
def moveOp (TA TB : DiffTree H) (M : Matching) (opqA opqB : List Nat) (p : Nat × Nat) :
    List EditOp :=
  if p.1 ∈ opqA ∨ p.2 ∈ opqB then []
  else match TA.parent p.1, TB.parent p.2 with
    | some pa, some pb =>
      if M.getB pa ≠ some pb then [.move p.1 p.2 pb (TB.position p.2)]
      else if TA.position p.1 ≠ TB.position p.2 then [.move p.1 p.2 pb (TB.position p.2)]
      else []
    | _, _ => []

/-- Phase 4, chawathe.rs:292-371. -/
def moveOps (TA TB : DiffTree H) (M : Matching) (opqA opqB : List Nat) : List EditOp :=
  M.pairs.flatMap (moveOp TA TB M opqA opqB)

/-- Phase 5, chawathe.rs:373-383. -/
def deleteOps (TA : DiffTree H) (M : Matching) (opqA : List Nat) : List EditOp :=
  TA.postOrder.flatMap fun a =>
    if M.containsA a then [] else if a ∈ opqA then [] else [.delete a]

/-- `generate_edit_script`, chawathe.rs:182-387. -/
def generateEditScript (TA TB : DiffTree H) (M : Matching) : List EditOp :=
  let opqA := opaqueDescendants TA
  let opqB := opaqueDescendants TB
  updateOps TA TB M opqA opqB ++ insertOps TB M opqB ++ moveOps TA TB M opqA opqB ++
    deleteOps TA M opqA

/-- `diff_trees`, cinereus/src/lib.rs:79-101: the entry point of the crate when it is used on its own. -/
def diffTrees (TA TB : DiffTree H) (cfg : Config) : List EditOp :=
  generateEditScript TA TB (computeMatching TA TB cfg)

end Hotmeal
