import Verif.Model.Diff

set_option autoImplicit false

/-!
# `diff` with the tables and caches of the code

`Model/Matching`, `Model/EditScript` and `Model/Diff` compute hashes, heights, positions and sets of descendants
where they are needed, and a matching is a pair of functions. The code computes hashes and heights once into a
table, finds positions and descendant sets on demand and keeps them, and a matching is a pair of vectors that grow.
This module follows the code in that respect. A `HashMap` is a function to `Option`; a `HashSet` is a list without
repetitions, and where the code iterates over one, the order is a parameter. `C69` shows that the result is the same.

Not repeated here: the conversion of the script to patches, whose two tables (`b_to_shadow` and
`nodes_with_insert_ops`) are already tables in `Model/Diff`.

Scores (`Scoring`) and the cast of cached positions (`cast`) are parameters: `Model/Machine` sets them to double
precision and to 32 bits.
-/

namespace Hotmeal
namespace Tables

/-- `HashMap<NodeId, V>`. hotmeal/src/diff.rs:532, cinereus/src/matching.rs:304. -/
abbrev Map (V : Type) := Nat → Option V

variable {H : Type}

/-! ## Tables made before matching -/

/-- `DiffNodeData`, hotmeal/src/diff.rs:508-517, without the cached position, see `Caches`. -/
structure NodeInfo (H : Type) where
  hash : H
  kind : HKind
  props : Attrs
  text : Option Str
  height : Nat

/-- First pass of `DiffableDocument::new`, diff.rs:544-584. `zero` is `NodeHash(0)`. -/
def firstPass (zero : H) (D : Arena NodeData) (body : Nat) : Map (NodeInfo H) :=
  (D.descendants body).foldl (fun m n =>
    match (D.data n).kind with
    | .element tag attrs => Arena.upd m n (some ⟨zero, .element tag (D.data n).ns, attrs, none, 0⟩)
    | .text s => Arena.upd m n (some ⟨zero, .text, [], some s, 0⟩)
    | .comment s => Arena.upd m n (some ⟨zero, .comment, [], some s, 0⟩)
    | .document => m) (fun _ => none)

/-- One step of the second pass of `DiffableDocument::new`, diff.rs:589-625. -/
def secondStep (hashNode : HKind → Option Str → List H → H) (D : Arena NodeData) (m : Map (NodeInfo H)) (n : Nat) :
    Map (NodeInfo H) :=
  let kids := (D.children n).filterMap m
  let height := if (D.children n).isEmpty then 0 else 1 + (kids.map NodeInfo.height).foldl max 0
  match m n with
  | none => m
  | some d => Arena.upd m n (some { d with
      height := height, hash := hashNode d.kind d.text (kids.map NodeInfo.hash) })

/-- `DiffableDocument::new`, diff.rs:539-633: the table `nodes`. -/
def nodeTable (hashNode : HKind → Option Str → List H → H) (zero : H) (D : Arena NodeData) (body : Nat) :
    Map (NodeInfo H) :=
  (D.postOrder body).foldl (secondStep hashNode D) (firstPass zero D body)

/-- `recompute_hashes`, diff.rs:923-952. All hashes are `NodeHash(0)` before. -/
def recomputeHashes (hashNode : HKind → Option Str → List H → H) (zero : H) (T : Arena TData) : Nat → H :=
  (T.postOrder 0).foldl (fun h n => Arena.upd h n (hashNode (T.data n).kind (T.data n).text ((T.children n).map h)))
    (fun _ => zero)

/-- The old tree in `diff`: as `oldTree`, but with the stored hashes. diff.rs:855 and 1088. -/
def treeA (hashNode : HKind → Option Str → List H → H) (zero : H) (T : Arena TData) : DiffTree H :=
  { DiffTree.ofArena hashNode T 0 with hash := recomputeHashes hashNode zero T }

/-- `impl DiffTree for DiffableDocument`, diff.rs:636-729, except `position`. Where the code panics on a node that
is not in the table (`kind`, `properties`) the value is that of `missing`. -/
def treeB (m : Map (NodeInfo H)) (zero : H) (missing : NodeInfo H) (D : Arena NodeData) (body : Nat) : DiffTree H where
  root := body
  hash := fun n => ((m n).map NodeInfo.hash).getD zero
  kind := fun n => ((m n).map NodeInfo.kind).getD missing.kind
  props := fun n => ((m n).map NodeInfo.props).getD missing.props
  text := fun n => (m n).bind NodeInfo.text
  parent := D.parent
  children := D.children
  position := fun _ => 0
  height := fun n => ((m n).map NodeInfo.height).getD 0
  iter := D.descendants body
  postOrder := D.postOrder body
  descendants := D.descendants
  isOpaque := fun n => ((m n).map fun d => d.props.isOpaque).getD false

/-! ## Caches -/

/-- `desc_a` and `desc_b` of `bottom_up_phase` (`LazyDescendantMap`, cinereus/src/matching.rs:302-327) and the
cached positions of the new document (diff.rs:516). -/
structure Caches where
  descA : Map (List Nat)
  descB : Map (List Nat)
  position : Map Nat

/-- `DiffableDocument::position`, diff.rs:681-701. `cast` is the cast `as u32` of line 692. -/
def position (cast : Nat → Nat) (m : Map (NodeInfo H)) (D : Arena NodeData) (n : Nat) : StateM Caches Nat := do
  match m n with
  | none => pure 0
  | some _ =>
    let c ← get
    match c.position n with
    | some p => pure p
    | none =>
      let p := match D.parent n with
        | none => 0
        | some q => cast (Arena.posIn (D.children q) n)
      set { c with position := Arena.upd c.position n (some p) }
      pure p

/-- `HashSet::insert`. By `collect`, matching.rs:322. -/
def insertSet (s : List Nat) (x : Nat) : List Nat := if x ∈ s then s else x :: s

/-- `get_or_compute` of `desc_a`, matching.rs:316-326. -/
def getDescA (TA : DiffTree H) (n : Nat) : StateM Caches (List Nat) := do
  let c ← get
  match c.descA n with
  | some s => pure s
  | none =>
    let s := (TA.descendants n).foldl insertSet []
    set { c with descA := Arena.upd c.descA n (some s) }
    pure s

/-- `get_or_compute` of `desc_b`. matching.rs:316-326. -/
def getDescB (TB : DiffTree H) (n : Nat) : StateM Caches (List Nat) := do
  let c ← get
  match c.descB n with
  | some s => pure s
  | none =>
    let s := (TB.descendants n).foldl insertSet []
    set { c with descB := Arena.upd c.descB n (some s) }
    pure s

/-! ## Matchings as vectors -/

/-- `Matching`, matching.rs:41-48. -/
structure VMatching where
  aToB : List (Option Nat)
  bToA : List (Option Nat)
  pairs : List (Nat × Nat)

namespace VMatching

/-- `Matching::new`, matching.rs:58-64. -/
def empty : VMatching := ⟨[], [], []⟩

/-- `if idx >= v.len() { v.resize(idx + 1, None) } v[idx] = Some(x)`, matching.rs:82-90. -/
def store (v : List (Option Nat)) (i x : Nat) : List (Option Nat) :=
  (if v.length ≤ i then v ++ List.replicate (i + 1 - v.length) none else v).set i (some x)

/-- `Matching::add`, matching.rs:77-92. -/
def add (V : VMatching) (a b : Nat) : VMatching :=
  ⟨store V.aToB a b, store V.bToA b a, V.pairs ++ [(a, b)]⟩

/-- `contains_a`, matching.rs:96-99. -/
def containsA (V : VMatching) (a : Nat) : Bool := V.aToB[a]?.any Option.isSome
/-- `contains_b`, matching.rs:103-106. -/
def containsB (V : VMatching) (b : Nat) : Bool := V.bToA[b]?.any Option.isSome
/-- `get_b`, matching.rs:110-113. -/
def getB (V : VMatching) (a : Nat) : Option Nat := V.aToB[a]?.join
/-- `get_a`, matching.rs:117-120. -/
def getA (V : VMatching) (b : Nat) : Option Nat := V.bToA[b]?.join

end VMatching

/-! ## Matching -/

variable [DecidableEq H]

/-- `match_subtrees`, matching.rs:268-298. -/
def matchSubtrees (TA TB : DiffTree H) : Nat → Nat → Nat → VMatching → VMatching
  | 0, _, _, V => V
  | k + 1, a, b, V =>
    if V.containsA a || V.containsB b then V
    else
      let V := V.add a b
      if TA.isOpaque a || TB.isOpaque b then V
      else ((TA.children a).zip (TB.children b)).foldl (fun V p => matchSubtrees TA TB k p.1 p.2 V) V

/-- The candidates pushed when hashes differ, matching.rs:243-262. -/
def childCandidates (TA TB : DiffTree H) (V : VMatching) (a b : Nat) : List (Nat × Nat) :=
  (TA.children a).flatMap fun ac =>
    ((TB.children b).filter fun bc =>
      !V.containsB bc && (TA.hash ac == TB.hash bc || TA.kind ac == TB.kind bc)).map
      fun bc => (ac, bc)

/-- The loop of `top_down_phase`, matching.rs:214-264. -/
def topDownLoop (TA TB : DiffTree H) (cfg : Config) (depth : Nat) :
    Nat → List (Nat × Nat) → VMatching → VMatching
  | 0, _, V => V
  | _, [], V => V
  | k + 1, (a, b) :: st, V =>
    if V.containsA a || V.containsB b then topDownLoop TA TB cfg depth k st V
    else if TA.height a < cfg.minHeight then topDownLoop TA TB cfg depth k st V
    else if TA.hash a == TB.hash b && TA.kind a == TB.kind b then
      topDownLoop TA TB cfg depth k st (matchSubtrees TA TB depth a b V)
    else if TA.isOpaque a || TB.isOpaque b then
      topDownLoop TA TB cfg depth k st (if TA.kind a == TB.kind b then V.add a b else V)
    else
      topDownLoop TA TB cfg depth k ((childCandidates TA TB V a b).reverse ++ st) V

/-- `top_down_phase`, matching.rs:192-265. -/
def topDown (TA TB : DiffTree H) (cfg : Config) (V : VMatching) : VMatching :=
  topDownLoop TA TB cfg (matchDepth TA TB) (topDownFuel TA TB) [(TA.root, TB.root)] V

/-- `ancestry_compatible`, matching.rs:333-386. -/
def ancestryCompatible (TA TB : DiffTree H) (V : VMatching) (a b : Nat) : Bool :=
  (((TA.parent a).bind V.getB).all fun pb => decide (b ∈ TB.descendants pb)) &&
  (((TB.parent b).bind V.getA).all fun pa => decide (a ∈ TA.descendants pa))

/-- `opaque_descendants_a`, `opaque_descendants_b`, matching.rs:408-431 and chawathe.rs:196-217. -/
def opaqueSet (T : DiffTree H) : List Nat :=
  T.iter.foldl (fun s n =>
    if T.isOpaque n then (T.descendants n).foldl (fun s d => if d != n then insertSet s d else s) s else s) []

/-- `b_by_kind`, matching.rs:434-442. -/
def byKind (TB : DiffTree H) (V : VMatching) (opqB : List Nat) : HKind → Option (List Nat) :=
  TB.iter.foldl (fun m b =>
    if !V.containsB b && !(decide (b ∈ opqB)) then
      fun k => if k = TB.kind b then some ((m (TB.kind b)).getD [] ++ [b]) else m k
    else m) (fun _ => none)

/-- The two scores and all that is asked of them: is the similarity of attributes at least the threshold
(diff.rs:420-437, matching.rs:477, 513, 554, 613, 656), the Dice coefficient of two sets from the number of common
elements and the sizes (matching.rs:706-717), is it at least the threshold, and is it better than another
(matching.rs:528). -/
structure Scoring where
  Score : Type
  similar : Attrs → Attrs → Bool
  dice : Nat → Nat → Nat → Score
  enough : Score → Bool
  better : Score → Score → Bool

/-- Scores as exact fractions, as in `Model/Matching` (matching.rs:678-718, diff.rs:420-437). -/
def Scoring.exact (cfg : Config) : Scoring where
  Score := Hotmeal.Score
  similar := fun a b => (a.similarity b).ge cfg.threshold
  dice := fun c m n => if m == 0 && n == 0 then ⟨1, 1⟩ else ⟨2 * c, m + n⟩
  enough := fun s => s.ge cfg.threshold
  better := fun s t => s.gt t

/-- `dice_coefficient`, matching.rs:678-718; `order` is the order in which the set is iterated. -/
def dice (sc : Scoring) (order : List Nat → List Nat) (TA TB : DiffTree H) (V : VMatching) (a b : Nat) :
    StateM Caches sc.Score := do
  let da ← getDescA TA a
  let db ← getDescB TB b
  let common := ((order da).filter fun x => ((V.getB x).map fun y => decide (y ∈ db)).getD false).length
  pure (sc.dice common da.length db.length)

/-- The Dice loop over candidates, matching.rs:495-531. -/
def diceBest (sc : Scoring) (order : List Nat → List Nat) (TA TB : DiffTree H) (V : VMatching) (a : Nat) :
    List Nat → Option (Nat × sc.Score) → StateM Caches (Option (Nat × sc.Score))
  | [], best => pure best
  | b :: bs, best => do
    if V.containsB b then diceBest sc order TA TB V a bs best
    else if TB.childCount b = 0 then diceBest sc order TA TB V a bs best
    else if !ancestryCompatible TA TB V a b then diceBest sc order TA TB V a bs best
    else if !(sc.similar (TA.props a) (TB.props b)) then
      diceBest sc order TA TB V a bs best
    else
      let score ← dice sc order TA TB V a b
      if sc.enough score && (best.isNone || best.any fun s => sc.better score s.2) then
        diceBest sc order TA TB V a bs (some (b, score))
      else diceBest sc order TA TB V a bs best

/-- `iter().find(..)` with a test that uses the caches. matching.rs:474 and 606-610. -/
def findM (p : Nat → StateM Caches Bool) : List Nat → StateM Caches (Option Nat)
  | [] => pure none
  | x :: xs => do
    let r ← p x
    if r then pure (some x) else findM p xs

/-- Position candidate of pass 1, matching.rs:459-492. `pos` is `tree_b.position`. -/
def pass1Position (sc : Scoring) (pos : Nat → StateM Caches Nat) (TA TB : DiffTree H) (V : VMatching)
    (a parentB : Nat) : StateM Caches (Option Nat) :=
  findM (fun b => do
      let p ← pos b
      pure (p == TA.position a && sc.similar (TA.props a) (TB.props b)))
    ((TB.children parentB).filter fun b => !V.containsB b && TB.kind b == TA.kind a)

/-- Second half of one iteration of pass 1, matching.rs:494-567. -/
def pass1Dice (sc : Scoring) (order : List Nat → List Nat) (TA TB : DiffTree H)
    (byKind : HKind → Option (List Nat)) (V : VMatching) (a : Nat) : StateM Caches VMatching := do
  let best ← diceBest sc order TA TB V a ((byKind (TA.kind a)).getD []) none
  match best with
  | some (b, _) => pure (V.add a b)
  | none =>
    if (TA.parent a).isNone then
      let roots := ((byKind (TA.kind a)).getD []).filter fun b => !V.containsB b && 0 < TB.childCount b &&
        (TB.parent b).isNone && sc.similar (TA.props a) (TB.props b)
      match roots.head? with
      | some b => pure (V.add a b)
      | none => pure V
    else pure V

/-- One iteration of pass 1, matching.rs:446-568. -/
def pass1Step (sc : Scoring) (order : List Nat → List Nat) (pos : Nat → StateM Caches Nat) (TA TB : DiffTree H)
    (opqA : List Nat) (byKind : HKind → Option (List Nat)) (V : VMatching) (a : Nat) : StateM Caches VMatching := do
  if V.containsA a || decide (a ∈ opqA) then pure V
  else
    match (TA.parent a).bind V.getB with
    | some parentB =>
      let best ← pass1Position sc pos TA TB V a parentB
      match best with
      | some b => pure (V.add a b)
      | none => pass1Dice sc order TA TB byKind V a
    | none => pass1Dice sc order TA TB byKind V a

/-- Choice among the children of the matched parent in pass 2, matching.rs:592-617. -/
def pass2Local (sc : Scoring) (pos : Nat → StateM Caches Nat) (TA TB : DiffTree H) (V : VMatching)
    (a parentB : Nat) : StateM Caches (Option Nat) := do
  let cands := (TB.children parentB).filter fun b =>
    !V.containsB b && TB.childCount b == 0 && TB.kind b == TA.kind a
  let both ← findM (fun b => do
    let p ← pos b
    pure (p == TA.position a && TB.hash b == TA.hash a)) cands
  match both with
  | some b => pure (some b)
  | none =>
    match cands.find? fun b => TB.hash b == TA.hash a with
    | some b => pure (some b)
    | none => findM (fun b => do
        let p ← pos b
        pure (p == TA.position a && sc.similar (TA.props a) (TB.props b))) cands

/-- Global choice in pass 2, matching.rs:627-660. -/
def pass2Global (sc : Scoring) (TA TB : DiffTree H) (V : VMatching) (a : Nat) :
    List Nat → Option Nat → Option Nat
  | [], best => best
  | b :: bs, best =>
    if V.containsB b then pass2Global sc TA TB V a bs best
    else if TB.childCount b ≠ 0 then pass2Global sc TA TB V a bs best
    else if !ancestryCompatible TA TB V a b then pass2Global sc TA TB V a bs best
    else if TB.hash b == TA.hash a then some b
    else if best.isNone && sc.similar (TA.props a) (TB.props b) then
      pass2Global sc TA TB V a bs (some b)
    else pass2Global sc TA TB V a bs best

/-- One iteration of pass 2, matching.rs:572-672. -/
def pass2Step (sc : Scoring) (pos : Nat → StateM Caches Nat) (TA TB : DiffTree H) (opqA : List Nat)
    (byKind : HKind → Option (List Nat)) (V : VMatching) (a : Nat) : StateM Caches VMatching := do
  if V.containsA a || decide (a ∈ opqA) then pure V
  else if TA.childCount a ≠ 0 then pure V
  else
    match (TA.parent a).bind V.getB with
    | some parentB =>
      let best ← pass2Local sc pos TA TB V a parentB
      match best with
      | some b => pure (V.add a b)
      | none => pure V
    | none =>
      match pass2Global sc TA TB V a ((byKind (TA.kind a)).getD []) none with
      | some b => pure (V.add a b)
      | none => pure V

/-- A `for` loop that changes the matching. matching.rs:446 and 572. -/
def loopM (f : VMatching → Nat → StateM Caches VMatching) : List Nat → VMatching → StateM Caches VMatching
  | [], V => pure V
  | a :: as, V => do
    let V ← f V a
    loopM f as V

/-- `bottom_up_phase`, matching.rs:396-673. The descendant caches are new at its start. -/
def bottomUp (sc : Scoring) (order : List Nat → List Nat) (pos : Nat → StateM Caches Nat) (TA TB : DiffTree H)
    (V : VMatching) : StateM Caches VMatching := do
  let c ← get
  set { c with descA := fun _ => none, descB := fun _ => none }
  let opqA := opaqueSet TA
  let opqB := opaqueSet TB
  let kinds := byKind TB V opqB
  let V ← loopM (pass1Step sc order pos TA TB opqA kinds) TA.iter V
  loopM (pass2Step sc pos TA TB opqA kinds) TA.iter V

/-- `compute_matching`, matching.rs:164-185. Of `cfg` only `min_height` is used: the threshold is in `sc`. -/
def computeMatching (sc : Scoring) (order : List Nat → List Nat) (pos : Nat → StateM Caches Nat)
    (TA TB : DiffTree H) (cfg : Config) : StateM Caches VMatching :=
  bottomUp sc order pos TA TB (topDown TA TB cfg VMatching.empty)

/-! ## Edit script -/

/-- Collecting the operations that a loop pushes. chawathe.rs:220, 271, 294. -/
def collectM {α : Type} (f : α → StateM Caches (List EditOp)) : List α → StateM Caches (List EditOp)
  | [] => pure []
  | x :: xs => do
    let r ← f x
    let rs ← collectM f xs
    pure (r ++ rs)

/-- Phase 1, chawathe.rs:219-267. -/
def updateOps (TA TB : DiffTree H) (V : VMatching) (opqA opqB : List Nat) : List EditOp :=
  V.pairs.flatMap fun p =>
    if p.1 ∈ opqA ∨ p.2 ∈ opqB then []
    else textOps TA TB p.1 p.2 ++ propOps TA TB p.1 p.2

/-- Phases 2 and 3 for one node, chawathe.rs:271-290. -/
def insertOp (pos : Nat → StateM Caches Nat) (TB : DiffTree H) (V : VMatching) (opqB : List Nat) (b : Nat) :
    StateM Caches (List EditOp) := do
  if V.containsB b then pure []
  else
    match TB.parent b with
    | none => pure []
    | some pb =>
      if b ∈ opqB then pure []
      else
        let p ← pos b
        pure [.insert b pb p (TB.kind b)]

/-- Phase 4 for one pair, chawathe.rs:300-370. -/
def moveOp (pos : Nat → StateM Caches Nat) (TA TB : DiffTree H) (V : VMatching) (opqA opqB : List Nat)
    (p : Nat × Nat) : StateM Caches (List EditOp) := do
  if p.1 ∈ opqA ∨ p.2 ∈ opqB then pure []
  else
    match TA.parent p.1 with
    | none => pure []
    | some pa =>
      match TB.parent p.2 with
      | none => pure []
      | some pb =>
        let q ← pos p.2
        if V.getB pa ≠ some pb then pure [.move p.1 p.2 pb q]
        else if TA.position p.1 ≠ q then pure [.move p.1 p.2 pb q]
        else pure []

/-- Phase 5, chawathe.rs:373-383. -/
def deleteOps (TA : DiffTree H) (V : VMatching) (opqA : List Nat) : List EditOp :=
  TA.postOrder.flatMap fun a =>
    if V.containsA a then [] else if a ∈ opqA then [] else [.delete a]

/-- `generate_edit_script`, chawathe.rs:182-387. -/
def generateEditScript (pos : Nat → StateM Caches Nat) (TA TB : DiffTree H) (V : VMatching) :
    StateM Caches (List EditOp) := do
  let opqA := opaqueSet TA
  let opqB := opaqueSet TB
  let ins ← collectM (insertOp pos TB V opqB) TB.iter
  let mv ← collectM (moveOp pos TA TB V opqA opqB) V.pairs
  pure (updateOps TA TB V opqA opqB ++ ins ++ mv ++ deleteOps TA V opqA)

/-! ## `diff` -/

/-- What the conversion reads of a matching: its pairs (`matching.pairs()`, diff.rs:1548-1550 and 1139). -/
def VMatching.forget (V : VMatching) : Matching := ⟨V.getB, V.getA, V.pairs⟩

/-- The new tree as the conversion reads it: links of the document, kind, properties and text of the table.
diff.rs:636-729. -/
def tableArena (TB : DiffTree H) (D : Arena NodeData) : Arena TData :=
  ⟨D.next, D.parent, D.children, fun n => ⟨TB.kind n, TB.props n, TB.text n⟩⟩

/-- Matching and edit script in `diff`, diff.rs:1106-1120. -/
def matchAndScript (sc : Scoring) (order : List Nat → List Nat) (pos : Nat → StateM Caches Nat) (TA TB : DiffTree H) :
    StateM Caches (VMatching × List EditOp) := do
  let V ← computeMatching sc order pos TA TB Config.diff
  let V := if TA.kind TA.root = TB.kind TB.root ∧ ¬ V.containsA TA.root then V.add TA.root TB.root else V
  let ops ← generateEditScript pos TA TB V
  pure (V, ops)

/-- `diff`, diff.rs:1049-1181, with tables and caches. `order` is the order in which sets are iterated, `missing`
what a lookup that panics would return. -/
def diff (sc : Scoring) (cast : Nat → Nat) (order : List Nat → List Nat) (missing : NodeInfo H) (hashNode : HKind → Option Str → List H → H)
    (zero : H) (old new : Document) : Res (List Patch) :=
  match old.body, new.body with
  | none, none => .ok []
  | none, some nb => insertAllLoop new.arena 0 (new.arena.children nb)
  | some ob, none => .ok (removeAll (old.arena.children ob).length)
  | some ob, some nb =>
    if (new.arena.descendants nb).any fun n => decide ((new.arena.data n).kind = .document) then
      .error .panic
    else do
      let T := buildTree old ob
      let TA := treeA hashNode zero T
      let m := nodeTable hashNode zero new.arena nb
      let TB := treeB m zero missing new.arena nb
      let (V, ops) := (matchAndScript sc order (position cast m new.arena) TA TB
        ⟨fun _ => none, fun _ => none, fun _ => none⟩).1
      let ps ← convertOps ops T 0 (tableArena TB new.arena) V.forget
      let qs ← opaquePatches T 0 (opaqueChanges TA TB new.arena V.forget)
      .ok (ps ++ qs)

end Tables
end Hotmeal
