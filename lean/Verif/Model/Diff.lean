import Verif.Model.EditScript
import Verif.Model.Dom

/-!
# Diffing documents (hotmeal/src/diff.rs)
-/

namespace Hotmeal

/-! ## Trees handed to the matcher -/

/-- Kind, properties and text of a document node, diff.rs:547-570 and 870-910. The value for a
`Document` node is never used: see `diff`. -/
def tdataOf (d : NodeData) : TData :=
  match d.kind with
  | .element tag attrs => ⟨.element tag d.ns, attrs, none⟩
  | .text s => ⟨.text, [], some s⟩
  | .comment s => ⟨.comment, [], some s⟩
  | .document => ⟨.comment, [], none⟩

/-- One call of the loop body of `add_arena_children`, diff.rs:860-916, as a function of the
tree built so far and the parent to add under; `rs` are the actions of the children. -/
def addArenaAlg (D : Arena NodeData) (n : Nat) (rs : List (Arena TData → Nat → Arena TData))
    (T : Arena TData) (p : Nat) : Arena TData :=
  match (D.data n).kind with
  | .element _ _ =>
    let (T, id) := T.addChild p (tdataOf (D.data n))
    rs.foldl (fun T r => r T id) T
  | .text _ => (T.addChild p (tdataOf (D.data n))).1
  | .comment _ => (T.addChild p (tdataOf (D.data n))).1
  | .document => T

/-- Kind of the body element, diff.rs:828-837. -/
def bodyKind (D : Document) (body : Nat) : HKind :=
  match (D.arena.data body).kind with
  | .element tag _ => .element tag (D.arena.data body).ns
  | _ => .element "body".toList .html

/-- `build_tree_from_arena`, diff.rs:826-858, for a document with a body. The root gets no
attributes (`HtmlProps { attrs: Vec::new() }`, diff.rs:842). The root has id 0. -/
def buildTree (D : Document) (body : Nat) : Arena TData :=
  let T : Arena TData := ⟨0, fun _ => none, fun _ => [], fun _ => default⟩
  let (T, root) := T.newNode ⟨bodyKind D body, [], none⟩
  ((D.arena.children body).map (D.arena.fold (addArenaAlg D.arena))).foldl (fun T r => r T root) T

/-- The arena of `DiffableDocument`, diff.rs:527-634: same ids and links as the document. -/
def diffable (D : Document) : Arena TData :=
  ⟨D.arena.next, D.arena.parent, D.arena.children, fun n => tdataOf (D.arena.data n)⟩

/-! ## Shadow tree -/

/-- `ShadowTree`, diff.rs:1191-1197. -/
structure Shadow where
  arena : Arena TData
  superRoot : Nat
  nextSlot : Nat

namespace Shadow

/-- Marker data of the super root and of slot nodes, diff.rs:1205-1219. -/
def marker : TData := ⟨.comment, [], none⟩
/-- Placeholder left by `detach_with_placeholder`, diff.rs:1331-1336. -/
def placeholder : TData := ⟨.text, [], none⟩
/-- Placeholder used to fill gaps, diff.rs:1405-1410. -/
def gap : TData := ⟨.text, [], some []⟩

/-- `ShadowTree::new`, diff.rs:1200-1230. -/
def new (A : Arena TData) (root : Nat) : Res Shadow := do
  let (A, super) := A.newNode marker
  let (A, slot0) := A.newNode marker
  let A ← A.append super slot0
  let A := A.detach root
  let A ← A.append slot0 root
  .ok ⟨A, super, 1⟩

/-- `get_slot`, diff.rs:1233-1235. -/
def getSlot (S : Shadow) (k : Nat) : Option Nat := (S.arena.children S.superRoot)[k]?

/-- `slot0_content`, diff.rs:1238-1244. -/
def slot0Content (S : Shadow) : Res Nat :=
  match S.getSlot 0 with
  | none => .error .panic
  | some s => match (S.arena.children s).head? with
    | none => .error .panic
    | some c => .ok c

/-- The loop of `compute_path`, diff.rs:1258-1280. The accumulator is the reversed `path`, so
the final `path.reverse()` is implicit. -/
def pathLoop (S : Shadow) : Nat → Nat → Path → Path
  | 0, _, acc => acc
  | k + 1, cur, acc => match S.arena.parent cur with
    | none => acc
    | some p =>
      if S.arena.parent p = some S.superRoot then
        Arena.posIn (S.arena.children S.superRoot) p :: acc
      else pathLoop S k p (Arena.posIn (S.arena.children p) cur :: acc)

/-- `compute_path`, diff.rs:1254-1284. The number of nodes bounds the number of steps. -/
def computePath (S : Shadow) (n : Nat) : Path := S.pathLoop S.arena.next n []

/-- `get_node_ref_with_position`, diff.rs:1294-1298. -/
def refWithPos (S : Shadow) (p pos : Nat) : Path := S.computePath p ++ [pos]

/-- `create_slot`, diff.rs:1301-1315. -/
def createSlot (S : Shadow) : Res (Shadow × Nat) := do
  let (A, s) := S.arena.newNode marker
  let A ← A.append S.superRoot s
  .ok (⟨A, S.superRoot, S.nextSlot + 1⟩, S.nextSlot)

/-- `detach_to_slot`, diff.rs:1318-1327. -/
def detachToSlot (S : Shadow) (n : Nat) : Res (Shadow × Nat) := do
  let (S, k) ← S.createSlot
  match S.getSlot k with
  | none => .error .panic
  | some s =>
    let A := S.arena.detach n
    let A ← A.append s n
    .ok ({ S with arena := A }, k)

/-- `detach_with_placeholder`, diff.rs:1330-1339. -/
def detachWithPlaceholder (S : Shadow) (n : Nat) : Res Shadow := do
  let (A, ph) := S.arena.newNode placeholder
  let A ← A.insertBefore n ph
  .ok { S with arena := A.detach n }

/-- `is_ancestor` (strict), diff.rs:1342-1351. -/
def isAncestor (S : Shadow) (x n : Nat) : Bool :=
  match S.arena.parent n with
  | none => false
  | some p => S.arena.isAncestorOrSelf x S.arena.next p

/-- `replace_with_placeholder`, diff.rs:1355-1383. -/
def replaceWithPlaceholder (S : Shadow) (n : Nat) : Res Shadow := do
  let (A, ph) := S.arena.newNode placeholder
  let A ← A.insertBefore n ph
  let A ← (A.children n).foldlM (fun A c => (A.detach c).append ph c) A
  .ok { S with arena := A.detach n }

/-- Append `k` gap placeholders, diff.rs:1403-1412 and 1499-1507. -/
def fillGaps (A : Arena TData) (p : Nat) : Nat → Arena TData
  | 0 => A
  | k + 1 => fillGaps (A.addChild p gap).1 p k

/-- `ShadowTree::insert_at_position`, diff.rs:1387-1425. After the gaps are filled the child
count equals `position`, so the re-check in the code always takes its `append` branch. -/
def insertAtPosition (S : Shadow) (p pos n : Nat) : Res (Shadow × Option Nat) :=
  match (S.arena.children p)[pos]? with
  | some occ => do
    let A ← S.arena.insertBefore occ n
    let (S, k) ← { S with arena := A }.detachToSlot occ
    .ok (S, some k)
  | none => do
    let A := fillGaps S.arena p (pos - (S.arena.children p).length)
    let A ← A.append p n
    .ok ({ S with arena := A }, none)

/-- The detaching half of `move_to_position`, diff.rs:1448-1468. -/
def moveDetach (S : Shadow) (n newParent : Nat) : Res Shadow :=
  if S.isAncestor n newParent then S.replaceWithPlaceholder n
  else
    let isSlotRoot := match S.arena.parent n with
      | none => false
      | some p => decide (S.arena.parent p = some S.superRoot)
    if !isSlotRoot then S.detachWithPlaceholder n
    else .ok { S with arena := S.arena.detach n }

/-- `move_to_position`, diff.rs:1429-1526. The re-check after filling gaps is dead code, as in
`insertAtPosition`. -/
def moveToPosition (S : Shadow) (n newParent pos : Nat) : Res (Shadow × Option Nat) := do
  let S ← S.moveDetach n newParent
  match (S.arena.children newParent)[pos]? with
  | some occ =>
    if occ ≠ n then do
      let A ← S.arena.insertBefore occ n
      let (S, k) ← { S with arena := A }.detachToSlot occ
      .ok (S, some k)
    else .ok (S, none)
  | none => do
    let A := fillGaps S.arena newParent (pos - (S.arena.children newParent).length)
    let A ← A.append newParent n
    .ok ({ S with arena := A }, none)

end Shadow

/-! ## Conversion of the edit script -/

/-- State of `convert_ops_with_shadow`, diff.rs:1543-1563. -/
structure Conv where
  shadow : Shadow
  bToShadow : Nat → Option Nat

/-- The content of a child in `extract_content_from_tree_b`, diff.rs:1876-1905; `none` when the
child is skipped. -/
def extractAlg (B : Arena TData) (skip : Nat → Bool) (n : Nat)
    (rs : List (Option InsertContent)) : Option InsertContent :=
  if skip n then none
  else some (match (B.data n).kind with
    | .element tag _ => .element tag (B.data n).props (rs.filterMap id)
    | .text => .text ((B.data n).text.getD [])
    | .comment => .comment ((B.data n).text.getD []))

/-- `extract_content_from_tree_b`, diff.rs:1856-1909: the children part. -/
def extractChildren (B : Arena TData) (skip : Nat → Bool) (n : Nat) : List InsertContent :=
  (B.children n).filterMap (B.fold (extractAlg B skip))

/-- `nodes_with_insert_ops`, diff.rs:1555-1561. -/
def insertedNodes (ops : List EditOp) : List Nat :=
  ops.filterMap fun
    | .insert b _ _ _ => some b
    | _ => none

/-- `b_to_shadow.get(&p).copied().unwrap_or_else(|| shadow.slot0_content())`,
diff.rs:1607-1610 and 1695-1698. -/
def Conv.parentOf (C : Conv) (b : Nat) : Res Nat :=
  match C.bToShadow b with
  | some s => .ok s
  | none => C.shadow.slot0Content

/-- One child of the ancestor case, diff.rs:1741-1774. -/
def reparentChild (parent pos : Nat) (S : Shadow) (i child : Nat) : Res (Shadow × Patch) := do
  let from_ := S.computePath child
  let childPos := pos + 1 + i
  let S ← S.detachWithPlaceholder child
  let A ← match (S.arena.children parent)[childPos]? with
    | some sib => S.arena.insertBefore sib child
    | none => S.arena.append parent child
  let S := { S with arena := A }
  .ok (S, .move from_ (S.refWithPos parent childPos) none)

/-- The ancestor case of Move, diff.rs:1715-1778: move the children of `n` next to `n`, last
child first. -/
def reparentChildren (S : Shadow) (n : Nat) : Res (Shadow × List Patch) :=
  match S.arena.parent n with
  | none => .error .panic
  | some p =>
    let pos := Arena.posIn (S.arena.children p) n
    (S.arena.children n).zipIdx.reverse.foldlM (fun (S, out) (ci : Nat × Nat) => do
      let (S, patch) ← reparentChild p pos S ci.2 ci.1
      .ok (S, out ++ [patch])) (S, [])

/-- One iteration of the op loop of `convert_ops_with_shadow`, diff.rs:1570-1850. Returns the
new state and the patches emitted. -/
def convertOp (B : Arena TData) (ins : List Nat) (C : Conv) : EditOp → Res (Conv × List Patch)
  | .updateProps a _ changes =>
    .ok (C, [.updateProps (C.shadow.computePath a)
      (changes.map fun c => ⟨c.key, match c.value with
        | .same => none
        | .different v => some v⟩)])
  | .setText a _ t => .ok (C, [.setText (C.shadow.computePath a) t])
  | .insert b pb pos kind => do
    let sp ← C.parentOf pb
    let (A, n) := C.shadow.arena.newNode ⟨kind, (B.data b).props, (B.data b).text⟩
    let (S, slot) ← { C.shadow with arena := A }.insertAtPosition sp pos n
    let bts := Arena.upd C.bToShadow b (some n)
    let at_ := S.refWithPos sp pos
    let patch := match kind with
      | .element tag _ => Patch.insertElement at_ tag (B.data b).props
          (extractChildren B (fun c => (bts c).isSome || decide (c ∈ ins)) b) slot
      | .text => Patch.insertText at_ ((B.data b).text.getD []) slot
      | .comment => Patch.insertComment at_ ((B.data b).text.getD []) slot
    .ok (⟨S, bts⟩, [patch])
  | .delete a => do
    let path := C.shadow.computePath a
    let S ← C.shadow.detachWithPlaceholder a
    .ok ({ C with shadow := S }, [.remove path])
  | .move a b pb pos => do
    let sp ← C.parentOf pb
    let (S, pre) ← if C.shadow.isAncestor a sp then reparentChildren C.shadow a
      else .ok (C.shadow, [])
    let from_ := S.computePath a
    let (S, slot) ← S.moveToPosition a sp pos
    let to := S.refWithPos sp pos
    .ok (⟨S, Arena.upd C.bToShadow b (some a)⟩, pre ++ [.move from_ to slot])

/-- The op loop, diff.rs:1570-1850. -/
def convertLoop (B : Arena TData) (ins : List Nat) : Conv → List EditOp → Res (Conv × List Patch)
  | C, [] => .ok (C, [])
  | C, op :: ops => do
    let (C, ps) ← convertOp B ins C op
    let (C, qs) ← convertLoop B ins C ops
    .ok (C, ps ++ qs)

/-- Initial `b_to_shadow`, diff.rs:1547-1550: later pairs overwrite earlier ones. -/
def initBToShadow (M : Matching) : Nat → Option Nat :=
  M.pairs.foldl (fun f p => Arena.upd f p.2 (some p.1)) (fun _ => none)

/-- `convert_ops_with_shadow`, diff.rs:1537-1853. -/
def convertOps (ops : List EditOp) (A : Arena TData) (root : Nat) (B : Arena TData)
    (M : Matching) : Res (List Patch) := do
  let S ← Shadow.new A root
  let (_, ps) ← convertLoop B (insertedNodes ops) ⟨S, initBToShadow M⟩ ops
  .ok ps

/-! ## `diff` -/

/-- `create_insert_content`, diff.rs:1002-1031. -/
def insertContentAlg (D : Arena NodeData) (n : Nat) (rs : List (Option InsertContent)) :
    Option InsertContent :=
  match (D.data n).kind with
  | .element tag attrs => some (.element tag attrs (rs.filterMap id))
  | .text s => some (.text s)
  | .comment s => some (.comment s)
  | .document => none

/-- `create_insert_patch`, diff.rs:956-999. -/
def createInsertPatch (D : Arena NodeData) (n pos : Nat) : Res Patch :=
  match (D.data n).kind with
  | .element tag attrs => .ok (.insertElement [0, pos] tag attrs
      ((D.children n).filterMap (D.fold (insertContentAlg D))) none)
  | .text s => .ok (.insertText [0, pos] s none)
  | .comment s => .ok (.insertComment [0, pos] s none)
  | .document => .error .noBody

/-- The insertion patches when the old document has no body, diff.rs:1059-1067. -/
def insertAllLoop (D : Arena NodeData) : Nat → List Nat → Res (List Patch)
  | _, [] => .ok []
  | pos, c :: cs => do
    let p ← createInsertPatch D c pos
    let ps ← insertAllLoop D (pos + 1) cs
    .ok (p :: ps)

/-- The removal patches when the new document has no body, diff.rs:1068-1080. -/
def removeAll (n : Nat) : List Patch := (List.range n).reverse.map fun pos => .remove [0, pos]

/-- Force the match of the roots, diff.rs:1113-1118. -/
def forceRoots {H : Type} (TA TB : DiffTree H) (M : Matching) : Matching :=
  if TA.kind TA.root = TB.kind TB.root ∧ ¬ M.containsA TA.root then M.add TA.root TB.root else M

/-- The nodes for which `OpaqueChanged` is emitted, with the new inner HTML,
diff.rs:1137-1159. -/
def opaqueChanges {H : Type} [DecidableEq H] (TA TB : DiffTree H) (new : Arena NodeData)
    (M : Matching) : List (Nat × Str) :=
  M.pairs.filterMap fun p =>
    if !TB.isOpaque p.2 then none
    else if TA.hash p.1 = TB.hash p.2 then none
    else some (p.1, serializeInner new p.2)

/-- Final patches for opaque nodes: paths on a fresh shadow of the old tree, diff.rs:1163-1178. -/
def opaquePatches (A : Arena TData) (root : Nat) (chg : List (Nat × Str)) : Res (List Patch) :=
  if chg.isEmpty then .ok []
  else do
    let S ← Shadow.new A root
    .ok (chg.map fun c => .opaqueChanged (S.computePath c.1) c.2)

/-- The matching used by `diff`: `compute_matching` plus forced roots, diff.rs:1106-1118. -/
def diffMatching {H : Type} [DecidableEq H] (TA TB : DiffTree H) : Matching :=
  forceRoots TA TB (computeMatching TA TB Config.diff)

/-- The tree of the old document in `diff`, diff.rs:1087-1088. -/
def oldTree {H : Type} (hashNode : HKind → Option Str → List H → H) (old : Document)
    (body : Nat) : DiffTree H := DiffTree.ofArena hashNode (buildTree old body) 0

/-- The tree of the new document in `diff`, diff.rs:1090. -/
def newTree {H : Type} (hashNode : HKind → Option Str → List H → H) (new : Document)
    (body : Nat) : DiffTree H := DiffTree.ofArena hashNode (diffable new) body

/-- `diff`, diff.rs:1049-1181. A `Document` node below the new body makes
`DiffableDocument::kind` panic (diff.rs:651-656); the model reports the panic up front. -/
def diff {H : Type} [DecidableEq H] (hashNode : HKind → Option Str → List H → H)
    (old new : Document) : Res (List Patch) :=
  match old.body, new.body with
  | none, none => .ok []
  | none, some nb => insertAllLoop new.arena 0 (new.arena.children nb)
  | some ob, none => .ok (removeAll (old.arena.children ob).length)
  | some ob, some nb =>
    if (new.arena.descendants nb).any fun n => decide ((new.arena.data n).kind = .document) then
      .error .panic
    else do
      let TA := oldTree hashNode old ob
      let TB := newTree hashNode new nb
      let M := diffMatching TA TB
      let ops := generateEditScript TA TB M
      let ps ← convertOps ops (buildTree old ob) 0 (diffable new) M
      let qs ← opaquePatches (buildTree old ob) 0 (opaqueChanges TA TB new.arena M)
      .ok (ps ++ qs)

end Hotmeal
