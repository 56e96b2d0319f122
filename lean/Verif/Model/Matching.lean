import Verif.Model.DiffTree

/-!
# Matching (cinereus/src/matching.rs)
-/

namespace Hotmeal

/-- `Matching`, cinereus/src/matching.rs:41-48. The growable vectors are total functions. -/
structure Matching where
  aToB : Nat → Option Nat
  bToA : Nat → Option Nat
  pairs : List (Nat × Nat)

namespace Matching

/-- `Matching::new`, matching.rs:58-64. -/
def empty : Matching := ⟨fun _ => none, fun _ => none, []⟩

/-- `Matching::add`, matching.rs:77-92. -/
def add (M : Matching) (a b : Nat) : Matching :=
  ⟨Arena.upd M.aToB a (some b), Arena.upd M.bToA b (some a), M.pairs ++ [(a, b)]⟩

/-- `contains_a`, matching.rs:96-99. -/
def containsA (M : Matching) (a : Nat) : Bool := (M.aToB a).isSome
/-- `contains_b`, matching.rs:103-106. -/
def containsB (M : Matching) (b : Nat) : Bool := (M.bToA b).isSome
/-- `get_b`, matching.rs:110-113. -/
def getB (M : Matching) (a : Nat) : Option Nat := M.aToB a
/-- `get_a`, matching.rs:117-120. -/
def getA (M : Matching) (b : Nat) : Option Nat := M.bToA b

end Matching

/-- `MatchingConfig`, matching.rs:140-157. -/
structure Config where
  threshold : Score
  minHeight : Nat

/-- `MatchingConfig { min_height: 0, ..default() }`, hotmeal/src/diff.rs:1106-1109. -/
def Config.diff : Config := ⟨⟨1, 2⟩, 0⟩

/-- `MatchingConfig::default`, matching.rs:151-158. -/
def Config.default : Config := ⟨⟨1, 2⟩, 1⟩

variable {H : Type} [DecidableEq H]

/-- `match_subtrees`, matching.rs:268-298; fuel bounds the depth of the recursion. -/
def matchSubtrees (TA TB : DiffTree H) : Nat → Nat → Nat → Matching → Matching
  | 0, _, _, M => M
  | k + 1, a, b, M =>
    if M.containsA a || M.containsB b then M
    else
      let M := M.add a b
      if TA.isOpaque a || TB.isOpaque b then M
      else ((TA.children a).zip (TB.children b)).foldl
        (fun M p => matchSubtrees TA TB k p.1 p.2 M) M

/-- The candidates pushed when hashes differ, matching.rs:243-262. They are listed in push
order. -/
def childCandidates (TA TB : DiffTree H) (M : Matching) (a b : Nat) : List (Nat × Nat) :=
  (TA.children a).flatMap fun ac =>
    ((TB.children b).filter fun bc =>
      !M.containsB bc && (TA.hash ac == TB.hash bc || TA.kind ac == TB.kind bc)).map
      fun bc => (ac, bc)

/-- The `while let Some(..) = candidates.pop()` loop of `top_down_phase`, matching.rs:214-264.
The head of the list is the top of the stack; fuel bounds the number of pops. `depth` is the
fuel given to `matchSubtrees`. -/
def topDownLoop (TA TB : DiffTree H) (cfg : Config) (depth : Nat) :
    Nat → List (Nat × Nat) → Matching → Matching
  | 0, _, M => M
  | _, [], M => M
  | k + 1, (a, b) :: st, M =>
    if M.containsA a || M.containsB b then topDownLoop TA TB cfg depth k st M
    else if TA.height a < cfg.minHeight then topDownLoop TA TB cfg depth k st M
    else if TA.hash a == TB.hash b && TA.kind a == TB.kind b then
      topDownLoop TA TB cfg depth k st (matchSubtrees TA TB depth a b M)
    else if TA.isOpaque a || TB.isOpaque b then
      topDownLoop TA TB cfg depth k st (if TA.kind a == TB.kind b then M.add a b else M)
    else
      topDownLoop TA TB cfg depth k ((childCandidates TA TB M a b).reverse ++ st) M

/-- Number of pops that is always enough (`topDown_terminates`): a pair of nodes is expanded at
most once per occurrence, and an occurrence of a pair of nodes comes from its pair of parents,
so there are at most `|A| * |B|` pairs pushed. For the loop at matching.rs:205-265. -/
def topDownFuel (TA TB : DiffTree H) : Nat := TA.iter.length * TB.iter.length + 1

/-- Depth of recursion that is always enough in `match_subtrees`. For the recursion at matching.rs:267-298. -/
def matchDepth (TA TB : DiffTree H) : Nat := TA.iter.length + TB.iter.length + 1

/-- `top_down_phase`, matching.rs:192-265. Sorting the one-element candidate vector is a no-op. -/
def topDown (TA TB : DiffTree H) (cfg : Config) (M : Matching) : Matching :=
  topDownLoop TA TB cfg (matchDepth TA TB) (topDownFuel TA TB) [(TA.root, TB.root)] M

/-- `ancestry_compatible`, matching.rs:333-386. -/
def ancestryCompatible (TA TB : DiffTree H) (M : Matching) (a b : Nat) : Bool :=
  (match TA.parent a with
   | none => true
   | some pa => match M.getB pa with
     | none => true
     | some pb => decide (b ∈ TB.descendants pb)) &&
  (match TB.parent b with
   | none => true
   | some pb => match M.getA pb with
     | none => true
     | some pa => decide (a ∈ TA.descendants pa))

/-- Descendants of opaque nodes, the opaque nodes themselves excluded unless nested.
matching.rs:408-431 and cinereus/src/chawathe.rs:192-217. -/
def opaqueDescendants (T : DiffTree H) : List Nat :=
  T.iter.flatMap fun n =>
    if T.isOpaque n then (T.descendants n).filter (· != n) else []

/-- `b_by_kind.get(kind)`, matching.rs:433-442: unmatched nodes of B of that kind outside opaque
content, in iteration order, as of the start of the phase (`M0`). -/
def bByKind (TB : DiffTree H) (M0 : Matching) (opqB : List Nat) (k : HKind) : List Nat :=
  TB.iter.filter fun b => !M0.containsB b && !(decide (b ∈ opqB)) && TB.kind b == k

/-- `dice_coefficient`, matching.rs:678-718. Descendant sets are duplicate-free lists. -/
def dice (TA TB : DiffTree H) (M : Matching) (a b : Nat) : Score :=
  let da := TA.descendants a
  let db := TB.descendants b
  let common := (da.filter fun x => match M.getB x with
    | none => false
    | some y => decide (y ∈ db)).length
  if da.isEmpty && db.isEmpty then ⟨1, 1⟩ else ⟨2 * common, da.length + db.length⟩

/-- The Dice loop over candidates, matching.rs:495-531; `best` as in the code. -/
def diceBest (TA TB : DiffTree H) (cfg : Config) (M : Matching) (a : Nat) :
    List Nat → Option (Nat × Score) → Option (Nat × Score)
  | [], best => best
  | b :: bs, best =>
    if M.containsB b then diceBest TA TB cfg M a bs best
    else if TB.childCount b = 0 then diceBest TA TB cfg M a bs best
    else if !ancestryCompatible TA TB M a b then diceBest TA TB cfg M a bs best
    else if !(((TA.props a).similarity (TB.props b)).ge cfg.threshold) then
      diceBest TA TB cfg M a bs best
    else
      let score := dice TA TB M a b
      if score.ge cfg.threshold && (match best with
          | none => true
          | some (_, s) => score.gt s) then
        diceBest TA TB cfg M a bs (some (b, score))
      else diceBest TA TB cfg M a bs best

/-- Position candidate of pass 1, matching.rs:459-492. -/
def pass1Position (TA TB : DiffTree H) (cfg : Config) (M : Matching) (a parentB : Nat) :
    Option Nat :=
  ((TB.children parentB).filter fun b => !M.containsB b && TB.kind b == TA.kind a).find? fun b =>
    TB.position b == TA.position a && ((TA.props a).similarity (TB.props b)).ge cfg.threshold

/-- Second half of one iteration of pass 1 (Dice, then root fallback), matching.rs:494-567. -/
def pass1Dice (TA TB : DiffTree H) (cfg : Config) (byKind : HKind → List Nat) (M : Matching)
    (a : Nat) : Matching :=
  match diceBest TA TB cfg M a (byKind (TA.kind a)) none with
  | some (b, _) => M.add a b
  | none =>
    if (TA.parent a).isNone then
      match (byKind (TA.kind a)).find? (fun b => !M.containsB b && 0 < TB.childCount b &&
          (TB.parent b).isNone &&
          ((TA.props a).similarity (TB.props b)).ge cfg.threshold) with
      | some b => M.add a b
      | none => M
    else M

/-- One iteration of pass 1, matching.rs:446-568. -/
def pass1Step (TA TB : DiffTree H) (cfg : Config) (opqA : List Nat) (byKind : HKind → List Nat)
    (M : Matching) (a : Nat) : Matching :=
  if M.containsA a || decide (a ∈ opqA) then M
  else
    match (TA.parent a).bind M.getB with
    | some parentB =>
      match pass1Position TA TB cfg M a parentB with
      | some b => M.add a b
      | none => pass1Dice TA TB cfg byKind M a
    | none => pass1Dice TA TB cfg byKind M a

/-- Choice among the children of the matched parent in pass 2, matching.rs:592-617. -/
def pass2Local (TA TB : DiffTree H) (cfg : Config) (M : Matching) (a parentB : Nat) :
    Option Nat :=
  let cands := (TB.children parentB).filter fun b =>
    !M.containsB b && TB.childCount b == 0 && TB.kind b == TA.kind a
  (cands.find? fun b => TB.position b == TA.position a && TB.hash b == TA.hash a).orElse fun _ =>
  (cands.find? fun b => TB.hash b == TA.hash a).orElse fun _ =>
  cands.find? fun b => TB.position b == TA.position a &&
    ((TA.props a).similarity (TB.props b)).ge cfg.threshold

/-- Global choice in pass 2, matching.rs:627-660; `best` as in the code. -/
def pass2Global (TA TB : DiffTree H) (cfg : Config) (M : Matching) (a : Nat) :
    List Nat → Option Nat → Option Nat
  | [], best => best
  | b :: bs, best =>
    if M.containsB b then pass2Global TA TB cfg M a bs best
    else if TB.childCount b ≠ 0 then pass2Global TA TB cfg M a bs best
    else if !ancestryCompatible TA TB M a b then pass2Global TA TB cfg M a bs best
    else if TB.hash b == TA.hash a then some b
    else if best.isNone && ((TA.props a).similarity (TB.props b)).ge cfg.threshold then
      pass2Global TA TB cfg M a bs (some b)
    else pass2Global TA TB cfg M a bs best

/-- One iteration of pass 2, matching.rs:572-672. -/
def pass2Step (TA TB : DiffTree H) (cfg : Config) (opqA : List Nat) (byKind : HKind → List Nat)
    (M : Matching) (a : Nat) : Matching :=
  if M.containsA a || decide (a ∈ opqA) then M
  else if TA.childCount a ≠ 0 then M
  else
    match (match (TA.parent a).bind M.getB with
      | some parentB => pass2Local TA TB cfg M a parentB
      | none => pass2Global TA TB cfg M a (byKind (TA.kind a)) none) with
    | some b => M.add a b
    | none => M

/-- `bottom_up_phase`, matching.rs:396-673. -/
def bottomUp (TA TB : DiffTree H) (cfg : Config) (M0 : Matching) : Matching :=
  let opqA := opaqueDescendants TA
  let opqB := opaqueDescendants TB
  let byKind := bByKind TB M0 opqB
  let M1 := TA.iter.foldl (pass1Step TA TB cfg opqA byKind) M0
  TA.iter.foldl (pass2Step TA TB cfg opqA byKind) M1

/-- `compute_matching`, matching.rs:164-185. -/
def computeMatching (TA TB : DiffTree H) (cfg : Config) : Matching :=
  bottomUp TA TB cfg (topDown TA TB cfg Matching.empty)

end Hotmeal
