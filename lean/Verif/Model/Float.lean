import Mathlib.Data.Int.Log
import Mathlib.Data.Rat.Floor
import Verif.Model.Diff

set_option autoImplicit false

/-!
# The scores as `f64`

The other modules compare scores as exact fractions. Here the same functions are modelled with the
arithmetic that the code uses: IEEE 754 double precision, rounding to nearest, ties to even.

Simplification: values are rational numbers and the exponent is not bounded. All values that occur are 0
or lie between `2^-64` and `2^65`, far from overflow and from the subnormal numbers.
-/

namespace Hotmeal

namespace F64

/-- The integer closest to `x`, the even one of two.
Part of the arithmetic used at diff.rs:435 and matching.rs:716. -/
def roundEven (x : ℚ) : ℤ :=
  if x - ⌊x⌋ < 1 / 2 then ⌊x⌋
  else if 1 / 2 < x - ⌊x⌋ then ⌊x⌋ + 1
  else if ⌊x⌋ % 2 = 0 then ⌊x⌋ else ⌊x⌋ + 1

/-- The distance of the doubles around a positive `x`: the significand has 53 bits.
Part of the arithmetic used at diff.rs:435 and matching.rs:716. -/
def ulp (x : ℚ) : ℚ := (2 : ℚ) ^ (Int.log 2 x - 52)

/-- The double closest to a non-negative `x`. Part of the arithmetic used at diff.rs:435 and matching.rs:716. -/
def rnd (x : ℚ) : ℚ := if x = 0 then 0 else roundEven (x / ulp x) * ulp x

/-- `n as f64`. diff.rs:435, matching.rs:716. -/
def ofNat (n : Nat) : ℚ := rnd n

/-- `x * y`. matching.rs:716. -/
def mul (x y : ℚ) : ℚ := rnd (x * y)

/-- `x / y`, for `y` not zero. diff.rs:435, matching.rs:716. -/
def div (x y : ℚ) : ℚ := rnd (x / y)

/-- `HtmlProps::similarity`, hotmeal/src/diff.rs:420-437. -/
def similarity (a b : Attrs) : ℚ :=
  if a.isEmpty && b.isEmpty then 1
  else
    let inter := (a.keySet.filter (fun k => k ∈ b.keySet)).length
    let union := a.keySet.length + b.keySet.length
    if union = 0 then 1 else div (ofNat (2 * inter)) (ofNat union)

/-- `MatchingConfig`, cinereus/src/matching.rs:140-157. -/
structure Config where
  threshold : ℚ
  minHeight : Nat

/-- `MatchingConfig { min_height: 0, ..default() }`, hotmeal/src/diff.rs:1106-1109: the threshold is the
double `0.5`. -/
def Config.diff : Config := ⟨1 / 2, 0⟩

variable {H : Type} [DecidableEq H]

/-- `dice_coefficient`, matching.rs:678-718. -/
def dice (TA TB : DiffTree H) (M : Matching) (a b : Nat) : ℚ :=
  let da := TA.descendants a
  let db := TB.descendants b
  let common := (da.filter fun x => match M.getB x with
    | none => false
    | some y => decide (y ∈ db)).length
  if da.isEmpty && db.isEmpty then 1 else div (mul 2 (ofNat common)) (ofNat (da.length + db.length))

/-- The Dice loop over candidates, matching.rs:495-531. -/
def diceBest (TA TB : DiffTree H) (cfg : Config) (M : Matching) (a : Nat) :
    List Nat → Option (Nat × ℚ) → Option (Nat × ℚ)
  | [], best => best
  | b :: bs, best =>
    if M.containsB b then diceBest TA TB cfg M a bs best
    else if TB.childCount b = 0 then diceBest TA TB cfg M a bs best
    else if !ancestryCompatible TA TB M a b then diceBest TA TB cfg M a bs best
    else if !decide (cfg.threshold ≤ similarity (TA.props a) (TB.props b)) then
      diceBest TA TB cfg M a bs best
    else
      let score := dice TA TB M a b
      if decide (cfg.threshold ≤ score) && (match best with
          | none => true
          | some (_, s) => decide (s < score)) then
        diceBest TA TB cfg M a bs (some (b, score))
      else diceBest TA TB cfg M a bs best

/-- Position candidate of pass 1, matching.rs:459-492. -/
def pass1Position (TA TB : DiffTree H) (cfg : Config) (M : Matching) (a parentB : Nat) :
    Option Nat :=
  ((TB.children parentB).filter fun b => !M.containsB b && TB.kind b == TA.kind a).find? fun b =>
    TB.position b == TA.position a && decide (cfg.threshold ≤ similarity (TA.props a) (TB.props b))

/-- Second half of one iteration of pass 1 (Dice, then root fallback), matching.rs:494-567. -/
def pass1Dice (TA TB : DiffTree H) (cfg : Config) (byKind : HKind → List Nat) (M : Matching)
    (a : Nat) : Matching :=
  match diceBest TA TB cfg M a (byKind (TA.kind a)) none with
  | some (b, _) => M.add a b
  | none =>
    if (TA.parent a).isNone then
      match (byKind (TA.kind a)).find? (fun b => !M.containsB b && 0 < TB.childCount b &&
          (TB.parent b).isNone &&
          decide (cfg.threshold ≤ similarity (TA.props a) (TB.props b))) with
      | some b => M.add a b
      | none => M
    else M

/-- One iteration of pass 1, matching.rs:446-568. -/
def pass1Step (TA TB : DiffTree H) (cfg : Config) (opqA : List Nat) (byKind : HKind → List Nat)
    (M : Matching) (a : Nat) : Matching :=
  if M.containsA a || decide (a ∈ opqA) then M
  else
    match (TA.parent a).bind M.getB with
    | some parentB =>
      match pass1Position TA TB cfg M a parentB with
      | some b => M.add a b
      | none => pass1Dice TA TB cfg byKind M a
    | none => pass1Dice TA TB cfg byKind M a

/-- Choice among the children of the matched parent in pass 2, matching.rs:592-617. -/
def pass2Local (TA TB : DiffTree H) (cfg : Config) (M : Matching) (a parentB : Nat) :
    Option Nat :=
  let cands := (TB.children parentB).filter fun b =>
    !M.containsB b && TB.childCount b == 0 && TB.kind b == TA.kind a
  (cands.find? fun b => TB.position b == TA.position a && TB.hash b == TA.hash a).orElse fun _ =>
  (cands.find? fun b => TB.hash b == TA.hash a).orElse fun _ =>
  cands.find? fun b => TB.position b == TA.position a &&
    decide (cfg.threshold ≤ similarity (TA.props a) (TB.props b))

/-- Global choice in pass 2, matching.rs:627-660. -/
def pass2Global (TA TB : DiffTree H) (cfg : Config) (M : Matching) (a : Nat) :
    List Nat → Option Nat → Option Nat
  | [], best => best
  | b :: bs, best =>
    if M.containsB b then pass2Global TA TB cfg M a bs best
    else if TB.childCount b ≠ 0 then pass2Global TA TB cfg M a bs best
    else if !ancestryCompatible TA TB M a b then pass2Global TA TB cfg M a bs best
    else if TB.hash b == TA.hash a then some b
    else if best.isNone && decide (cfg.threshold ≤ similarity (TA.props a) (TB.props b)) then
      pass2Global TA TB cfg M a bs (some b)
    else pass2Global TA TB cfg M a bs best

/-- One iteration of pass 2, matching.rs:572-672. -/
def pass2Step (TA TB : DiffTree H) (cfg : Config) (opqA : List Nat) (byKind : HKind → List Nat)
    (M : Matching) (a : Nat) : Matching :=
  if M.containsA a || decide (a ∈ opqA) then M
  else if TA.childCount a ≠ 0 then M
  else
    match (match (TA.parent a).bind M.getB with
      | some parentB => pass2Local TA TB cfg M a parentB
      | none => pass2Global TA TB cfg M a (byKind (TA.kind a)) none) with
    | some b => M.add a b
    | none => M

/-- `bottom_up_phase`, matching.rs:396-673. -/
def bottomUp (TA TB : DiffTree H) (cfg : Config) (M0 : Matching) : Matching :=
  let opqA := opaqueDescendants TA
  let opqB := opaqueDescendants TB
  let byKind := bByKind TB M0 opqB
  let M1 := TA.iter.foldl (pass1Step TA TB cfg opqA byKind) M0
  TA.iter.foldl (pass2Step TA TB cfg opqA byKind) M1

/-- `compute_matching`, matching.rs:164-185. The top-down phase compares no scores. -/
def computeMatching (TA TB : DiffTree H) (cfg : Config) : Matching :=
  bottomUp TA TB cfg (topDown TA TB ⟨⟨1, 2⟩, cfg.minHeight⟩ Matching.empty)

/-- `diff`, hotmeal/src/diff.rs:1049-1181, as `Hotmeal.diff` but with the scores as `f64`. -/
def diff (hashNode : HKind → Option Str → List H → H) (old new : Document) : Res (List Patch) :=
  match old.body, new.body with
  | none, none => .ok []
  | none, some nb => insertAllLoop new.arena 0 (new.arena.children nb)
  | some ob, none => .ok (removeAll (old.arena.children ob).length)
  | some ob, some nb =>
    if (new.arena.descendants nb).any fun n => decide ((new.arena.data n).kind = .document) then
      .error .panic
    else do
      let TA := oldTree hashNode old ob
      let TB := newTree hashNode new nb
      let M := forceRoots TA TB (computeMatching TA TB Config.diff)
      let ops := generateEditScript TA TB M
      let ps ← convertOps ops (buildTree old ob) 0 (diffable new) M
      let qs ← opaquePatches (buildTree old ob) 0 (opaqueChanges TA TB new.arena M)
      .ok (ps ++ qs)

end F64

end Hotmeal
