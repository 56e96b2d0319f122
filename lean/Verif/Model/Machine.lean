import Verif.Model.Tables
import Verif.Model.Float
import Verif.Model.Numbers
import Verif.Model.Hash

set_option autoImplicit false

/-!
# `diff` as it runs

The parts that the other modules look at one by one, put together: tables and caches (`Model/Tables`), scores in
double precision (`Model/Float`), numbers of 32 bits (`Model/Numbers`) and hashes of 64 bits (`Model/Hash`).
-/

namespace Hotmeal

/-- Scores as `f64`. `HtmlProps::similarity`, hotmeal/src/diff.rs:420-437; `dice_coefficient`,
cinereus/src/matching.rs:706-717; comparisons at matching.rs:477, 513, 528, 554, 613, 656; the threshold 0.5 is
`MatchingConfig::default`, matching.rs:149-157. -/
def Tables.Scoring.f64 : Tables.Scoring where
  Score := ℚ
  similar := fun a b => decide (F64.Config.diff.threshold ≤ F64.similarity a b)
  dice := fun c m n => if m == 0 && n == 0 then 1 else F64.div (F64.mul 2 (F64.ofNat c)) (F64.ofNat (m + n))
  enough := fun s => decide (F64.Config.diff.threshold ≤ s)
  better := fun s t => decide (t < s)

/-- `diff`, hotmeal/src/diff.rs:1049-1181, on the machine. `atom` is the hash of an interned name and `hasher` the
hash function (`string_cache` and `rapidhash`), `order` the order in which hash sets are iterated, `missing` what a
lookup that panics would return. Simplification: numbers of a path and slot numbers are cast at the end
(`Patch.u32`), positions where they are cached (diff.rs:692). -/
def Machine.diff (atom : Str → UInt32) (hasher : List UInt8 → UInt64) (order : List Nat → List Nat)
    (missing : Tables.NodeInfo UInt64) (old new : Document) : Res (List Patch) :=
  match Tables.diff .f64 (· % 2 ^ 32) order missing (Hash.node atom hasher) 0 old new with
  | .ok ps => .ok (ps.map Patch.u32)
  | .error e => .error e

end Hotmeal
