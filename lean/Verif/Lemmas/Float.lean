import Mathlib.Tactic.Linarith
import Mathlib.Tactic.Positivity
import Mathlib.Tactic.FieldSimp
import Mathlib.Tactic.Ring
import Mathlib.Tactic.NormNum
import Verif.Model.Float

set_option autoImplicit false

/-!
# Rounding does not change comparisons of small fractions
-/

namespace Hotmeal
namespace F64

theorem roundEven_err (x : ℚ) : |(roundEven x : ℚ) - x| ≤ 1 / 2 := by
  have h1 := Int.floor_le x
  have h2 := Int.lt_floor_add_one x
  unfold roundEven
  split
  · rw [abs_le]; constructor <;> linarith
  · split
    · push_cast; rw [abs_le]; constructor <;> linarith
    · split
      · rw [abs_le]; constructor <;> linarith
      · push_cast; rw [abs_le]; constructor <;> linarith

theorem roundEven_int (n : ℤ) : roundEven n = n := by
  unfold roundEven
  rw [Int.floor_intCast]
  simp

theorem ulp_pos (x : ℚ) : 0 < ulp x := by
  unfold ulp; exact zpow_pos (by norm_num) _

theorem ulp_le {x : ℚ} (hx : 0 < x) : ulp x ≤ x * (2 : ℚ) ^ (-52 : ℤ) := by
  unfold ulp
  rw [sub_eq_add_neg, zpow_add₀ (by norm_num)]
  have h := Int.zpow_log_le_self (b := 2) (r := x) (by norm_num) hx
  exact mul_le_mul_of_nonneg_right (by exact_mod_cast h) (by positivity)

/-- The relative error of rounding is at most `2^-53`. -/
theorem rnd_err {x : ℚ} (hx : 0 ≤ x) : |rnd x - x| ≤ x * (2 : ℚ) ^ (-53 : ℤ) := by
  unfold rnd
  split
  · next h => subst h; simp
  · next h =>
    have hx' : 0 < x := lt_of_le_of_ne hx (Ne.symm h)
    have hu := ulp_pos x
    have e := roundEven_err (x / ulp x)
    have : (roundEven (x / ulp x) : ℚ) * ulp x - x = ((roundEven (x / ulp x) : ℚ) - x / ulp x) * ulp x := by
      field_simp
    rw [this, abs_mul, abs_of_pos hu]
    have h2 := ulp_le hx'
    have h3 : (2 : ℚ) ^ (-53 : ℤ) = (2 : ℚ) ^ (-52 : ℤ) * (1 / 2) := by norm_num
    rw [h3]
    clear h3
    generalize (2 : ℚ) ^ (-52 : ℤ) = c at h2 ⊢
    calc |(roundEven (x / ulp x) : ℚ) - x / ulp x| * ulp x ≤ 1 / 2 * ulp x :=
          mul_le_mul_of_nonneg_right e hu.le
      _ ≤ x * (c * (1 / 2)) := by linarith

/-- Numbers with at most 53 significant bits are not rounded. -/
theorem rnd_exact {x : ℚ} {n : ℤ} (h : x = n * ulp x) : rnd x = x := by
  unfold rnd
  split
  · next e => exact e.symm
  · have hu := ulp_pos x
    have : x / ulp x = n := by
      rw [div_eq_iff hu.ne']; exact h
    rw [this, roundEven_int]
    exact h.symm

theorem ofNat_eq {n : Nat} (h : n < 2 ^ 53) : ofNat n = n := by
  unfold ofNat
  by_cases h0 : n = 0
  · subst h0; simp [rnd]
  · have hlog : Int.log 2 (n : ℚ) = Nat.log 2 n := Int.log_natCast 2 n
    have hl : Nat.log 2 n ≤ 52 := by
      have := (Nat.log_lt_iff_lt_pow (b := 2) (by norm_num) h0 (x := 53)).2 h
      omega
    refine rnd_exact (n := n * 2 ^ (52 - Nat.log 2 n)) ?_
    unfold ulp
    rw [hlog]
    have : ((Nat.log 2 n : ℤ) - 52) = -((52 - Nat.log 2 n : ℕ) : ℤ) := by omega
    rw [this, zpow_neg, zpow_natCast]
    push_cast
    field_simp

theorem rnd_half : rnd (1 / 2) = 1 / 2 := by
  have hlog : Int.log 2 (1 / 2 : ℚ) = -1 := by
    have := Int.log_zpow (b := 2) (R := ℚ) (by norm_num) (-1)
    rw [← this]
    norm_num
  refine rnd_exact (n := 2 ^ 52) ?_
  unfold ulp
  rw [hlog]
  norm_num

theorem rnd_one : rnd 1 = 1 := by
  have := ofNat_eq (n := 1) (by norm_num)
  simpa [ofNat] using this

/-- Division of integers is rounded once. -/
theorem div_ofNat {p q : Nat} (hp : p < 2 ^ 53) (hq : q < 2 ^ 53) : div (ofNat p) (ofNat q) = rnd (p / q) := by
  unfold div
  rw [ofNat_eq hp, ofNat_eq hq]

theorem pow53 : (2 : ℚ) ^ (-53 : ℤ) = 1 / 9007199254740992 := by norm_num

/-- Comparing a quotient with one half gives the exact answer. -/
theorem half_le_rnd {p q : Nat} (hq : 0 < q) (hq' : q ≤ 2 ^ 52) :
    1 / 2 ≤ rnd ((p : ℚ) / q) ↔ q ≤ 2 * p := by
  have hq0 : (0 : ℚ) < q := by exact_mod_cast hq
  have hq1 : (q : ℚ) ≤ 4503599627370496 := by
    have : q ≤ 4503599627370496 := hq'
    exact_mod_cast this
  have hx : (0 : ℚ) ≤ (p : ℚ) / q := by positivity
  have he := abs_le.1 (rnd_err hx)
  rw [pow53] at he
  constructor
  · intro h
    apply Classical.byContradiction
    intro hc
    have hc' : 2 * p + 1 ≤ q := by omega
    have hc'' : (2 : ℚ) * p + 1 ≤ q := by exact_mod_cast hc'
    have hx2 : (p : ℚ) / q ≤ 1 / 2 - 1 / (2 * q) := by
      rw [div_le_iff₀ hq0]
      have : (1 / 2 - 1 / (2 * (q : ℚ))) * q = (q - 1) / 2 := by field_simp
      rw [this]; linarith
    have hpos : 1 / (2 * (q : ℚ)) ≥ 1 / 9007199254740992 := by
      apply one_div_le_one_div_of_le <;> linarith
    have : (p : ℚ) / q < 1 / 2 := by linarith
    linarith [he.2]
  · intro h
    have h' : (q : ℚ) ≤ 2 * p := by exact_mod_cast h
    rcases Nat.lt_or_ge q (2 * p) with hlt | hge
    · have hc' : q + 1 ≤ 2 * p := hlt
      have hc'' : (q : ℚ) + 1 ≤ 2 * p := by exact_mod_cast hc'
      have hx2 : 1 / 2 + 1 / (2 * (q : ℚ)) ≤ (p : ℚ) / q := by
        rw [le_div_iff₀ hq0]
        have : (1 / 2 + 1 / (2 * (q : ℚ))) * q = (q + 1) / 2 := by field_simp
        rw [this]; linarith
      have hpos : 1 / (2 * (q : ℚ)) ≥ 1 / 9007199254740992 := by
        apply one_div_le_one_div_of_le <;> linarith
      have h1 : rnd ((p : ℚ) / q) ≥ (p : ℚ) / q * (1 - 1 / 9007199254740992) := by linarith [he.1]
      have h2 : (p : ℚ) / q * (1 - 1 / 9007199254740992) ≥ (1 / 2 + 1 / 9007199254740992) * (1 - 1 / 9007199254740992) := by
        apply mul_le_mul_of_nonneg_right _ (by norm_num)
        linarith
      have h3 : ((1 : ℚ) / 2 + 1 / 9007199254740992) * (1 - 1 / 9007199254740992) ≥ 1 / 2 := by norm_num
      linarith
    · have : q = 2 * p := by omega
      have e : (p : ℚ) / q = 1 / 2 := by
        rw [this]; push_cast
        have : (p : ℚ) ≠ 0 := by
          have : 0 < p := by omega
          positivity
        field_simp
      rw [e, rnd_half]

/-- Comparing two quotients with small denominators gives the exact answer. -/
theorem rnd_lt_rnd {p q p' q' : Nat} (hq : 0 < q) (hq' : 0 < q') (hp : p ≤ 2 * q) (hp' : p' ≤ 2 * q')
    (hs : q ≤ 2 ^ 25) (hs' : q' ≤ 2 ^ 25) :
    rnd ((p' : ℚ) / q') < rnd ((p : ℚ) / q) ↔ p' * q < p * q' := by
  have key : ∀ {p q p' q' : Nat}, 0 < q → 0 < q' → p ≤ 2 * q → p' ≤ 2 * q' → q ≤ 2 ^ 25 → q' ≤ 2 ^ 25 →
      p' * q < p * q' → rnd ((p' : ℚ) / q') < rnd ((p : ℚ) / q) := by
    intro p q p' q' hq hq' hp hp' hs hs' h
    have hq0 : (0 : ℚ) < q := by exact_mod_cast hq
    have hq0' : (0 : ℚ) < q' := by exact_mod_cast hq'
    have hs1 : (q : ℚ) ≤ 33554432 := by
      have : q ≤ 33554432 := hs
      exact_mod_cast this
    have hs1' : (q' : ℚ) ≤ 33554432 := by
      have : q' ≤ 33554432 := hs'
      exact_mod_cast this
    have hx : (p : ℚ) / q ≤ 2 := by
      rw [div_le_iff₀ hq0]; exact_mod_cast hp
    have hx' : (p' : ℚ) / q' ≤ 2 := by
      rw [div_le_iff₀ hq0']; exact_mod_cast hp'
    have hgap : (p' : ℚ) / q' + 1 / (q * q') ≤ (p : ℚ) / q := by
      have h1 : (p' : ℚ) * q + 1 ≤ p * q' := by exact_mod_cast h
      have e1 : (p' : ℚ) / q' + 1 / (q * q') = (p' * q + 1) / (q * q') := by field_simp
      have e2 : (p : ℚ) / q = p * q' / (q * q') := by field_simp
      rw [e1, e2]
      exact div_le_div_of_nonneg_right h1 (by positivity)
    have hqq : (q : ℚ) * q' ≤ 33554432 * 33554432 := mul_le_mul hs1 hs1' hq0'.le (by norm_num)
    have hpos : (1 : ℚ) / (33554432 * 33554432) ≤ 1 / (q * q') :=
      one_div_le_one_div_of_le (by positivity) hqq
    have he := abs_le.1 (rnd_err (x := (p : ℚ) / q) (by positivity))
    have he' := abs_le.1 (rnd_err (x := (p' : ℚ) / q') (by positivity))
    rw [pow53] at he he'
    have n1 : (1 : ℚ) / (33554432 * 33554432) > 4 * (1 / 9007199254740992) := by norm_num
    nlinarith [he.1, he'.2, hgap, hpos, hx, hx', n1]
  constructor
  · intro h
    apply Classical.byContradiction
    intro hc
    rcases Nat.lt_or_ge (p * q') (p' * q) with hlt | hge
    · have := key hq' hq hp' hp hs' hs hlt
      exact lt_irrefl _ (lt_trans h this)
    · have he : p * q' = p' * q := by omega
      have hq0 : (0 : ℚ) < q := by exact_mod_cast hq
      have hq0' : (0 : ℚ) < q' := by exact_mod_cast hq'
      have : (p : ℚ) / q = (p' : ℚ) / q' := by
        rw [div_eq_div_iff hq0.ne' hq0'.ne']
        exact_mod_cast he
      rw [this] at h
      exact lt_irrefl _ h
  · exact key hq hq' hp hp' hs hs'

end F64
end Hotmeal
