import Mathlib.Data.Int.Log
import Mathlib.Algebra.Order.Floor.Ring
import Mathlib.Data.Rat.Floor
import Mathlib.Algebra.Order.Archimedean.Basic
import Mathlib.Tactic.Linarith
import Mathlib.Tactic.Positivity
import Mathlib.Tactic.NormNum
import Mathlib.Tactic.FieldSimp
import Mathlib.Tactic.Ring

/-!
# Floating-point rounding

A rounding to `p` significant bits is a monotone function that leaves every number with a `p`-bit
significand unchanged. All IEEE rounding modes are of this kind as long as no overflow or underflow
happens; the exponent is unbounded here. Theorems that mention a `Rounding 24` or `Rounding 53`
therefore hold for `float` and `double` arithmetic in any rounding mode, within the exponent range.

`nearestEven` is the IEEE default mode, shown to be such a rounding.
-/

namespace Bliss.Float

/-- Rounding to `p` significant bits. -/
structure Rounding (p : Nat) where
  r : ℚ → ℚ
  mono : ∀ x y, x ≤ y → r x ≤ r y
  exact : ∀ (m e : ℤ), |m| ≤ 2 ^ p → r (m * 2 ^ e) = m * 2 ^ e

namespace Rounding

variable {p : Nat} (R : Rounding p)

theorem zero : R.r 0 = 0 := by
  have := R.exact 0 0 (by simp)
  simpa using this

theorem int (m : ℤ) (h : |m| ≤ 2 ^ p) : R.r m = m := by
  have := R.exact m 0 h
  simpa using this

theorem nonneg {x : ℚ} (h : 0 ≤ x) : 0 ≤ R.r x := by
  have := R.mono 0 x h
  rwa [R.zero] at this

theorem nonpos {x : ℚ} (h : x ≤ 0) : R.r x ≤ 0 := by
  have := R.mono x 0 h
  rwa [R.zero] at this

theorem err_pos {x : ℚ} (hx : 0 < x) : |R.r x - x| ≤ x * 2 ^ (1 - (p : ℤ)) := by
  obtain ⟨e, he1, he2⟩ := exists_mem_Ico_zpow (y := (2 : ℚ)) hx (by norm_num)
  have h2 : (0 : ℚ) < 2 := by norm_num
  have hu : (0 : ℚ) < 2 ^ (e - p + 1) := zpow_pos h2 _
  have hk1 := Int.floor_le (x / 2 ^ (e - (p : ℤ) + 1))
  have hk2 := Int.lt_floor_add_one (x / 2 ^ (e - (p : ℤ) + 1))
  generalize hk : ⌊x / 2 ^ (e - (p : ℤ) + 1)⌋ = k at hk1 hk2
  rw [le_div_iff₀ hu] at hk1
  rw [div_lt_iff₀ hu] at hk2
  have hpow : (2 : ℚ) ^ (e + 1) = 2 ^ (p : ℤ) * 2 ^ (e - p + 1) := by
    rw [← zpow_add₀ (by norm_num)]; congr 1; ring
  have hk3 : k < 2 ^ p := by
    have h3 : (k : ℚ) * 2 ^ (e - p + 1) < 2 ^ (p : ℤ) * 2 ^ (e - p + 1) := by
      rw [← hpow]; exact lt_of_le_of_lt hk1 he2
    have h4 := lt_of_mul_lt_mul_right h3 hu.le
    rw [zpow_natCast] at h4
    exact_mod_cast h4
  have hk0 : 0 ≤ k := by
    rw [← hk]; exact Int.floor_nonneg.2 (by positivity)
  have e1 := R.exact k (e - p + 1) (by rw [abs_of_nonneg hk0]; omega)
  have e2 := R.exact (k + 1) (e - p + 1) (by rw [abs_of_nonneg (by omega)]; omega)
  have m1 := R.mono _ _ hk1
  have m2 := R.mono x (((k + 1 : ℤ) : ℚ) * 2 ^ (e - (p : ℤ) + 1)) (by push_cast; exact hk2.le)
  rw [e1] at m1
  rw [e2] at m2
  push_cast at m2
  have hux : (2 : ℚ) ^ (e - p + 1) ≤ x * 2 ^ (1 - (p : ℤ)) := by
    have : (2 : ℚ) ^ (e - p + 1) = 2 ^ e * 2 ^ (1 - (p : ℤ)) := by
      rw [← zpow_add₀ (by norm_num)]; congr 1; ring
    rw [this]
    exact mul_le_mul_of_nonneg_right he1 (zpow_pos h2 _).le
  rw [abs_le]
  constructor <;> nlinarith

/-- The mirrored rounding. -/
def neg : Rounding p where
  r := fun x => -R.r (-x)
  mono := fun x y h => by
    have := R.mono (-y) (-x) (by linarith)
    linarith
  exact := fun m e h => by
    have := R.exact (-m) e (by rwa [abs_neg])
    push_cast at this
    rw [neg_mul] at this
    rw [this]; ring

/-- Relative error of one rounding. -/
theorem err (x : ℚ) : |R.r x - x| ≤ |x| * 2 ^ (1 - (p : ℤ)) := by
  rcases lt_trichotomy x 0 with h | h | h
  · have := R.neg.err_pos (x := -x) (by linarith)
    simp only [neg, neg_neg] at this
    rw [abs_of_neg h]
    rw [show -R.r x - -x = -(R.r x - x) by ring, abs_neg] at this
    exact this
  · subst h; simp [R.zero]
  · rw [abs_of_pos h]; exact R.err_pos h

end Rounding

/-! ## `std::round` -/

/-- `std::round`: nearest integer, halves away from zero. -/
def roundAway (x : ℚ) : ℤ := if 0 ≤ x then ⌊x + 1 / 2⌋ else -⌊-x + 1 / 2⌋

theorem roundAway_err (x : ℚ) : |(roundAway x : ℚ) - x| ≤ 1 / 2 := by
  unfold roundAway
  split
  · have h1 := Int.floor_le (x + 1 / 2)
    have h2 := Int.lt_floor_add_one (x + 1 / 2)
    rw [abs_le]; constructor <;> linarith
  · have h1 := Int.floor_le (-x + 1 / 2)
    have h2 := Int.lt_floor_add_one (-x + 1 / 2)
    push_cast
    rw [abs_le]; constructor <;> linarith

theorem roundAway_eq {x : ℚ} {n : ℤ} (h : |x - n| < 1 / 2) : roundAway x = n := by
  have h1 := roundAway_err x
  rw [abs_lt] at h
  rw [abs_le] at h1
  have h2 : ((roundAway x - n : ℤ) : ℚ) < 1 := by push_cast; linarith
  have h3 : (-1 : ℚ) < ((roundAway x - n : ℤ) : ℚ) := by push_cast; linarith
  have h4 : roundAway x - n < 1 := by exact_mod_cast h2
  have h5 : -1 < roundAway x - n := by exact_mod_cast h3
  omega

theorem roundAway_mono {x y : ℚ} (h : x ≤ y) : roundAway x ≤ roundAway y := by
  unfold roundAway
  split
  · rw [if_pos (by linarith)]
    exact Int.floor_le_floor (by linarith)
  · split
    · have h1 : 0 ≤ ⌊-x + 1 / 2⌋ := Int.floor_nonneg.2 (by linarith)
      have h2 : 0 ≤ ⌊y + 1 / 2⌋ := Int.floor_nonneg.2 (by linarith)
      omega
    · have := Int.floor_le_floor (show -y + 1 / 2 ≤ -x + 1 / 2 by linarith)
      omega

/-! ## The IEEE default mode -/

/-- Nearest integer, halves to even. -/
def nearInt (x : ℚ) : ℤ :=
  if x - ⌊x⌋ < 1 / 2 then ⌊x⌋
  else if 1 / 2 < x - ⌊x⌋ then ⌊x⌋ + 1
  else if ⌊x⌋ % 2 = 0 then ⌊x⌋ else ⌊x⌋ + 1

theorem nearInt_mono {x y : ℚ} (h : x ≤ y) : nearInt x ≤ nearInt y := by
  have hf := Int.floor_le_floor h
  rcases lt_or_eq_of_le hf with h1 | h1
  · have a : nearInt x ≤ ⌊x⌋ + 1 := by unfold nearInt; split_ifs <;> omega
    have b : ⌊y⌋ ≤ nearInt y := by unfold nearInt; split_ifs <;> omega
    omega
  · unfold nearInt
    rw [← h1]
    split_ifs <;> first | omega | (exfalso; linarith)

theorem nearInt_int (n : ℤ) : nearInt n = n := by
  unfold nearInt; simp

/-- The exponent of `x`: `2 ^ expo x ≤ |x| < 2 ^ (expo x + 1)` for `x ≠ 0`. -/
def expo (x : ℚ) : ℤ := Int.log 2 |x|

/-- Spacing of the `p`-bit numbers around `x`. -/
def ulp (p : Nat) (x : ℚ) : ℚ := 2 ^ (expo x - p + 1)

/-- Round to nearest, ties to even, with `p` bits. -/
def rne (p : Nat) (x : ℚ) : ℚ := if x = 0 then 0 else nearInt (x / ulp p x) * ulp p x

theorem expo_le {x : ℚ} (hx : x ≠ 0) : (2 : ℚ) ^ expo x ≤ |x| := by
  have := Int.zpow_log_le_self (R := ℚ) (b := 2) (r := |x|) (by norm_num) (abs_pos.2 hx)
  exact_mod_cast this

theorem lt_expo (x : ℚ) : |x| < (2 : ℚ) ^ (expo x + 1) := by
  have := Int.lt_zpow_succ_log_self (R := ℚ) (b := 2) (by norm_num) |x|
  exact_mod_cast this

theorem ulp_pos (p : Nat) (x : ℚ) : 0 < ulp p x := zpow_pos (by norm_num) _

theorem ulp_mul (p : Nat) (x : ℚ) : (2 : ℚ) ^ p * ulp p x = 2 ^ (expo x + 1) := by
  unfold ulp
  rw [← zpow_natCast, ← zpow_add₀ (by norm_num)]; congr 1; ring

theorem rne_neg_zero (p : Nat) : rne p 0 = 0 := by simp [rne]

theorem rne_bounds {p : Nat} (hp : 1 ≤ p) {x : ℚ} (hx : 0 < x) :
    2 ^ expo x ≤ rne p x ∧ rne p x ≤ 2 ^ (expo x + 1) := by
  have hne : x ≠ 0 := ne_of_gt hx
  have hu := ulp_pos p x
  have h1 := expo_le hne
  have h2 := lt_expo x
  rw [abs_of_pos hx] at h1 h2
  unfold rne
  rw [if_neg hne]
  constructor
  · have e : (2 : ℚ) ^ expo x = ((2 ^ (p - 1) : ℤ) : ℚ) * ulp p x := by
      unfold ulp
      push_cast
      rw [← zpow_natCast, ← zpow_add₀ (by norm_num)]; congr 1
      omega
    rw [e]
    refine mul_le_mul_of_nonneg_right ?_ hu.le
    rw [e, ← le_div_iff₀ hu] at h1
    have := nearInt_mono h1
    rw [nearInt_int] at this
    exact_mod_cast this
  · have e : (2 : ℚ) ^ (expo x + 1) = ((2 ^ p : ℤ) : ℚ) * ulp p x := by
      rw [← ulp_mul p x]; push_cast; rfl
    rw [e]
    refine mul_le_mul_of_nonneg_right ?_ hu.le
    rw [e] at h2
    have h3 := (div_lt_iff₀ hu).2 h2
    have := nearInt_mono h3.le
    rw [nearInt_int] at this
    exact_mod_cast this

theorem expo_mono {x y : ℚ} (hx : 0 < x) (h : x ≤ y) : expo x ≤ expo y := by
  have h1 := expo_le (ne_of_gt hx)
  have h2 := lt_expo y
  rw [abs_of_pos hx] at h1
  rw [abs_of_pos (lt_of_lt_of_le hx h)] at h2
  have h3 : (2 : ℚ) ^ expo x < 2 ^ (expo y + 1) := lt_of_le_of_lt h1 (lt_of_le_of_lt h h2)
  have := (zpow_lt_zpow_iff_right₀ (by norm_num : (1 : ℚ) < 2)).1 h3
  omega

theorem rne_mono_pos {p : Nat} (hp : 1 ≤ p) {x y : ℚ} (hx : 0 < x) (h : x ≤ y) :
    rne p x ≤ rne p y := by
  have hy := lt_of_lt_of_le hx h
  rcases lt_or_eq_of_le (expo_mono hx h) with he | he
  · calc rne p x ≤ 2 ^ (expo x + 1) := (rne_bounds hp hx).2
      _ ≤ 2 ^ expo y := zpow_le_zpow_right₀ (by norm_num) (by omega)
      _ ≤ rne p y := (rne_bounds hp hy).1
  · unfold rne
    rw [if_neg (ne_of_gt hx), if_neg (ne_of_gt hy)]
    have hu : ulp p x = ulp p y := by unfold ulp; rw [he]
    rw [hu]
    refine mul_le_mul_of_nonneg_right ?_ (ulp_pos p y).le
    have := nearInt_mono (div_le_div_of_nonneg_right h (ulp_pos p y).le)
    exact_mod_cast this

theorem nearInt_neg (x : ℚ) : nearInt (-x) = -nearInt x := by
  by_cases hi : (⌊x⌋ : ℚ) = x
  · rw [← hi, ← Int.cast_neg, nearInt_int, nearInt_int]
  · have h1 := Int.floor_le x
    have h2 := Int.lt_floor_add_one x
    have h3 : (⌊x⌋ : ℚ) < x := lt_of_le_of_ne h1 hi
    have hf : ⌊-x⌋ = -⌊x⌋ - 1 := by
      rw [Int.floor_eq_iff]; push_cast; constructor <;> linarith
    unfold nearInt
    rw [hf]
    push_cast
    split_ifs <;> first | omega | (exfalso; linarith)

theorem rne_neg (p : Nat) (x : ℚ) : rne p (-x) = -rne p x := by
  unfold rne
  have hu : ulp p (-x) = ulp p x := by unfold ulp expo; rw [abs_neg]
  by_cases h : x = 0
  · simp [h]
  · rw [if_neg h, if_neg (neg_ne_zero.2 h), hu, neg_div, nearInt_neg]; push_cast; ring

theorem rne_nonneg {p : Nat} (hp : 1 ≤ p) {x : ℚ} (h : 0 ≤ x) : 0 ≤ rne p x := by
  rcases lt_or_eq_of_le h with h | h
  · exact le_trans (zpow_pos (by norm_num) _).le (rne_bounds hp h).1
  · rw [← h, rne_neg_zero]

theorem rne_mono {p : Nat} (hp : 1 ≤ p) (x y : ℚ) (h : x ≤ y) : rne p x ≤ rne p y := by
  rcases lt_or_ge 0 x with hx | hx
  · exact rne_mono_pos hp hx h
  · have h1 : rne p x ≤ 0 := by
      have := rne_nonneg hp (x := -x) (by linarith)
      rw [rne_neg] at this; linarith
    rcases lt_or_ge y 0 with hy | hy
    · have := rne_mono_pos hp (x := -y) (y := -x) (by linarith) (by linarith)
      rw [rne_neg, rne_neg] at this; linarith
    · exact le_trans h1 (rne_nonneg hp hy)

theorem rne_exact {p : Nat} (hp : 1 ≤ p) (m e : ℤ) (h : |m| ≤ 2 ^ p) :
    rne p (m * 2 ^ e) = m * 2 ^ e := by
  by_cases hm : m = 0
  · subst hm; simp [rne]
  have h2 : (2 : ℚ) ^ e ≠ 0 := zpow_ne_zero _ (by norm_num)
  have hx : (m : ℚ) * 2 ^ e ≠ 0 := mul_ne_zero (by exact_mod_cast hm) h2
  -- the spacing at `x` divides `x`
  have key : ∃ n : ℤ, (m : ℚ) * 2 ^ e = n * ulp p (m * 2 ^ e) := by
    have h1 := expo_le hx
    generalize hE : expo ((m : ℚ) * 2 ^ e) = E at h1
    have habs : |(m : ℚ) * 2 ^ e| = (|m| : ℤ) * 2 ^ e := by
      rw [abs_mul, abs_of_pos (zpow_pos (by norm_num : (0 : ℚ) < 2) e)]; push_cast; rfl
    rw [habs] at h1
    unfold ulp
    rw [hE]
    -- E ≤ e + p, with equality only for |m| = 2^p
    have hle : (2 : ℚ) ^ E ≤ 2 ^ (e + p) := by
      refine le_trans h1 ?_
      rw [zpow_add₀ (by norm_num), mul_comm, zpow_natCast]
      refine mul_le_mul_of_nonneg_left ?_ (zpow_pos (by norm_num) _).le
      exact_mod_cast h
    have hEp := (zpow_le_zpow_iff_right₀ (by norm_num : (1 : ℚ) < 2)).1 hle
    rcases lt_or_eq_of_le hEp with hlt | heq
    · refine ⟨m * 2 ^ (e - (E - p + 1)).toNat, ?_⟩
      push_cast
      rw [mul_assoc]
      congr 1
      rw [← zpow_natCast, ← zpow_add₀ (by norm_num)]; congr 1
      omega
    · -- |m| = 2^p
      have hmp : |m| = 2 ^ p := by
        refine le_antisymm h ?_
        rw [heq, zpow_add₀ (by norm_num), mul_comm, zpow_natCast] at h1
        have := le_of_mul_le_mul_right h1 (zpow_pos (by norm_num : (0 : ℚ) < 2) e)
        exact_mod_cast this
      rcases abs_eq (by positivity : (0 : ℤ) ≤ 2 ^ p) |>.1 hmp with hm' | hm'
      · refine ⟨2 ^ (p - 1), ?_⟩
        rw [hm']; push_cast
        rw [← zpow_natCast, ← zpow_natCast, ← zpow_add₀ (by norm_num), ← zpow_add₀ (by norm_num)]
        congr 1; omega
      · refine ⟨-2 ^ (p - 1), ?_⟩
        rw [hm']; push_cast
        rw [neg_mul, neg_mul, ← zpow_natCast, ← zpow_natCast, ← zpow_add₀ (by norm_num),
          ← zpow_add₀ (by norm_num)]
        congr 2; omega
  obtain ⟨n, hn⟩ := key
  have hu := ulp_pos p ((m : ℚ) * 2 ^ e)
  unfold rne
  rw [if_neg hx]
  have : (m : ℚ) * 2 ^ e / ulp p (m * 2 ^ e) = n := by
    rw [div_eq_iff (ne_of_gt hu)]; exact hn
  rw [this, nearInt_int]
  exact hn.symm

theorem nearInt_err (x : ℚ) : |(nearInt x : ℚ) - x| ≤ 1 / 2 := by
  have h1 := Int.floor_le x
  have h2 := Int.lt_floor_add_one x
  unfold nearInt
  rw [abs_le]
  split_ifs <;> push_cast <;> constructor <;> linarith

/-- Rounding to nearest has half the error of the other modes. -/
theorem rne_err {p : Nat} (x : ℚ) : |rne p x - x| ≤ |x| * 2 ^ (-(p : ℤ)) := by
  by_cases hx : x = 0
  · subst hx; simp [rne]
  have hu := ulp_pos p x
  unfold rne
  rw [if_neg hx]
  have h1 := nearInt_err (x / ulp p x)
  have h2 := mul_le_mul_of_nonneg_right h1 hu.le
  rw [← abs_of_pos hu, ← abs_mul, abs_of_pos hu, sub_mul, div_mul_cancel₀ _ (ne_of_gt hu)] at h2
  refine le_trans h2 ?_
  have h3 := expo_le hx
  have h4 : 1 / 2 * ulp p x = 2 ^ expo x * 2 ^ (-(p : ℤ)) := by
    unfold ulp
    rw [show expo x - (p : ℤ) + 1 = expo x + (-(p : ℤ)) + 1 by ring, zpow_add₀ (by norm_num),
      zpow_add₀ (by norm_num), zpow_one]
    ring
  rw [h4]
  exact mul_le_mul_of_nonneg_right h3 (zpow_pos (by norm_num) _).le

theorem expo_eq {x : ℚ} {e : ℤ} (h1 : (2 : ℚ) ^ e ≤ |x|) (h2 : |x| < 2 ^ (e + 1)) : expo x = e := by
  have hx : x ≠ 0 := by
    intro h
    rw [h, abs_zero] at h1
    exact absurd h1 (not_le.2 (zpow_pos (by norm_num) _))
  have h3 := expo_le hx
  have h4 := lt_expo x
  have h5 := (zpow_lt_zpow_iff_right₀ (by norm_num : (1 : ℚ) < 2)).1 (lt_of_le_of_lt h3 h2)
  have h6 := (zpow_lt_zpow_iff_right₀ (by norm_num : (1 : ℚ) < 2)).1 (lt_of_le_of_lt h1 h4)
  omega

theorem nearInt_eq {x : ℚ} {n : ℤ} (h : |x - n| < 1 / 2) : nearInt x = n := by
  have h1 := nearInt_err x
  rw [abs_lt] at h
  rw [abs_le] at h1
  have h2 : ((nearInt x - n : ℤ) : ℚ) < 1 := by push_cast; linarith
  have h3 : (-1 : ℚ) < ((nearInt x - n : ℤ) : ℚ) := by push_cast; linarith
  have h4 : nearInt x - n < 1 := by exact_mod_cast h2
  have h5 : -1 < nearInt x - n := by exact_mod_cast h3
  omega

/-- The rounded value, given the exponent and the nearest multiple of the spacing. -/
theorem rne_eq {p : Nat} {x : ℚ} {e n : ℤ} (h1 : (2 : ℚ) ^ e ≤ |x|) (h2 : |x| < 2 ^ (e + 1))
    (h3 : |x / 2 ^ (e - p + 1) - n| < 1 / 2) : rne p x = n * 2 ^ (e - p + 1) := by
  have hx : x ≠ 0 := by
    intro h
    rw [h, abs_zero] at h1
    exact absurd h1 (not_le.2 (zpow_pos (by norm_num) _))
  unfold rne ulp
  rw [if_neg hx, expo_eq h1 h2, nearInt_eq h3]

/-- The IEEE default rounding mode is a `Rounding`. -/
def nearestEven (p : Nat) (hp : 1 ≤ p) : Rounding p :=
  ⟨rne p, rne_mono hp, rne_exact hp⟩

end Bliss.Float
