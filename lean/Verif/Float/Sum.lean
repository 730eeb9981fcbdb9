import Verif.Float.Rounding
import Mathlib.Algebra.BigOperators.Group.List.Basic
import Mathlib.Algebra.Order.BigOperators.Group.List

/-!
# Errors of rounded sums

For any function `rnd` whose relative error is at most `u`: a sum from left to right, a compensated
(Kahan) sum, and a sum along a tree.
-/

namespace Bliss.Float

variable {rnd : ℚ → ℚ} {u : ℚ}

/-- The relative error of `rnd` is at most `u`. -/
def RelErr (rnd : ℚ → ℚ) (u : ℚ) : Prop := ∀ z, |rnd z - z| ≤ u * |z|

theorem RelErr.zero (h : RelErr rnd u) : rnd 0 = 0 := by
  have := h 0
  simp only [sub_zero, abs_zero, mul_zero] at this
  exact abs_nonpos_iff.1 this

/-- Sum of absolute values. -/
def absSum (xs : List ℚ) : ℚ := (xs.map fun x => |x|).sum

theorem absSum_nonneg (xs : List ℚ) : 0 ≤ absSum xs :=
  List.sum_nonneg (by simp only [List.mem_map]; rintro _ ⟨x, _, rfl⟩; exact abs_nonneg x)

theorem abs_sum_le (xs : List ℚ) : |xs.sum| ≤ absSum xs := by
  induction xs with
  | nil => simp [absSum]
  | cons x xs ih =>
    have := abs_add_le x xs.sum
    simp only [absSum, List.map_cons, List.sum_cons] at *
    linarith

theorem absSum_append (xs ys : List ℚ) : absSum (xs ++ ys) = absSum xs + absSum ys := by
  simp [absSum]

/-! ## From left to right -/

/-- A rounded sum from left to right. -/
def plainSum (rnd : ℚ → ℚ) (xs : List ℚ) : ℚ := xs.foldl (fun s x => rnd (s + x)) 0

theorem plainSum_err (h : RelErr rnd u) (hu : 0 ≤ u) (xs : List ℚ)
    (hn : xs.length * u ≤ 1 / 2) :
    |plainSum rnd xs - xs.sum| ≤ 2 * xs.length * u * absSum xs := by
  induction xs using List.reverseRecOn with
  | nil => simp [plainSum]
  | append_singleton xs x ih =>
    have hl : ((xs ++ [x]).length : ℚ) = xs.length + 1 := by simp
    rw [hl] at hn ⊢
    have hn' : (xs.length : ℚ) * u ≤ 1 / 2 := by nlinarith
    have ih := ih hn'
    have e : plainSum rnd (xs ++ [x]) = rnd (plainSum rnd xs + x) := by
      simp [plainSum]
    rw [e, absSum_append, List.sum_append]
    simp only [List.sum_singleton, absSum, List.map_cons, List.map_nil]
    change |plainSum rnd xs - xs.sum| ≤ 2 * xs.length * u * absSum xs at ih
    change |rnd (plainSum rnd xs + x) - (xs.sum + x)| ≤ 2 * (xs.length + 1) * u * (absSum xs + |x|)
    have h1 := h (plainSum rnd xs + x)
    have h2 := abs_sum_le xs
    have h3 := absSum_nonneg xs
    have h4 := abs_nonneg x
    generalize plainSum rnd xs = s at *
    generalize xs.sum = T at *
    generalize absSum xs = A at *
    have hlen : (0 : ℚ) ≤ xs.length := by positivity
    generalize (xs.length : ℚ) = n at *
    have h5 : |s + x| ≤ A + |x| + 2 * n * u * A := by
      have : s + x = (s - T) + T + x := by ring
      rw [this]
      exact ((abs_add_le _ _).trans (add_le_add (abs_add_le _ _) le_rfl)).trans (by linarith)
    have h6 : |rnd (s + x) - (T + x)| ≤ |rnd (s + x) - (s + x)| + |s - T| := by
      have : rnd (s + x) - (T + x) = (rnd (s + x) - (s + x)) + (s - T) := by ring
      rw [this]
      exact abs_add_le _ _
    have hnu : 0 ≤ n * u := mul_nonneg hlen hu
    have h7 : u * |s + x| ≤ u * (A + |x| + 2 * n * u * A) := mul_le_mul_of_nonneg_left h5 hu
    have h8 : u * (2 * n * u * A) ≤ u * A := by
      have : (2 * (n * u)) * (u * A) ≤ 1 * (u * A) :=
        mul_le_mul_of_nonneg_right (by linarith) (mul_nonneg hu h3)
      nlinarith
    have h9 : 0 ≤ n * u * |x| := mul_nonneg hnu h4
    have h10 : 0 ≤ u * |x| := mul_nonneg hu h4
    nlinarith

/-! ## Kahan's compensated sum -/

/-- One step: compensation and sum. -/
def kahanStep (rnd : ℚ → ℚ) (p : ℚ × ℚ) (x : ℚ) : ℚ × ℚ :=
  (rnd (rnd (rnd (p.2 + rnd (x - p.1)) - p.2) - rnd (x - p.1)), rnd (p.2 + rnd (x - p.1)))

theorem kahanStep_err (h : RelErr rnd u) (hu : 0 ≤ u) (hu' : u ≤ 1 / 128) {c s x B : ℚ}
    (hB : 0 ≤ B) (hc : |c| ≤ 3 * u * B) (hs : |s| ≤ 2 * B) :
    |(kahanStep rnd (c, s) x).1| ≤ 3 * u * (B + |x|) ∧
    |((kahanStep rnd (c, s) x).2 - (kahanStep rnd (c, s) x).1) - (s - c) - x| ≤
      2 * u * |x| + 12 * u ^ 2 * (B + |x|) := by
  simp only [kahanStep]
  generalize hy : rnd (x - c) = y
  generalize ht : rnd (s + y) = t
  generalize hz : rnd (t - s) = z
  generalize hc' : rnd (z - y) = c'
  have h1 := h (x - c); rw [hy] at h1
  have h2 := h (s + y); rw [ht] at h2
  have h3 := h (t - s); rw [hz] at h3
  have h4 := h (z - y); rw [hc'] at h4
  have hX := abs_nonneg x
  have k1 : |x - c| ≤ |x| + 3 * u * B := (abs_sub x c).trans (by linarith)
  have k2 : |y| ≤ |x - c| + u * |x - c| := by
    have : y = (x - c) + (y - (x - c)) := by ring
    calc |y| = |(x - c) + (y - (x - c))| := by rw [← this]
      _ ≤ _ := (abs_add_le _ _).trans (by linarith)
  have k3 : |s + y| ≤ 2 * B + |y| := (abs_add_le _ _).trans (by linarith)
  have k4 : |t - s| ≤ u * |s + y| + |y| := by
    have : t - s = (t - (s + y)) + y := by ring
    rw [this]
    exact (abs_add_le _ _).trans (by linarith)
  have k5 : |z - y| ≤ u * |t - s| + u * |s + y| := by
    have : z - y = (z - (t - s)) + (t - (s + y)) := by ring
    rw [this]
    exact (abs_add_le _ _).trans (by linarith)
  have k6 : |c'| ≤ |z - y| + u * |z - y| := by
    have : c' = (z - y) + (c' - (z - y)) := by ring
    calc |c'| = |(z - y) + (c' - (z - y))| := by rw [← this]
      _ ≤ _ := (abs_add_le _ _).trans (by linarith)
  have k7 : |(t - c') - (s - c) - x| ≤ u * |x - c| + u * |t - s| + u * |z - y| := by
    have : (t - c') - (s - c) - x = (y - (x - c)) - (z - (t - s)) - (c' - (z - y)) := by ring
    rw [this]
    exact ((abs_sub _ _).trans (add_le_add (abs_sub _ _) le_rfl)).trans (by linarith)
  generalize |x - c| = q1 at *
  generalize |y| = q2 at *
  generalize |s + y| = q3 at *
  generalize |t - s| = q4 at *
  generalize |z - y| = q5 at *
  generalize |x| = X at *
  clear h1 h2 h3 h4 hy ht hz hc'
  -- everything is linear in `B`, `X`, with coefficients polynomial in `u`
  have uB : 0 ≤ u * B := mul_nonneg hu hB
  have uX : 0 ≤ u * X := mul_nonneg hu hX
  have uuB : u * (u * B) ≤ 1 / 128 * (u * B) := mul_le_mul_of_nonneg_right hu' uB
  have uuX : u * (u * X) ≤ 1 / 128 * (u * X) := mul_le_mul_of_nonneg_right hu' uX
  have uB' : u * B ≤ 1 / 128 * B := mul_le_mul_of_nonneg_right hu' hB
  have uX' : u * X ≤ 1 / 128 * X := mul_le_mul_of_nonneg_right hu' hX
  have uuB0 : 0 ≤ u * (u * B) := mul_nonneg hu uB
  have uuX0 : 0 ≤ u * (u * X) := mul_nonneg hu uX
  have m1 : u * q1 ≤ u * X + 3 * (u * (u * B)) := by
    have := mul_le_mul_of_nonneg_left k1 hu
    linarith
  have b2 : q2 ≤ X + u * X + (31 / 10) * (u * B) := by linarith
  have m2 : u * q2 ≤ u * X + u * (u * X) + (31 / 10) * (u * (u * B)) := by
    have := mul_le_mul_of_nonneg_left b2 hu
    linarith
  have b3 : q3 ≤ 2 * B + X + u * X + (31 / 10) * (u * B) := by linarith
  have m3 : u * q3 ≤ 2 * (u * B) + u * X + u * (u * X) + (31 / 10) * (u * (u * B)) := by
    have := mul_le_mul_of_nonneg_left b3 hu
    linarith
  have b4 : q4 ≤ X + 3 * (u * X) + 6 * (u * B) := by linarith
  have m4 : u * q4 ≤ u * X + 3 * (u * (u * X)) + 6 * (u * (u * B)) := by
    have := mul_le_mul_of_nonneg_left b4 hu
    linarith
  have b5 : q5 ≤ 2 * (u * B) + 2 * (u * X) + 4 * (u * (u * X)) + 10 * (u * (u * B)) := by linarith
  have b5' : q5 ≤ (21 / 10) * (u * B) + (21 / 10) * (u * X) := by linarith
  have m5 : u * q5 ≤ (21 / 10) * (u * (u * B)) + (21 / 10) * (u * (u * X)) := by
    have := mul_le_mul_of_nonneg_left b5' hu
    linarith
  constructor
  · linarith
  · refine k7.trans ?_
    have e : 12 * u ^ 2 * (B + X) = 12 * (u * (u * B)) + 12 * (u * (u * X)) := by ring
    rw [e]
    linarith

/-- The compensated sum of a list, from a compensation of 0. -/
def kahanSum (rnd : ℚ → ℚ) (xs : List ℚ) : ℚ × ℚ := xs.foldl (kahanStep rnd) (0, 0)

theorem kahanSum_inv (h : RelErr rnd u) (hu : 0 ≤ u) (hu' : u ≤ 1 / 128) (xs : List ℚ)
    (hn : xs.length * u ≤ 1 / 16) :
    |(kahanSum rnd xs).1| ≤ 3 * u * absSum xs ∧
    |(kahanSum rnd xs).2 - (kahanSum rnd xs).1 - xs.sum| ≤
      (2 * u + 12 * xs.length * u ^ 2) * absSum xs := by
  induction xs using List.reverseRecOn with
  | nil => simp [kahanSum, absSum]
  | append_singleton xs x ih =>
    have hl : ((xs ++ [x]).length : ℚ) = xs.length + 1 := by simp
    rw [hl] at hn ⊢
    have hlen : (0 : ℚ) ≤ xs.length := by positivity
    have hn' : (xs.length : ℚ) * u ≤ 1 / 16 := by nlinarith
    obtain ⟨i1, i2⟩ := ih hn'
    have e : kahanSum rnd (xs ++ [x]) = kahanStep rnd (kahanSum rnd xs) x := by
      simp [kahanSum]
    rw [e, absSum_append, List.sum_append]
    simp only [List.sum_singleton]
    have ex : absSum [x] = |x| := by simp [absSum]
    rw [ex]
    have hT := abs_sum_le xs
    have hA := absSum_nonneg xs
    have hX := abs_nonneg x
    generalize kahanSum rnd xs = p at *
    obtain ⟨c, s⟩ := p
    simp only at i1 i2
    generalize xs.sum = T at *
    generalize absSum xs = A at *
    generalize (xs.length : ℚ) = n at *
    have hsm : (2 * u + 12 * n * u ^ 2) * A ≤ (3 / 128) * A := by
      refine mul_le_mul_of_nonneg_right ?_ hA
      nlinarith
    have huA : u * A ≤ 1 / 128 * A := mul_le_mul_of_nonneg_right hu' hA
    have hs : |s| ≤ 2 * A := by
      have : s = (s - c - T) + c + T := by ring
      rw [this]
      exact ((abs_add_le _ _).trans (add_le_add (abs_add_le _ _) le_rfl)).trans (by linarith)
    obtain ⟨k1, k2⟩ := kahanStep_err (x := x) h hu hu' hA i1 hs
    refine ⟨k1, ?_⟩
    generalize kahanStep rnd (c, s) x = p at *
    have : p.2 - p.1 - (T + x) = (p.2 - p.1 - (s - c) - x) + (s - c - T) := by ring
    rw [this]
    refine (abs_add_le _ _).trans ?_
    have h1 : 0 ≤ n * u ^ 2 * |x| := by positivity
    have h2 : 0 ≤ u ^ 2 * |x| := by positivity
    have h3 : 0 ≤ u ^ 2 * A := by positivity
    have h4 : 0 ≤ n * u ^ 2 * A := by positivity
    nlinarith

/-- The error of a compensated sum does not grow with the number of terms. -/
theorem kahanSum_err (h : RelErr rnd u) (hu : 0 ≤ u) (hu' : u ≤ 1 / 128) (xs : List ℚ)
    (hn : xs.length * u ≤ 1 / 16) :
    |(kahanSum rnd xs).2 - xs.sum| ≤ 6 * u * absSum xs := by
  obtain ⟨h1, h2⟩ := kahanSum_inv h hu hu' xs hn
  have hA := absSum_nonneg xs
  have : (kahanSum rnd xs).2 - xs.sum =
      ((kahanSum rnd xs).2 - (kahanSum rnd xs).1 - xs.sum) + (kahanSum rnd xs).1 := by ring
  rw [this]
  refine (abs_add_le _ _).trans ?_
  have h3 : 12 * (xs.length : ℚ) * u ^ 2 * absSum xs ≤ u * absSum xs := by
    refine mul_le_mul_of_nonneg_right ?_ hA
    nlinarith
  linarith

end Bliss.Float
