import Mathlib.Analysis.SpecialFunctions.Trigonometric.Sinc
import Mathlib.Analysis.Real.Pi.Bounds
import Mathlib.Tactic.Linarith
import Mathlib.Tactic.Positivity
import Mathlib.Tactic.NormNum
import Mathlib.Tactic.Ring
import Mathlib.Tactic.FieldSimp
import Verif.Base
import Verif.Float.Rounding

/-!
# The taps of the channelizer (C119)

Models `firdes` and what it calls (bliss/preprocess/passband_static_equalize.cpp lines 16-64) in
`float` and `double` arithmetic.
-/

namespace Bliss.Firdes

open Real

/-- `float` and `double` arithmetic and the functions of the C library. -/
structure Libm where
  /-- rounding of the result of a `float` operation or of a conversion to `float` -/
  fl : ℝ → ℝ
  /-- rounding of the result of a `double` operation -/
  db : ℝ → ℝ
  sinD : ℝ → ℝ
  cosD : ℝ → ℝ
  /-- `cos` of a `float`: the header decides whether the `float` or the `double` function is meant -/
  cosW : ℝ → ℝ
  /-- half an ulp, or half the smallest subnormal -/
  fl_err : ∀ x, |fl x - x| ≤ 1 / 2 ^ 24 * |x| + 1 / 2 ^ 149
  db_err : ∀ x, |db x - x| ≤ 1 / 2 ^ 53 * |x| + 1 / 2 ^ 149
  /-- halves of integers of up to 24 bits are exact -/
  exact : ∀ m : ℤ, |m| ≤ 2 ^ 24 → fl (m / 2) = m / 2
  sin_err : ∀ x, |sinD x - sin x| ≤ 1 / 2 ^ 52
  cos_err : ∀ x, |cosD x - cos x| ≤ 1 / 2 ^ 52
  cosW_err : ∀ x, |cosW x - cos x| ≤ 1 / 2 ^ 23

/-- `M_PI`, a `double`. -/
noncomputable def piD : ℝ := 884279719003555 / 281474976710656
/-- `constexpr float two_pi = 2 * M_PI` (passband_static_equalize.cpp line 18). -/
noncomputable def twoPi : ℝ := 13176795 / 2097152
/-- `constexpr float a_0 = 0.54` (line 19). -/
noncomputable def a0 : ℝ := 9059697 / 16777216
/-- `constexpr float a_1 = 0.46` (line 20). -/
noncomputable def a1 : ℝ := 15435039 / 33554432
/-- `0.01f` (line 32). -/
noncomputable def small : ℝ := 5368709 / 536870912

/-- A quotient; `none` stands for the NaN or infinity of a division by zero. -/
noncomputable def quot (fl : ℝ → ℝ) (x y : ℝ) : Option ℝ := if y = 0 then none else some (fl (x / y))

/-- An element of `hamming_window(N)` (passband_static_equalize.cpp lines 17, 24). -/
noncomputable def hammingAt (m : Libm) (N : Int) (n : Nat) : Option ℝ :=
  let nFloat := m.fl (((N - 1 : Int) : ℝ))
  (quot m.fl (m.fl (twoPi * m.fl (n : ℝ))) nFloat).map fun x =>
    m.fl (m.db (a0 - m.db (a1 * m.cosW x)))

/-- `hamming_window` (passband_static_equalize.cpp lines 16-28): `reserve` of a negative number, which
becomes a huge one, throws. -/
noncomputable def hammingWindow (m : Libm) (N : Int) : Outcome (List (Option ℝ)) :=
  if N < 0 then .throws .lengthError else .ok ((List.range N.toNat).map (hammingAt m N))

/-- `sinc` (passband_static_equalize.cpp lines 30-37). -/
noncomputable def sincF (m : Libm) (t : ℝ) : ℝ :=
  let x := m.db (piD * t)
  if |x| < small then
    m.fl (m.db (m.db (m.cosD (m.db (x / 2)) * m.cosD (m.db (x / 4))) * m.cosD (m.db (x / 8))))
  else m.fl (m.db (m.sinD x / x))

/-- An element of `sinc_lpf` (passband_static_equalize.cpp lines 44, 46-47). -/
noncomputable def sincAt (m : Libm) (fc : ℝ) (N : Int) (n : Nat) : ℝ :=
  let half := m.fl (m.fl ((N - 1 : Int) : ℝ) / 2)
  let t := m.fl (m.fl (n : ℝ) - half)
  sincF m (m.fl (fc * t))

/-- `sinc_lpf` (passband_static_equalize.cpp lines 39-50). -/
noncomputable def sincLpf (m : Libm) (fc : ℝ) (N : Int) : Outcome (List ℝ) :=
  if N < 0 then .throws .lengthError else .ok ((List.range N.toNat).map (sincAt m fc N))

/-- `firdes` (passband_static_equalize.cpp lines 52-64). The name of the window has no effect.
Simplified: the array of the result is a list; reading the vectors beyond their ends, which does not
happen, would be undefined. -/
noncomputable def firdes (m : Libm) (N : Int) (fc : ℝ) : Outcome (List (Option ℝ)) := do
  let h ← sincLpf m fc N
  let w ← hammingWindow m N
  (List.range N.toNat).mapM fun n => match h[n]?, w[n]? with
    | some x, some y => .ok (y.map fun y => m.fl (x * y))
    | _, _ => .ub

/-! ## Specification -/

/-- Distance of tap `n` of `N` from the centre. -/
noncomputable def pos (N n : Nat) : ℝ := n - ((N : ℝ) - 1) / 2

/-- Tap `n` of the windowed-sinc design with cutoff `fc`: an ideal low pass filter times a Hamming
window. -/
noncomputable def ideal (N : Nat) (fc : ℝ) (n : Nat) : ℝ :=
  sinc (π * (fc * pos N n)) * (0.54 - 0.46 * cos (2 * π * n / ((N : ℝ) - 1)))

/-! ## Sinc -/

theorem sinc_rel {x y δ : ℝ} (hδ0 : 0 ≤ δ) (hδ : δ ≤ 1 / 2) (h : |y - x| ≤ δ * |x|) :
    |sinc y - sinc x| ≤ 4 * δ := by
  by_cases hx : x = 0
  · subst hx
    have hy : y = 0 := by simpa using h
    subst hy
    rw [sub_self, abs_zero]
    linarith
  have hx' := abs_pos.mpr hx
  have hy' : |x| / 2 ≤ |y| := by
    have := abs_sub_abs_le_abs_sub x y
    rw [abs_sub_comm] at this
    nlinarith
  have hy : y ≠ 0 := abs_pos.mp (by linarith)
  rw [sinc_of_ne_zero hx, sinc_of_ne_zero hy,
    show sin y / y - sin x / x = (x * (sin y - sin x) + (x - y) * sin x) / (x * y) by
      field_simp; ring, abs_div, abs_mul x y, div_le_iff₀ (by positivity)]
  have e1 : |x * (sin y - sin x)| ≤ |x| * |y - x| := by
    rw [abs_mul]; exact mul_le_mul_of_nonneg_left (abs_sin_sub_sin_le _ _) (abs_nonneg _)
  have e2 : |(x - y) * sin x| ≤ |y - x| * |x| := by
    rw [abs_mul, abs_sub_comm]; exact mul_le_mul_of_nonneg_left abs_sin_le_abs (abs_nonneg _)
  have e3 := abs_add_le (x * (sin y - sin x)) ((x - y) * sin x)
  have e4 : |x| * |y - x| ≤ |x| * (δ * |x|) := mul_le_mul_of_nonneg_left h hx'.le
  have e5 : δ * (|x| * (|x| / 2)) ≤ δ * (|x| * |y|) :=
    mul_le_mul_of_nonneg_left (mul_le_mul_of_nonneg_left hy' hx'.le) hδ0
  nlinarith

theorem sinc_near_one (z : ℝ) : |1 - sinc z| ≤ z ^ 2 / 6 := by
  have key : ∀ z : ℝ, 0 < z → |1 - sinc z| ≤ z ^ 2 / 6 := by
    intro z hz
    have h1 := sin_gt_sub_cube hz
    have h2 := sin_lt hz
    rw [sinc_of_ne_zero hz.ne', abs_of_nonneg (by rw [sub_nonneg, div_le_one hz]; exact h2.le),
      sub_le_comm, le_div_iff₀ hz]
    nlinarith
  rcases lt_trichotomy z 0 with h | h | h
  · have := key (-z) (by linarith)
    rwa [sinc_neg, neg_sq] at this
  · subst h; simp
  · exact key z h

theorem cos_product (x : ℝ) : cos (x / 2) * cos (x / 4) * cos (x / 8) * sinc (x / 8) = sinc x := by
  by_cases hx : x = 0
  · subst hx; simp
  have h1 := sin_two_mul (x / 2)
  have h2 := sin_two_mul (x / 4)
  have h3 := sin_two_mul (x / 8)
  rw [show 2 * (x / 2) = x by ring] at h1
  rw [show 2 * (x / 4) = x / 2 by ring] at h2
  rw [show 2 * (x / 8) = x / 4 by ring] at h3
  rw [sinc_of_ne_zero hx, sinc_of_ne_zero (by simpa using hx), h1, h2, h3]
  field_simp
  ring

theorem cos_product_err (x : ℝ) :
    |cos (x / 2) * cos (x / 4) * cos (x / 8) - sinc x| ≤ x ^ 2 / 384 := by
  rw [← cos_product x, ← mul_one_sub, abs_mul]
  have h1 : |cos (x / 2) * cos (x / 4) * cos (x / 8)| ≤ 1 := by
    rw [abs_mul, abs_mul]
    exact mul_le_one₀ (mul_le_one₀ (abs_cos_le_one _) (abs_nonneg _) (abs_cos_le_one _))
      (abs_nonneg _) (abs_cos_le_one _)
  calc _ ≤ 1 * ((x / 8) ^ 2 / 6) := mul_le_mul h1 (sinc_near_one _) (abs_nonneg _) (by norm_num)
    _ = x ^ 2 / 384 := by ring

/-! ## Rounding errors -/

theorem near_fl (m : Libm) {x y e B : ℝ} (h : |y - x| ≤ e) (hB : |y| ≤ B) :
    |m.fl y - x| ≤ e + 1 / 2 ^ 24 * B + 1 / 2 ^ 149 := by
  have h1 := m.fl_err y
  have h2 := abs_sub_le (m.fl y) y x
  nlinarith

theorem near_db (m : Libm) {x y e B : ℝ} (h : |y - x| ≤ e) (hB : |y| ≤ B) :
    |m.db y - x| ≤ e + 1 / 2 ^ 53 * B + 1 / 2 ^ 149 := by
  have h1 := m.db_err y
  have h2 := abs_sub_le (m.db y) y x
  nlinarith

theorem near_abs {x y e B : ℝ} (h : |y - x| ≤ e) (hB : |x| ≤ B) : |y| ≤ B + e := by
  have := abs_sub_abs_le_abs_sub y x
  linarith

theorem near_mul {x y x' y' e e' B B' : ℝ} (h : |y - x| ≤ e) (h' : |y' - x'| ≤ e') (hB : |x| ≤ B)
    (hB' : |y'| ≤ B') : |y * y' - x * x'| ≤ e * B' + B * e' := by
  have e1 : y * y' - x * x' = (y - x) * y' + x * (y' - x') := by ring
  rw [e1]
  refine le_trans (abs_add_le _ _) ?_
  rw [abs_mul, abs_mul]
  exact add_le_add (mul_le_mul h hB' (abs_nonneg _) (le_trans (abs_nonneg _) h))
    (mul_le_mul hB h' (abs_nonneg _) (le_trans (abs_nonneg _) hB))

theorem cosD_err (m : Libm) (x k : ℝ) (hk : |x / k| ≤ 1) :
    |m.cosD (m.db (x / k)) - cos (x / k)| ≤ 1 / 2 ^ 50 := by
  have h1 := m.cos_err (m.db (x / k))
  have h2 := abs_cos_sub_cos_le (m.db (x / k)) (x / k)
  have h3 := m.db_err (x / k)
  have h4 := abs_sub_le (m.cosD (m.db (x / k))) (cos (m.db (x / k))) (cos (x / k))
  have h5 : (1 : ℝ) / 2 ^ 53 * |x / k| ≤ 1 / 2 ^ 53 * 1 :=
    mul_le_mul_of_nonneg_left hk (by positivity)
  refine le_trans h4 (le_trans (add_le_add h1 (le_trans h2 (le_trans h3 (add_le_add h5 le_rfl)))) ?_)
  norm_num

/-- The computed `sinc` is the sinc of the rounded argument up to 2^-20. -/
theorem sincF_err (m : Libm) (t : ℝ) : |sincF m t - sinc (m.db (piD * t))| ≤ 1 / 2 ^ 20 := by
  unfold sincF
  simp only
  generalize m.db (piD * t) = x
  split
  · rename_i hx
    have hx1 : |x| ≤ 1 / 100 := by
      refine hx.le.trans ?_
      unfold small
      norm_num
    have hk : ∀ k : ℝ, 1 ≤ k → |x / k| ≤ 1 := by
      intro k hk
      rw [abs_div, abs_of_pos (show 0 < k by linarith)]
      exact (div_le_self (abs_nonneg _) hk).trans (hx1.trans (by norm_num))
    have c2 := cosD_err m x 2 (hk 2 (by norm_num))
    have c4 := cosD_err m x 4 (hk 4 (by norm_num))
    have c8 := cosD_err m x 8 (hk 8 (by norm_num))
    have b4 := near_abs c4 (abs_cos_le_one _)
    have b8 := near_abs c8 (abs_cos_le_one _)
    have p1 := near_mul c2 c4 (abs_cos_le_one _) b4
    have q1 : |cos (x / 2) * cos (x / 4)| ≤ 1 := by
      rw [abs_mul]
      exact mul_le_one₀ (abs_cos_le_one _) (abs_nonneg _) (abs_cos_le_one _)
    have d1 := near_db m p1 (near_abs p1 q1)
    have p2 := near_mul d1 c8 q1 b8
    have q2 : |cos (x / 2) * cos (x / 4) * cos (x / 8)| ≤ 1 := by
      rw [abs_mul]
      exact mul_le_one₀ q1 (abs_nonneg _) (abs_cos_le_one _)
    have d2 := near_db m p2 (near_abs p2 q2)
    have d3 := near_fl m d2 (near_abs d2 q2)
    have e := cos_product_err x
    have hx2 : x ^ 2 ≤ (1 / 100) ^ 2 := by
      rw [← sq_abs]
      exact pow_le_pow_left₀ (abs_nonneg _) hx1 2
    refine le_trans (abs_sub_le _ _ _) (le_trans (add_le_add d3 (e.trans
      (div_le_div_of_nonneg_right hx2 (by norm_num)))) ?_)
    norm_num
  · rename_i hx
    have hx1 : (1 : ℝ) / 128 ≤ |x| := by
      refine le_trans ?_ (not_lt.mp hx)
      unfold small
      norm_num
    have hx0 : x ≠ 0 := abs_pos.mp (by linarith)
    have s1 : |m.sinD x / x - sinc x| ≤ 1 / 2 ^ 45 := by
      rw [sinc_of_ne_zero hx0, ← sub_div, abs_div, div_le_iff₀ (by linarith)]
      refine (m.sin_err x).trans (le_trans (b := 1 / 2 ^ 45 * (1 / 128)) (by norm_num) ?_)
      exact mul_le_mul_of_nonneg_left hx1 (by positivity)
    have d1 := near_db m s1 (near_abs s1 (abs_sinc_le_one x))
    have d2 := near_fl m d1 (near_abs d1 (abs_sinc_le_one x))
    refine d2.trans ?_
    norm_num

theorem fl_int (m : Libm) (k : ℤ) (h : |k| ≤ 2 ^ 23) : m.fl (k : ℝ) = k := by
  have := m.exact (2 * k) (by rw [abs_mul]; norm_num; omega)
  push_cast at this
  rwa [mul_div_cancel_left₀ _ (by norm_num)] at this

theorem piD_err : |piD - π| ≤ 1 / 2 ^ 50 := by
  have h1 := pi_gt_d20
  have h2 := pi_lt_d20
  rw [abs_le]
  unfold piD
  constructor <;> norm_num at h1 h2 ⊢ <;> linarith

theorem twoPi_err : |twoPi - 2 * π| ≤ 1 / 2 ^ 22 := by
  have h1 := pi_gt_d20
  have h2 := pi_lt_d20
  rw [abs_le]
  unfold twoPi
  constructor <;> norm_num at h1 h2 ⊢ <;> linarith

/-- Rounding the argument of the sinc. -/
theorem phase_err (m : Libm) (fc t : ℝ) (hfc : fc = 0 ∨ 1 / 2 ^ 100 ≤ |fc|)
    (ht : t = 0 ∨ 1 / 2 ≤ |t|) :
    |sinc (m.db (piD * m.fl (fc * t))) - sinc (π * (fc * t))| ≤ 1 / 2 ^ 19 := by
  by_cases hy : fc * t = 0
  · have h0 : m.fl 0 = 0 := by simpa using fl_int m 0 (by norm_num)
    rw [hy, h0, mul_zero, mul_zero, sinc_zero, abs_sub_comm]
    have h1 := m.db_err 0
    simp only [sub_zero, abs_zero, mul_zero, zero_add] at h1
    refine (sinc_near_one _).trans ?_
    have h2 : m.db 0 ^ 2 ≤ (1 / 2 ^ 149) ^ 2 := by
      rw [← sq_abs]
      exact pow_le_pow_left₀ (abs_nonneg _) h1 2
    refine le_trans (div_le_div_of_nonneg_right h2 (by norm_num)) ?_
    norm_num
  · have hf := hfc.resolve_left (left_ne_zero_of_mul hy)
    have ht' := ht.resolve_left (right_ne_zero_of_mul hy)
    have hlow : (1 : ℝ) / 2 ^ 101 ≤ |fc * t| := by
      rw [abs_mul]
      calc (1 : ℝ) / 2 ^ 101 = 1 / 2 ^ 100 * (1 / 2) := by norm_num
        _ ≤ |fc| * |t| := mul_le_mul hf ht' (by norm_num) (abs_nonneg _)
    generalize fc * t = y at hlow hy
    have hs : (1 : ℝ) / 2 ^ 149 ≤ 1 / 2 ^ 48 * |y| := by
      calc (1 : ℝ) / 2 ^ 149 = 1 / 2 ^ 48 * (1 / 2 ^ 101) := by norm_num
        _ ≤ _ := mul_le_mul_of_nonneg_left hlow (by positivity)
    have h1 : |m.fl y - y| ≤ (1 / 2 ^ 24 + 1 / 2 ^ 48) * |y| := by
      have := m.fl_err y
      rw [add_mul]
      linarith
    have h2 : |m.fl y| ≤ |y| + (1 / 2 ^ 24 + 1 / 2 ^ 48) * |y| := near_abs h1 le_rfl
    have hpi : |π| ≤ 4 := by rw [abs_of_pos pi_pos]; exact pi_le_four
    have h3 : |piD * m.fl y - π * y| ≤ _ := near_mul piD_err h1 hpi h2
    have hpy : |π * y| ≤ 4 * |y| := by
      rw [abs_mul]; exact mul_le_mul_of_nonneg_right hpi (abs_nonneg _)
    have h4 := near_db m h3 (near_abs h3 hpy)
    have h5 : (3 : ℝ) * |y| ≤ |π * y| := by
      rw [abs_mul, abs_of_pos pi_pos]
      exact mul_le_mul_of_nonneg_right pi_gt_three.le (abs_nonneg _)
    refine (sinc_rel (δ := 1 / 2 ^ 21) (by positivity) (by norm_num) (h4.trans ?_)).trans (by norm_num)
    have h6 := abs_nonneg y
    clear h1 h2 h3 h4 hpy hlow
    generalize |π * y| = q at h5 ⊢
    generalize |y| = z at h5 h6 hs ⊢
    norm_num at hs ⊢
    linarith

/-! ## Taps -/

theorem sincAt_err (m : Libm) (fc : ℝ) (N n : Nat) (hN : N ≤ 2 ^ 23) (hn : n < N)
    (hfc : fc = 0 ∨ 1 / 2 ^ 100 ≤ |fc|) :
    |sincAt m fc N n - sinc (π * (fc * pos N n))| ≤ 1 / 2 ^ 18 := by
  unfold sincAt
  simp only
  rw [fl_int m ((N : Int) - 1) (by rw [abs_le]; omega)]
  have hn1 : m.fl (n : ℝ) = n := by
    have := fl_int m (n : ℤ) (by rw [abs_le]; omega)
    simpa using this
  have hh : m.fl ((((N : Int) - 1 : Int) : ℝ) / 2) = (((N : Int) - 1 : Int) : ℝ) / 2 :=
    m.exact _ (by rw [abs_le]; omega)
  have ht : m.fl ((n : ℝ) - (((N : Int) - 1 : Int) : ℝ) / 2) = pos N n := by
    have := m.exact (2 * n - ((N : Int) - 1)) (by rw [abs_le]; omega)
    have e : (((2 * n - ((N : Int) - 1) : Int) : ℝ)) / 2 = pos N n := by
      unfold pos; push_cast; ring
    have e' : (n : ℝ) - (((N : Int) - 1 : Int) : ℝ) / 2 = pos N n := by
      unfold pos; push_cast; ring
    rw [e', ← e]
    exact this
  rw [hn1, hh, ht]
  have hp : pos N n = 0 ∨ 1 / 2 ≤ |pos N n| := by
    have e : (((2 * n - ((N : Int) - 1) : Int) : ℝ)) / 2 = pos N n := by
      unfold pos; push_cast; ring
    rw [← e]
    by_cases h0 : (2 * n - ((N : Int) - 1) : Int) = 0
    · left; rw [h0]; simp
    · right
      rw [abs_div, ← Int.cast_abs, abs_of_pos (show (0 : ℝ) < 2 by norm_num)]
      have : (1 : ℤ) ≤ |2 * (n : ℤ) - ((N : Int) - 1)| := Int.one_le_abs h0
      have : (1 : ℝ) ≤ ((|2 * (n : ℤ) - ((N : Int) - 1)| : ℤ) : ℝ) := by exact_mod_cast this
      linarith
  refine (abs_sub_le _ _ _).trans ((add_le_add (sincF_err m _) (phase_err m fc _ hfc hp)).trans ?_)
  norm_num

theorem hammingAt_err (m : Libm) (N n : Nat) (h2 : 2 ≤ N) (hN : N ≤ 2 ^ 23) (hn : n < N) :
    ∃ w, hammingAt m N n = some w ∧
      |w - (0.54 - 0.46 * cos (2 * π * n / ((N : ℝ) - 1)))| ≤ 1 / 2 ^ 18 := by
  have hd : (0 : ℝ) < (N : ℝ) - 1 := by
    have : (2 : ℝ) ≤ N := by exact_mod_cast h2
    linarith
  unfold hammingAt quot
  simp only
  rw [fl_int m ((N : Int) - 1) (by rw [abs_le]; omega)]
  have hc : ((((N : Int) - 1 : Int) : ℝ)) = (N : ℝ) - 1 := by push_cast; ring
  have hn1 : m.fl (n : ℝ) = n := by
    have := fl_int m (n : ℤ) (by rw [abs_le]; omega)
    simpa using this
  rw [hc, if_neg hd.ne', hn1]
  refine ⟨_, rfl, ?_⟩
  have hr0 : (0 : ℝ) ≤ n / ((N : ℝ) - 1) := by positivity
  have hr1 : (n : ℝ) / ((N : ℝ) - 1) ≤ 1 := by
    rw [div_le_one hd]
    have : (n : ℝ) + 1 ≤ N := by exact_mod_cast hn
    linarith
  have htp : (0 : ℝ) ≤ twoPi ∧ twoPi ≤ 7 := by unfold twoPi; constructor <;> norm_num
  have p1 : |m.fl (twoPi * n) / ((N : ℝ) - 1) - twoPi * (n / ((N : ℝ) - 1))| ≤ 8 / 2 ^ 24 := by
    have := m.fl_err (twoPi * n)
    rw [show m.fl (twoPi * n) / ((N : ℝ) - 1) - twoPi * (n / ((N : ℝ) - 1)) =
      (m.fl (twoPi * n) - twoPi * n) / ((N : ℝ) - 1) by ring, abs_div, abs_of_pos hd,
      div_le_iff₀ hd]
    rw [abs_of_nonneg (mul_nonneg htp.1 (Nat.cast_nonneg n))] at this
    have hn' : (n : ℝ) ≤ (N : ℝ) - 1 := by rwa [div_le_one hd] at hr1
    have h1' : (1 : ℝ) ≤ (N : ℝ) - 1 := by
      have : (2 : ℝ) ≤ N := by exact_mod_cast h2
      linarith
    have : twoPi * n ≤ 7 * ((N : ℝ) - 1) := mul_le_mul htp.2 hn' (Nat.cast_nonneg n) (by norm_num)
    norm_num at *
    linarith
  have q1 : |twoPi * (n / ((N : ℝ) - 1))| ≤ 7 := by
    rw [abs_of_nonneg (mul_nonneg htp.1 hr0)]
    nlinarith
  have p2 := near_fl m p1 (near_abs p1 q1)
  have p3 : |twoPi * (n / ((N : ℝ) - 1)) - 2 * π * n / ((N : ℝ) - 1)| ≤ 1 / 2 ^ 22 := by
    rw [show twoPi * (n / ((N : ℝ) - 1)) - 2 * π * n / ((N : ℝ) - 1) =
      (twoPi - 2 * π) * (n / ((N : ℝ) - 1)) by ring, abs_mul, abs_of_nonneg hr0]
    exact (mul_le_of_le_one_right (abs_nonneg _) hr1).trans twoPi_err
  have p4 := (abs_cos_sub_cos_le (m.fl (m.fl (twoPi * n) / ((N : ℝ) - 1)))
    (2 * π * n / ((N : ℝ) - 1))).trans ((abs_sub_le _ _ _).trans (add_le_add p2 p3))
  have p5 := (abs_sub_le _ _ _).trans (add_le_add
    (m.cosW_err (m.fl (m.fl (twoPi * n) / ((N : ℝ) - 1)))) p4)
  have hc1 := abs_cos_le_one (2 * π * n / ((N : ℝ) - 1))
  have ha1 : |a1 - 0.46| ≤ 1 / 2 ^ 25 := by
    rw [abs_le]; unfold a1; constructor <;> norm_num
  have ha0 : |a0 - 0.54| ≤ 1 / 2 ^ 25 := by
    rw [abs_le]; unfold a0; constructor <;> norm_num
  have p6 := near_mul ha1 p5 (B := 0.46) (by rw [abs_le]; constructor <;> norm_num) (near_abs p5 hc1)
  have q6 : |0.46 * cos (2 * π * n / ((N : ℝ) - 1))| ≤ 0.46 := by
    rw [abs_mul, abs_of_nonneg (by norm_num)]
    exact mul_le_of_le_one_right (by norm_num) hc1
  have p7 := near_db m p6 (near_abs p6 q6)
  have p8 := (abs_add_le (a0 - 0.54) (-(m.db (a1 * m.cosW (m.fl (m.fl (twoPi * n) / ((N : ℝ) - 1)))) -
    0.46 * cos (2 * π * n / ((N : ℝ) - 1))))).trans (add_le_add ha0 ((abs_neg _).le.trans p7))
  rw [← sub_eq_add_neg, sub_sub_sub_comm] at p8
  have q8 : |0.54 - 0.46 * cos (2 * π * n / ((N : ℝ) - 1))| ≤ 1 := by
    rw [abs_le] at hc1 ⊢
    constructor <;> norm_num <;> linarith
  have p9 := near_db m p8 (near_abs p8 q8)
  have p10 := near_fl m p9 (near_abs p9 q8)
  refine p10.trans ?_
  norm_num

theorem mapM_ok {α β : Type} {f : α → Outcome β} {g : α → β} (l : List α)
    (h : ∀ x ∈ l, f x = .ok (g x)) : l.mapM f = .ok (l.map g) := by
  induction l with
  | nil => rfl
  | cons a l ih =>
    rw [List.mapM_cons, h a (by simp), Outcome.bind_ok, ih fun x hx => h x (by simp [hx]),
      Outcome.bind_ok]
    rfl

/-- What `firdes` returns, tap by tap. -/
theorem firdes_eq (m : Libm) (N : Nat) (fc : ℝ) :
    firdes m N fc = .ok ((List.range N).map fun n =>
      (hammingAt m N n).map fun w => m.fl (sincAt m fc N n * w)) := by
  have hN : ¬ (N : Int) < 0 := by omega
  simp only [firdes, sincLpf, hammingWindow, hN, if_false, Outcome.bind_ok, Int.toNat_natCast]
  refine mapM_ok _ fun n hn => ?_
  have hn' : n < N := List.mem_range.mp hn
  simp [hn']

/-- **C119.** `firdes` returns as many taps as asked for, and in `float` arithmetic each is the tap of
the windowed-sinc design up to 2^-16. This holds for 2 to 2^23 taps and every cutoff that is 0 or not
smaller than 2^-100. -/
theorem C119_taps (m : Libm) (N : Nat) (fc : ℝ) (h2 : 2 ≤ N) (hN : N ≤ 2 ^ 23)
    (hfc : fc = 0 ∨ 1 / 2 ^ 100 ≤ |fc|) :
    ∃ h : List ℝ, firdes m N fc = .ok (h.map some) ∧ h.length = N ∧
      ∀ (n : Nat) (v : ℝ), h[n]? = some v → |v - ideal N fc n| ≤ 1 / 2 ^ 16 := by
  refine ⟨(List.range N).map fun n => m.fl (sincAt m fc N n * (hammingAt m N n).getD 0), ?_, by simp,
    fun n v hv => ?_⟩
  · rw [firdes_eq, List.map_map]
    congr 1
    refine List.map_congr_left fun n hn => ?_
    obtain ⟨w, hw, -⟩ := hammingAt_err m N n h2 hN (List.mem_range.mp hn)
    simp [hw]
  · rw [List.getElem?_map, Option.map_eq_some_iff] at hv
    obtain ⟨k, hk, rfl⟩ := hv
    obtain ⟨hn, rfl⟩ := List.getElem?_eq_some_iff.mp hk
    simp only [List.length_range] at hn
    simp only [List.getElem_range]
    obtain ⟨w, hw, he⟩ := hammingAt_err m N n h2 hN hn
    have hs := sincAt_err m fc N n hN hn hfc
    rw [hw, Option.getD_some]
    have hW : |0.54 - 0.46 * cos (2 * π * n / ((N : ℝ) - 1))| ≤ 1 := by
      have hc1 := abs_cos_le_one (2 * π * n / ((N : ℝ) - 1))
      rw [abs_le] at hc1 ⊢
      constructor <;> norm_num <;> linarith
    have p1 := near_mul hs he (abs_sinc_le_one _) (near_abs he hW)
    have q1 : |sinc (π * (fc * pos N n)) * (0.54 - 0.46 * cos (2 * π * n / ((N : ℝ) - 1)))| ≤ 1 := by
      rw [abs_mul]
      exact mul_le_one₀ (abs_sinc_le_one _) (abs_nonneg _) hW
    refine (near_fl m p1 (near_abs p1 q1)).trans ?_
    norm_num

/-- **C119 (shape of the design).** The design is symmetric about its centre, no tap exceeds 1, the
centre tap of an odd number is 1 and the taps are 0 at every multiple of the reciprocal of the cutoff
except the centre. -/
theorem C119_design (N : Nat) (fc : ℝ) (h2 : 2 ≤ N) :
    (∀ n < N, ideal N fc (N - 1 - n) = ideal N fc n) ∧
    (∀ n, |ideal N fc n| ≤ 1) ∧
    (∀ n, N = 2 * n + 1 → ideal N fc n = 1) ∧
    (∀ (n : Nat) (k : ℤ), k ≠ 0 → fc * pos N n = k → ideal N fc n = 0) := by
  have hd : ((N : ℝ) - 1) ≠ 0 := by
    have : (2 : ℝ) ≤ N := by exact_mod_cast h2
    linarith
  refine ⟨fun n hn => ?_, fun n => ?_, fun n hn => ?_, fun n k hk he => ?_⟩
  · have hc : ((N - 1 - n : Nat) : ℝ) = (N : ℝ) - 1 - n := by
      rw [Nat.sub_sub, Nat.cast_sub (by omega)]
      push_cast
      ring
    unfold ideal
    have e1 : pos N (N - 1 - n) = -pos N n := by
      unfold pos
      rw [hc]
      ring
    have e2 : 2 * π * ((N - 1 - n : Nat) : ℝ) / ((N : ℝ) - 1) =
        2 * π - 2 * π * n / ((N : ℝ) - 1) := by
      rw [hc]
      field_simp
    rw [e1, e2, mul_neg, mul_neg, sinc_neg, cos_two_pi_sub]
  · unfold ideal
    rw [abs_mul]
    refine mul_le_one₀ (abs_sinc_le_one _) (abs_nonneg _) ?_
    have hc1 := abs_cos_le_one (2 * π * n / ((N : ℝ) - 1))
    rw [abs_le] at hc1 ⊢
    constructor <;> norm_num <;> linarith
  · have hNn : (N : ℝ) = 2 * n + 1 := by exact_mod_cast hn
    have e1 : pos N n = 0 := by
      unfold pos
      rw [hNn]
      ring
    have e2 : 2 * π * n / ((N : ℝ) - 1) = π := by
      rw [hNn] at hd ⊢
      have : (n : ℝ) ≠ 0 := by
        intro h0
        rw [h0] at hd
        simp at hd
      field_simp
      ring
    unfold ideal
    rw [e1, e2, mul_zero, mul_zero, sinc_zero, cos_pi]
    norm_num
  · unfold ideal
    rw [he, sinc_of_ne_zero (mul_ne_zero pi_ne_zero (by exact_mod_cast hk)), mul_comm π,
      sin_int_mul_pi, zero_div, zero_mul]

/-- **C119 (symmetry).** The computed taps are symmetric up to 2^-15 and vanish up to 2^-16 at the
zeros of the design. -/
theorem C119_symmetric (m : Libm) (N : Nat) (fc : ℝ) (h2 : 2 ≤ N) (hN : N ≤ 2 ^ 23)
    (hfc : fc = 0 ∨ 1 / 2 ^ 100 ≤ |fc|) (h : List ℝ) (hrun : firdes m N fc = .ok (h.map some))
    (n : Nat) (v w : ℝ) (hv : h[n]? = some v) (hw : h[N - 1 - n]? = some w) :
    |v - w| ≤ 1 / 2 ^ 15 ∧
      (∀ k : ℤ, k ≠ 0 → fc * pos N n = k → |v| ≤ 1 / 2 ^ 16) ∧ |v| ≤ 1 + 1 / 2 ^ 16 := by
  obtain ⟨h', e1, e2, e3⟩ := C119_taps m N fc h2 hN hfc
  obtain ⟨d1, d2, _, d4⟩ := C119_design N fc h2
  rw [hrun] at e1
  obtain rfl : h = h' := List.map_injective_iff.mpr (Option.some_injective ℝ) (Outcome.ok.inj e1)
  have hn : n < N := by
    rw [← e2]
    exact (List.getElem?_eq_some_iff.mp hv).1
  have a := e3 n v hv
  have b := e3 _ w hw
  rw [d1 n hn] at b
  refine ⟨?_, fun k hk he => ?_, ?_⟩
  · have := abs_sub_le v (ideal N fc n) w
    rw [abs_sub_comm (ideal N fc n) w] at this
    refine this.trans ((add_le_add a b).trans ?_)
    norm_num
  · rwa [d4 n k hk he, sub_zero] at a
  · exact near_abs a (d2 n)

/-- **Violation of C119: one tap.** A filter of a single tap, which is 1 by design, is a NaN: the window
divides by the number of taps less one. -/
theorem C119_one_tap (m : Libm) (fc : ℝ) : firdes m 1 fc = .ok [none] := by
  have h := firdes_eq m 1 fc
  have h0 : m.fl 0 = 0 := by simpa using fl_int m 0 (by norm_num)
  simp only [Nat.cast_one] at h
  rw [h]
  simp [hammingAt, quot, h0]

/-- No taps are no taps; a negative number of taps throws. -/
theorem C119_no_taps (m : Libm) (fc : ℝ) :
    firdes m 0 fc = .ok [] ∧ ∀ N : Int, N < 0 → firdes m N fc = .throws .lengthError := by
  refine ⟨?_, fun N hN => ?_⟩
  · have h := firdes_eq m 0 fc
    simpa using h
  · simp only [firdes, sincLpf, hN, if_true]
    rfl

/-- Exact arithmetic is one that the theorems cover. -/
noncomputable def exactLibm : Libm where
  fl := id
  db := id
  sinD := sin
  cosD := cos
  cosW := cos
  fl_err := fun x => by simp only [id, sub_self, abs_zero]; positivity
  db_err := fun x => by simp only [id, sub_self, abs_zero]; positivity
  exact := fun _ _ => rfl
  sin_err := fun x => by simp
  cos_err := fun x => by simp
  cosW_err := fun x => by simp

-- the constants are the `float` nearest to those written in the program
example : Float.rne 24 (54 / 100) = 9059697 / 16777216 ∧
    Float.rne 24 (46 / 100) = 15435039 / 33554432 ∧
    Float.rne 24 (1 / 100) = 5368709 / 536870912 ∧
    Float.rne 24 (2 * 884279719003555 / 281474976710656) = 13176795 / 2097152 := by
  decide +kernel

-- the taps of the configuration for GBT that the program documents: 12 taps for each of 256 channels
example : ∃ h : List ℝ, firdes exactLibm (12 * 256 : Nat) (1 / 256) = .ok (h.map some) ∧
    h.length = 12 * 256 ∧ ∀ (n : Nat) (v : ℝ), h[n]? = some v →
      |v - ideal (12 * 256) (1 / 256) n| ≤ 1 / 2 ^ 16 :=
  C119_taps exactLibm (12 * 256) (1 / 256) (by norm_num) (by norm_num) (Or.inr (by
    rw [abs_of_pos (by norm_num)]; norm_num))

end Bliss.Firdes
