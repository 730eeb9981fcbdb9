import Verif.Event.Isolated
import Verif.Event.MeansFloat

/-!
# C142: the distance of two hits in double and float arithmetic

The computed distance differs from the exact one by at most 1e-5 of it and 1e-3, for hits of the
frequencies, times and drift rates that occur.
-/

namespace Bliss.Event

open Bliss.Hit (Hit FOrd)
open Bliss.File (Event)
open Bliss.Float (rne)

/-- `x'` approximates the non-negative `x` to the relative accuracy `c`. -/
def Near (c x' x : ℚ) : Prop := |x' - x| ≤ c * x

theorem Near.mono {c d x' x : ℚ} (h : Near c x' x) (hx : 0 ≤ x) (hcd : c ≤ d) : Near d x' x :=
  h.trans (mul_le_mul_of_nonneg_right hcd hx)

theorem rne53_err (z : ℚ) : |rne 53 z - z| ≤ 1 / 9007199254740992 * |z| := by
  have := Float.rne_err (p := 53) z
  have e : (2 : ℚ) ^ (-((53 : ℕ) : ℤ)) = 1 / 9007199254740992 := by norm_num
  rw [e] at this
  rw [mul_comm]; exact this

theorem rne24_err (z : ℚ) : |rne 24 z - z| ≤ 1 / 16777216 * |z| := by
  have := Float.rne_err (p := 24) z
  have e : (2 : ℚ) ^ (-((24 : ℕ) : ℤ)) = 1 / 16777216 := by norm_num
  rw [e] at this
  rw [mul_comm]; exact this

/-- An absolute error after rounding. -/
theorem rne53_abs {x' x e B : ℚ} (h : |x' - x| ≤ e) (hB : |x| + e ≤ B) :
    |rne 53 x' - x| ≤ e + 1 / 9007199254740992 * B := by
  have h1 := rne53_err x'
  have h2 : |x'| ≤ |x' - x| + |x| := by
    have := abs_add_le (x' - x) x
    simpa using this
  have h3 := abs_sub_le (rne 53 x') x' x
  have h4 : 1 / 9007199254740992 * |x'| ≤ 1 / 9007199254740992 * B := by
    apply mul_le_mul_of_nonneg_left _ (by norm_num); linarith
  linarith

theorem Near.rnd {c u x' x : ℚ} {r : ℚ → ℚ} (h : Near c x' x) (hx : 0 ≤ x) (hc : c ≤ 1) (hu : 0 ≤ u)
    (hr : |r x' - x'| ≤ u * |x'|) : Near (c + 2 * u) (r x') x := by
  unfold Near at *
  have h2 : |x'| ≤ |x' - x| + |x| := by
    have := abs_add_le (x' - x) x
    simpa using this
  rw [abs_of_nonneg hx] at h2
  have h3 := abs_sub_le (r x') x' x
  have h4 : u * |x'| ≤ u * (2 * x) := by
    apply mul_le_mul_of_nonneg_left _ hu
    have : c * x ≤ 1 * x := mul_le_mul_of_nonneg_right hc hx
    linarith
  linarith

theorem Near.add {c x' x y' y : ℚ} (h1 : Near c x' x) (h2 : Near c y' y) :
    Near c (x' + y') (x + y) := by
  unfold Near at *
  have e : x' + y' - (x + y) = (x' - x) + (y' - y) := by ring
  rw [e]
  have := abs_add_le (x' - x) (y' - y)
  linarith

theorem Near.mul {c d x' x y' y : ℚ} (h1 : Near c x' x) (h2 : Near d y' y) (hx : 0 ≤ x) (hy : 0 ≤ y)
    (hc : 0 ≤ c) : Near (c + d + c * d) (x' * y') (x * y) := by
  unfold Near at *
  have e : x' * y' - x * y = (x' - x) * (y' - y) + (x' - x) * y + x * (y' - y) := by ring
  rw [e]
  have h3 := abs_add_le ((x' - x) * (y' - y) + (x' - x) * y) (x * (y' - y))
  have h4 := abs_add_le ((x' - x) * (y' - y)) ((x' - x) * y)
  rw [abs_mul, abs_mul, abs_of_nonneg hy] at h4
  rw [abs_mul x, abs_of_nonneg hx] at h3
  have h5 : |x' - x| * |y' - y| ≤ (c * x) * (d * y) :=
    mul_le_mul h1 h2 (abs_nonneg _) (mul_nonneg hc hx)
  have h6 : |x' - x| * y ≤ (c * x) * y := mul_le_mul_of_nonneg_right h1 hy
  have h7 : x * |y' - y| ≤ x * (d * y) := mul_le_mul_of_nonneg_left h2 hx
  calc _ ≤ (c * x) * (d * y) + (c * x) * y + x * (d * y) := by linarith
    _ = _ := by ring

theorem Near.div {c d x' x y' y : ℚ} (h1 : Near c x' x) (h2 : Near d y' y) (hx : 0 ≤ x) (hy : 0 < y)
    (hc : 0 ≤ c) (hd0 : 0 ≤ d) (hd : d ≤ 1 / 2) : Near (2 * (c + d)) (x' / y') (x / y) := by
  unfold Near at *
  have hy' : y / 2 ≤ y' := by
    have := (abs_le.1 h2).1
    have h3 : d * y ≤ 1 / 2 * y := mul_le_mul_of_nonneg_right hd hy.le
    linarith
  have hp : 0 < y' := by linarith
  have e : x' / y' - x / y = ((x' - x) * y - x * (y' - y)) / (y' * y) := by
    field_simp; ring
  rw [e, abs_div, abs_of_pos (mul_pos hp hy), div_le_iff₀ (mul_pos hp hy)]
  have h3 : |(x' - x) * y - x * (y' - y)| ≤ (c + d) * (x * y) := by
    have := abs_sub ((x' - x) * y) (x * (y' - y))
    have h4 : |(x' - x) * y - x * (y' - y)| ≤ |(x' - x) * y| + |x * (y' - y)| := by
      have := abs_add_le ((x' - x) * y) (-(x * (y' - y)))
      rwa [abs_neg, ← sub_eq_add_neg] at this
    rw [abs_mul, abs_mul, abs_of_nonneg hy.le, abs_of_nonneg hx] at h4
    have h5 : |x' - x| * y ≤ (c * x) * y := mul_le_mul_of_nonneg_right h1 hy.le
    have h6 : x * |y' - y| ≤ x * (d * y) := mul_le_mul_of_nonneg_left h2 hx
    linarith
  refine h3.trans ?_
  have h7 : 2 * (c + d) * (x / y) * (y' * y) = 2 * (c + d) * x * y' := by field_simp
  rw [h7]
  have h8 : (c + d) * x * (y / 2) ≤ (c + d) * x * y' :=
    mul_le_mul_of_nonneg_left hy' (mul_nonneg (add_nonneg hc hd0) hx)
  linarith

/-- Hits as they occur: below 100 GHz, within 317 years of the epoch, durations up to 11 days, drifts up
to 1 kHz/s. -/
structure InRange (h : Hit ℚ ℚ) : Prop where
  freq : |h.startFreqMHz| ≤ 100000
  start : |h.startTime| ≤ 10000000000
  dur : 0 ≤ h.duration ∧ h.duration ≤ 1000000
  drift : |h.driftRate| ≤ 1000

/-- The scaled difference of the drifts. -/
theorem drift_near (ra rb : ℚ) :
    Near (1 / 1000000) (rne 53 (rne 53 (|rne 53 (ra - rb)| /
        rne 53 (rne 53 (rne 24 (1 / 100000000) + rne 53 (ra * ra)) + rne 53 (rb * rb))) *
      rne 53 (|rne 53 (ra - rb)| /
        rne 53 (rne 53 (rne 24 (1 / 100000000) + rne 53 (ra * ra)) + rne 53 (rb * rb)))))
      ((|ra - rb| / (1 / 100000000 + ra ^ 2 + rb ^ 2)) ^ 2) := by
  have ha : 0 ≤ ra * ra := mul_self_nonneg _
  have hb : 0 ≤ rb * rb := mul_self_nonneg _
  have n1 : Near (1 / 10000000) |rne 53 (ra - rb)| |ra - rb| := by
    refine (abs_abs_sub_abs_le _ _).trans ((rne53_err _).trans ?_)
    exact mul_le_mul_of_nonneg_right (by norm_num) (abs_nonneg _)
  have sq : ∀ x : ℚ, 0 ≤ x → Near (1 / 16777216) (rne 53 x) x := by
    intro x hx
    have := rne53_err x
    rw [abs_of_nonneg hx] at this
    exact this.trans (mul_le_mul_of_nonneg_right (by norm_num) hx)
  have he : Near (1 / 16777216) (rne 24 (1 / 100000000)) (1 / 100000000) := by
    have := rne24_err (1 / 100000000)
    rw [abs_of_nonneg (show (0 : ℚ) ≤ 1 / 100000000 by norm_num)] at this
    exact this
  have d1 := (he.add (sq _ ha)).rnd (r := rne 53) (by positivity) (by norm_num) (by norm_num)
    (rne53_err _)
  have d2 : Near (1 / 16777216 + 2 * (1 / 9007199254740992)) (rne 53 (rb * rb)) (rb * rb) :=
    (sq _ hb).mono hb (by norm_num)
  have d3 := (d1.add d2).rnd (r := rne 53) (by positivity) (by norm_num) (by norm_num) (rne53_err _)
  have hden : (0 : ℚ) < 1 / 100000000 + ra * ra + rb * rb := by positivity
  have q1 := (n1.div d3 (abs_nonneg _) hden (by norm_num) (by norm_num) (by norm_num)).rnd
    (r := rne 53) (by positivity) (by norm_num) (by norm_num) (rne53_err _)
  have q2 := (q1.mul q1 (by positivity) (by positivity) (by norm_num)).rnd
    (r := rne 53) (by positivity) (by norm_num) (by norm_num) (rne53_err _)
  have e : (|ra - rb| / (1 / 100000000 + ra ^ 2 + rb ^ 2)) ^ 2 =
      |ra - rb| / (1 / 100000000 + ra * ra + rb * rb) *
        (|ra - rb| / (1 / 100000000 + ra * ra + rb * rb)) := by ring
  rw [e]
  exact q2.mono (by positivity) (by norm_num)

/-- The frequency difference half way between the scans. -/
theorem freq_near (a b : Hit ℚ ℚ) (ha : InRange a) (hb : InRange b)
    (hab : |a.startTime - b.startTime| ≤ 1000000) :
    let last := ieee.max (ieee.add a.startTime b.duration) (ieee.add b.startTime b.duration)
    let rend := ieee.div (ieee.add last (ieee.min a.startTime b.startTime)) ieee.two
    |ieee.sub (ieee.add (ieee.mul a.startFreqMHz ieee.million)
          (ieee.mul a.driftRate (ieee.sub rend a.startTime)))
        (ieee.add (ieee.mul b.startFreqMHz ieee.million)
          (ieee.mul b.driftRate (ieee.sub rend b.startTime))) -
      ((a.startFreqMHz * 1000000 - b.startFreqMHz * 1000000) +
        (a.driftRate * ((b.startTime - a.startTime + b.duration) / 2) -
          b.driftRate * ((a.startTime - b.startTime + b.duration) / 2)))| ≤ 1 / 100 := by
  obtain ⟨fa, sa, ⟨da0, da1⟩, ra⟩ := ha
  obtain ⟨fb, sb, ⟨db0, db1⟩, rb⟩ := hb
  generalize a.startTime = s at *
  generalize b.startTime = t at *
  generalize b.duration = L at *
  intro last rend
  have hs := abs_le.1 sa
  have ht := abs_le.1 sb
  have hst := abs_le.1 hab
  -- the end of the later scan
  have l1 : |ieee.add s L - (s + L)| ≤ 12 / 10000000 := by
    have h := rne53_err (s + L)
    have : |s + L| ≤ 10001000000 := by rw [abs_le]; constructor <;> linarith
    refine h.trans ?_
    linarith
  have l2 : |ieee.add t L - (t + L)| ≤ 12 / 10000000 := by
    have h := rne53_err (t + L)
    have : |t + L| ≤ 10001000000 := by rw [abs_le]; constructor <;> linarith
    refine h.trans ?_
    linarith
  have l1' := abs_le.1 l1
  have l2' := abs_le.1 l2
  have hsum : |(last + ieee.min s t) - (s + t + L)| ≤ 12 / 10000000 := by
    have e1 : last = if ieee.add s L < ieee.add t L then ieee.add t L else ieee.add s L := rfl
    have e2 : ieee.min s t = if t < s then t else s := rfl
    rw [e1, e2, abs_le]
    split <;> split <;> constructor <;> linarith
  have hadd : |ieee.add last (ieee.min s t) - (s + t + L)| ≤ 36 / 10000000 := by
    have h := rne53_abs (B := 20002000000) hsum (by
      have : |s + t + L| ≤ 20001000000 := by rw [abs_le]; constructor <;> linarith
      linarith)
    exact h.trans (by norm_num)
  have hrend : |rend - (s + t + L) / 2| ≤ 30 / 10000000 := by
    have h0 : |ieee.add last (ieee.min s t) / 2 - (s + t + L) / 2| ≤ 18 / 10000000 := by
      rw [← sub_div, abs_div, abs_of_pos (show (0 : ℚ) < 2 by norm_num)]
      linarith
    have h := rne53_abs (B := 10002000000) h0 (by
      have : |(s + t + L) / 2| ≤ 10001000000 := by rw [abs_le]; constructor <;> linarith
      linarith)
    exact h.trans (by norm_num)
  have hrend' := abs_le.1 hrend
  have hat : |ieee.sub rend s - (t - s + L) / 2| ≤ 31 / 10000000 := by
    have h0 : |rend - s - (t - s + L) / 2| ≤ 30 / 10000000 := by
      rw [abs_le]; constructor <;> linarith
    have h := rne53_abs (B := 2000000) h0 (by
      have : |(t - s + L) / 2| ≤ 1000000 := by rw [abs_le]; constructor <;> linarith
      linarith)
    exact h.trans (by norm_num)
  have hbt : |ieee.sub rend t - (s - t + L) / 2| ≤ 31 / 10000000 := by
    have h0 : |rend - t - (s - t + L) / 2| ≤ 30 / 10000000 := by
      rw [abs_le]; constructor <;> linarith
    have h := rne53_abs (B := 2000000) h0 (by
      have : |(s - t + L) / 2| ≤ 1000000 := by rw [abs_le]; constructor <;> linarith
      linarith)
    exact h.trans (by norm_num)
  clear_value rend
  -- one frequency
  have key : ∀ r x y f : ℚ, |r| ≤ 1000 → |f| ≤ 100000 → |x - y| ≤ 31 / 10000000 → |y| ≤ 1000000 →
      |ieee.add (ieee.mul f ieee.million) (ieee.mul r x) - (f * 1000000 + r * y)| ≤ 4 / 1000 := by
    intro r x y f hr hf hxy hy
    have m0 : |r * x - r * y| ≤ 31 / 10000 := by
      rw [← mul_sub, abs_mul]
      have := mul_le_mul hr hxy (abs_nonneg _) (by norm_num)
      linarith
    have my : |r * y| ≤ 1000000000 := by
      rw [abs_mul]
      have := mul_le_mul hr hy (abs_nonneg _) (by norm_num)
      linarith
    have m1 : |ieee.mul r x - r * y| ≤ 32 / 10000 := by
      have h := rne53_abs (B := 2000000000) m0 (by linarith)
      exact h.trans (by norm_num)
    have hf' : |f * 1000000| ≤ 100000000000 := by
      rw [abs_mul, abs_of_pos (show (0 : ℚ) < 1000000 by norm_num)]; linarith
    have m2 : |ieee.mul f ieee.million - f * 1000000| ≤ 12 / 1000000 := by
      have h := rne53_err (f * 1000000)
      refine h.trans ?_
      linarith
    have m1' := abs_le.1 m1
    have m2' := abs_le.1 m2
    have m3 : |(ieee.mul f ieee.million + ieee.mul r x) - (f * 1000000 + r * y)| ≤ 33 / 10000 := by
      rw [abs_le]; constructor <;> linarith
    have h := rne53_abs (B := 200000000000) m3 (by
      have := abs_add_le (f * 1000000) (r * y)
      linarith)
    exact h.trans (by norm_num)
  have ka := key a.driftRate _ _ a.startFreqMHz ra fa hat (by rw [abs_le]; constructor <;> linarith)
  have kb := key b.driftRate _ _ b.startFreqMHz rb fb hbt (by rw [abs_le]; constructor <;> linarith)
  generalize ieee.add (ieee.mul a.startFreqMHz ieee.million)
    (ieee.mul a.driftRate (ieee.sub rend s)) = A at *
  generalize ieee.add (ieee.mul b.startFreqMHz ieee.million)
    (ieee.mul b.driftRate (ieee.sub rend t)) = B at *
  have hX : |a.startFreqMHz * 1000000 + a.driftRate * ((t - s + L) / 2)| ≤ 101000000000 := by
    have h1 := abs_add_le (a.startFreqMHz * 1000000) (a.driftRate * ((t - s + L) / 2))
    rw [abs_mul, abs_mul, abs_of_pos (show (0 : ℚ) < 1000000 by norm_num)] at h1
    have h2 : |(t - s + L) / 2| ≤ 1000000 := by rw [abs_le]; constructor <;> linarith
    have := mul_le_mul ra h2 (abs_nonneg _) (by norm_num)
    linarith
  have hY : |b.startFreqMHz * 1000000 + b.driftRate * ((s - t + L) / 2)| ≤ 101000000000 := by
    have h1 := abs_add_le (b.startFreqMHz * 1000000) (b.driftRate * ((s - t + L) / 2))
    rw [abs_mul, abs_mul, abs_of_pos (show (0 : ℚ) < 1000000 by norm_num)] at h1
    have h2 : |(s - t + L) / 2| ≤ 1000000 := by rw [abs_le]; constructor <;> linarith
    have := mul_le_mul rb h2 (abs_nonneg _) (by norm_num)
    linarith
  have ka' := abs_le.1 ka
  have kb' := abs_le.1 kb
  have hX' := abs_le.1 hX
  have hY' := abs_le.1 hY
  have h0 : |A - B - ((a.startFreqMHz * 1000000 - b.startFreqMHz * 1000000) +
        (a.driftRate * ((t - s + L) / 2) - b.driftRate * ((s - t + L) / 2)))| ≤ 8 / 1000 := by
    rw [abs_le]; constructor <;> linarith
  have h := rne53_abs (B := 300000000000) h0 (by
    have : |(a.startFreqMHz * 1000000 - b.startFreqMHz * 1000000) +
        (a.driftRate * ((t - s + L) / 2) - b.driftRate * ((s - t + L) / 2))| ≤ 202000000000 := by
      rw [abs_le]; constructor <;> linarith
    linarith)
  exact h.trans (by norm_num)

theorem ieee_abs (x : ℚ) : ieee.abs x = |x| := ideal_abs x

/-- **C142 (part): rounding.** In double and float arithmetic the distance of two hits of the same
fortnight is the exact one up to a hundred-thousandth of it and 1/1000. -/
theorem C142_float_distance_partial (a b : Hit ℚ ℚ) (ha : InRange a) (hb : InRange b)
    (hab : |a.startTime - b.startTime| ≤ 1000000) :
    |distanceFunc ieee a b - distanceFunc ideal a b| ≤
      1 / 100000 * distanceFunc ideal a b + 1 / 1000 := by
  rw [ideal_distance a b]
  have hf := freq_near a b ha hb hab
  have hd := drift_near a.driftRate b.driftRate
  unfold distanceFunc
  simp only [ieee_abs]
  have hz : ∀ x : ℚ, ieee.toD (ieee.mulF ieee.wSnr (ieee.absF x)) = 0 := by
    intro x
    show rne 24 (0 * _) = 0
    rw [zero_mul]; exact Float.rne_neg_zero 24
  rw [hz]
  dsimp only at hf
  generalize ieee.sub (ieee.add (ieee.mul a.startFreqMHz ieee.million) _) _ = fd' at hf ⊢
  generalize (a.startFreqMHz * 1000000 - b.startFreqMHz * 1000000) +
        (a.driftRate * ((b.startTime - a.startTime + b.duration) / 2) -
          b.driftRate * ((a.startTime - b.startTime + b.duration) / 2)) = fd at hf ⊢
  change Near _ (ieee.mul _ _) _ at hd
  have hde : ieee.mul
      (ieee.div |ieee.sub a.driftRate b.driftRate|
        (ieee.add (ieee.add (ieee.toD ieee.eps) (ieee.mul a.driftRate a.driftRate))
          (ieee.mul b.driftRate b.driftRate)))
      (ieee.div |ieee.sub a.driftRate b.driftRate|
        (ieee.add (ieee.add (ieee.toD ieee.eps) (ieee.mul a.driftRate a.driftRate))
          (ieee.mul b.driftRate b.driftRate))) =
      ieee.mul (rne 53 (|rne 53 (a.driftRate - b.driftRate)| /
        rne 53 (rne 53 (rne 24 (1 / 100000000) + rne 53 (a.driftRate * a.driftRate)) +
          rne 53 (b.driftRate * b.driftRate))))
        (rne 53 (|rne 53 (a.driftRate - b.driftRate)| /
        rne 53 (rne 53 (rne 24 (1 / 100000000) + rne 53 (a.driftRate * a.driftRate)) +
          rne 53 (b.driftRate * b.driftRate)))) := rfl
  rw [hde]
  generalize ieee.mul (rne 53 _) _ = de' at hd ⊢
  have hde0 : (0 : ℚ) ≤ (|a.driftRate - b.driftRate| /
    (1 / 100000000 + a.driftRate ^ 2 + b.driftRate ^ 2)) ^ 2 := by positivity
  generalize (|a.driftRate - b.driftRate| /
    (1 / 100000000 + a.driftRate ^ 2 + b.driftRate ^ 2)) ^ 2 = de at hd hde0 ⊢
  -- numbers only from here on
  have hfd : |(|fd'| - |fd|)| ≤ 1 / 100 := (abs_abs_sub_abs_le _ _).trans hf
  have hx0 := abs_nonneg fd
  generalize |fd| = x at *
  generalize |fd'| = x' at *
  have hw : |rne 24 (1 / 100) - 1 / 100| ≤ 1 / 1000000000 := by
    have := rne24_err (1 / 100)
    refine this.trans ?_
    rw [abs_of_pos (by norm_num)]; norm_num
  have p1 : |ieee.mul (ieee.toD ieee.wFreq) x' - 1 / 100 * x| ≤ 2 / 1000000000 * x + 2 / 10000 := by
    show |rne 53 (rne 24 (1 / 100) * x') - 1 / 100 * x| ≤ _
    generalize rne 24 (1 / 100) = w at *
    have h1 : |w * x' - 1 / 100 * x| ≤ 1 / 1000000000 * x + 11 / 100000 := by
      have e : w * x' - 1 / 100 * x = w * (x' - x) + (w - 1 / 100) * x := by ring
      rw [e]
      have h2 := abs_add_le (w * (x' - x)) ((w - 1 / 100) * x)
      rw [abs_mul, abs_mul, abs_of_nonneg hx0] at h2
      have h3 : |w| ≤ 11 / 1000 := by
        have := abs_le.1 hw; rw [abs_le]; constructor <;> linarith
      have h4 := mul_le_mul h3 hfd (abs_nonneg _) (by norm_num)
      have h5 := mul_le_mul_of_nonneg_right hw hx0
      linarith
    have h2 := rne53_abs (B := 1 / 100 * x + (1 / 1000000000 * x + 11 / 100000)) h1 (by
      rw [abs_of_nonneg (by positivity)])
    refine h2.trans ?_
    linarith
  have p2 : |ieee.mul (ieee.toD ieee.wDrift) de' - 10 * de| ≤ 2 / 1000000 * (10 * de) := by
    have h1 : Near (1 / 1000000) (10 * de') (10 * de) := by
      unfold Near at *
      rw [← mul_sub, abs_mul, abs_of_pos (by norm_num : (0 : ℚ) < 10)]
      linarith
    exact (h1.rnd (r := rne 53) (by positivity) (by norm_num) (by norm_num) (rne53_err _)).mono
      (by positivity) (by norm_num)
  generalize ieee.mul (ieee.toD ieee.wFreq) x' = P1 at *
  generalize ieee.mul (ieee.toD ieee.wDrift) de' = P2 at *
  have hy0 : (0 : ℚ) ≤ 1 / 100 * x + 10 * de := by positivity
  have hs : |P1 + P2 - (1 / 100 * x + 10 * de)| ≤
      2 / 1000000 * (1 / 100 * x + 10 * de) + 2 / 10000 := by
    have := abs_add_le (P1 - 1 / 100 * x) (P2 - 10 * de)
    have e : P1 + P2 - (1 / 100 * x + 10 * de) = (P1 - 1 / 100 * x) + (P2 - 10 * de) := by ring
    rw [e]; linarith
  show |rne 24 (rne 53 (rne 53 (P1 + P2) + 0)) - _| ≤ _
  generalize 1 / 100 * x + 10 * de = y at *
  have e1 := rne53_err (P1 + P2)
  rw [add_zero]
  generalize P1 + P2 = s0 at *
  generalize rne 53 s0 = s1 at *
  have e2 := rne53_err s1
  generalize rne 53 s1 = s2 at *
  have e3 := rne24_err s2
  generalize rne 24 s2 = s3 at *
  have a0 : |s0| ≤ y + (2 / 1000000 * y + 2 / 10000) := by
    have := abs_add_le (s0 - y) y
    rw [sub_add_cancel, abs_of_nonneg hy0] at this; linarith
  have a1 : |s1| ≤ |s0| + |s1 - s0| := by
    have := abs_add_le (s1 - s0) s0
    rw [sub_add_cancel] at this; linarith
  have a2 : |s2| ≤ |s1| + |s2 - s1| := by
    have := abs_add_le (s2 - s1) s1
    rw [sub_add_cancel] at this; linarith
  have t : |s3 - y| ≤ |s3 - s2| + |s2 - s1| + |s1 - s0| + |s0 - y| := by
    have e : s3 - y = ((s3 - s2) + (s2 - s1) + (s1 - s0)) + (s0 - y) := by ring
    have i1 := abs_add_le ((s3 - s2) + (s2 - s1) + (s1 - s0)) (s0 - y)
    have i2 := abs_add_le ((s3 - s2) + (s2 - s1)) (s1 - s0)
    have i3 := abs_add_le (s3 - s2) (s2 - s1)
    rw [e]; linarith
  linarith

end Bliss.Event
