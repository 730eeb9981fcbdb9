import Verif.Stat.Props
import Verif.Gpu.ReduceFloatLimits

/-!
# C88: accuracy of the CPU reductions in floating point

The data are `float`, rounded by `rf`; the accumulators of `mean` and `stddev` are `double`, rounded by
`rd`. `sum` accumulates in `float`.
-/

namespace Bliss.Float

/-- A tie goes to the even neighbour. -/
theorem rne_tie {p : Nat} {x : ℚ} {e n : ℤ} (h1 : (2 : ℚ) ^ e ≤ |x|) (h2 : |x| < 2 ^ (e + 1))
    (h3 : |x / 2 ^ (e - p + 1) - n| = 1 / 2) (h4 : n % 2 = 0) : rne p x = n * 2 ^ (e - p + 1) := by
  have hx : x ≠ 0 := by
    intro h
    rw [h, abs_zero] at h1
    exact absurd h1 (not_le.2 (zpow_pos (by norm_num) _))
  unfold rne ulp
  rw [if_neg hx, expo_eq h1 h2]
  congr 2
  generalize x / 2 ^ (e - (p : ℤ) + 1) = y at *
  rcases (abs_eq (by norm_num : (0 : ℚ) ≤ 1 / 2)).1 h3 with h | h
  · have hf : ⌊y⌋ = n := Int.floor_eq_iff.2 ⟨by linarith, by linarith⟩
    unfold nearInt
    rw [hf, if_neg (by linarith), if_neg (by linarith), if_pos h4]
  · have hf : ⌊y⌋ = n - 1 := Int.floor_eq_iff.2 ⟨by push_cast; linarith, by push_cast; linarith⟩
    unfold nearInt
    rw [hf, if_neg (by push_cast; linarith), if_neg (by push_cast; linarith),
      if_neg (by omega)]
    omega

variable {rnd : ℚ → ℚ} {v : ℚ}

/-- Division by a rounded count, with a relative error of the numerator that need not be tiny. -/
theorem quot_err (hr : RelErr rnd v) (hv : 0 ≤ v) (hv' : v ≤ 1 / 64) {n ε x T H : ℚ}
    (hn : 0 < n) (hε0 : 0 ≤ ε) (hε : ε ≤ 1) (hx : |x - T| ≤ ε * H) (hT : |T| ≤ H) :
    |rnd (x / rnd n) - T / n| ≤ (ε + 8 * v) * (H / n) := by
  have h1 := hr n
  rw [abs_of_pos hn] at h1
  have h2 := hr (x / rnd n)
  generalize rnd (x / rnd n) = z at *
  generalize rnd n = N at *
  rw [abs_le] at h1
  have hvn : v * n ≤ 1 / 64 * n := mul_le_mul_of_nonneg_right hv' hn.le
  have hN : 0 < N := by linarith
  have hH : 0 ≤ H := (abs_nonneg _).trans hT
  have hxH : |x| ≤ 2 * H := by
    have : x = (x - T) + T := by ring
    calc |x| = |(x - T) + T| := by rw [← this]
      _ ≤ |x - T| + |T| := abs_add_le _ _
      _ ≤ ε * H + H := by linarith
      _ ≤ _ := by have := mul_le_mul_of_nonneg_right hε hH; linarith
  have hNn : 63 / 64 * n ≤ N := by linarith
  have hxN : |x / N| ≤ 2 * (64 / 63) * (H / n) := by
    rw [abs_div, abs_of_pos hN, div_le_iff₀ hN]
    have e : 2 * H = 2 * (64 / 63) * (H / n) * (63 / 64 * n) := by field_simp
    refine hxH.trans ?_
    rw [e]
    refine mul_le_mul_of_nonneg_left hNn ?_
    positivity
  have hdiff : x / N - T / n = (x - T) / n + x / N * ((n - N) / n) := by
    field_simp
    ring
  have hrel : |(n - N) / n| ≤ v := by
    rw [abs_div, abs_of_pos hn, div_le_iff₀ hn, abs_le]
    constructor <;> linarith
  have h3 : |(x - T) / n| ≤ ε * (H / n) := by
    rw [abs_div, abs_of_pos hn, mul_div_assoc']
    exact div_le_div_of_nonneg_right hx hn.le
  have hq : 0 ≤ H / n := div_nonneg hH hn.le
  have h4 : |x / N * ((n - N) / n)| ≤ 2 * (64 / 63) * (H / n) * v := by
    rw [abs_mul]
    exact mul_le_mul hxN hrel (abs_nonneg _) (by positivity)
  have h5 : |z - x / N| ≤ v * (2 * (64 / 63) * (H / n)) :=
    h2.trans (mul_le_mul_of_nonneg_left hxN hv)
  have e : z - T / n = (z - x / N) + ((x - T) / n + x / N * ((n - N) / n)) := by
    rw [← hdiff]
    ring
  have hqv : 0 ≤ (H / n) * v := mul_nonneg hq hv
  calc |z - T / n| ≤ |z - x / N| + (|(x - T) / n| + |x / N * ((n - N) / n)|) := by
        rw [e]
        exact (abs_add_le _ _).trans (by linarith [abs_add_le ((x - T) / n) (x / N * ((n - N) / n))])
    _ ≤ _ := by nlinarith

/-- The error of `m2 - m * m`, computed from approximate moments. -/
theorem moments_err (hr : RelErr rnd v) (hv : 0 ≤ v) (hv' : v ≤ 1 / 64) {δ m m2 μ μ2 M1 M2 : ℚ}
    (hδ0 : 0 ≤ δ) (hδ : δ ≤ 1 / 4) (hm : |m - μ| ≤ δ * M1) (hm2 : |m2 - μ2| ≤ δ * M2)
    (hμ : |μ| ≤ M1) (hμ2 : |μ2| ≤ M2) (h12 : M1 * M1 ≤ M2) :
    |rnd (m2 - rnd (m * m)) - (μ2 - μ * μ)| ≤ (4 * δ + 8 * v) * M2 := by
  have hM1 : 0 ≤ M1 := (abs_nonneg _).trans hμ
  have hM2 : 0 ≤ M2 := (abs_nonneg _).trans hμ2
  have hMM : 0 ≤ M1 * M1 := mul_nonneg hM1 hM1
  have a1 : |m| ≤ 5 / 4 * M1 := by
    have : m = (m - μ) + μ := by ring
    have h := mul_le_mul_of_nonneg_right hδ hM1
    calc |m| = |(m - μ) + μ| := by rw [← this]
      _ ≤ |m - μ| + |μ| := abs_add_le _ _
      _ ≤ _ := by linarith
  have a2 : |m2| ≤ 5 / 4 * M2 := by
    have : m2 = (m2 - μ2) + μ2 := by ring
    have h := mul_le_mul_of_nonneg_right hδ hM2
    calc |m2| = |(m2 - μ2) + μ2| := by rw [← this]
      _ ≤ |m2 - μ2| + |μ2| := abs_add_le _ _
      _ ≤ _ := by linarith
  have a3 : |m * m - μ * μ| ≤ 9 / 4 * δ * M2 := by
    have e : m * m - μ * μ = (m - μ) * (m + μ) := by ring
    rw [e, abs_mul]
    have h : |m + μ| ≤ 9 / 4 * M1 := (abs_add_le _ _).trans (by linarith)
    have h' : |m - μ| * |m + μ| ≤ δ * M1 * (9 / 4 * M1) :=
      mul_le_mul hm h (abs_nonneg _) (mul_nonneg hδ0 hM1)
    have h'' := mul_le_mul_of_nonneg_left h12 hδ0
    linarith [h', h'']
  have a4 : |m * m| ≤ 25 / 16 * M2 := by
    rw [abs_mul]
    have := mul_le_mul a1 a1 (abs_nonneg _) (by positivity)
    linarith
  have b1 := hr (m * m)
  have b1' : |rnd (m * m) - m * m| ≤ v * (25 / 16 * M2) :=
    b1.trans (mul_le_mul_of_nonneg_left a4 hv)
  generalize rnd (m * m) = q at *
  have hvM : v * M2 ≤ 1 / 64 * M2 := mul_le_mul_of_nonneg_right hv' hM2
  have hvM0 : 0 ≤ v * M2 := mul_nonneg hv hM2
  have a5 : |q| ≤ 2 * M2 := by
    have : q = (q - m * m) + m * m := by ring
    calc |q| = |(q - m * m) + m * m| := by rw [← this]
      _ ≤ |q - m * m| + |m * m| := abs_add_le _ _
      _ ≤ _ := by linarith
  have b2 := hr (m2 - q)
  have a6 : |m2 - q| ≤ 13 / 4 * M2 := (abs_sub _ _).trans (by linarith)
  have b2' : |rnd (m2 - q) - (m2 - q)| ≤ v * (13 / 4 * M2) :=
    b2.trans (mul_le_mul_of_nonneg_left a6 hv)
  generalize rnd (m2 - q) = z at *
  have e : z - (μ2 - μ * μ) = (z - (m2 - q)) + ((m2 - μ2) - ((q - m * m) + (m * m - μ * μ))) := by
    ring
  rw [e]
  have c1 := abs_add_le (z - (m2 - q)) ((m2 - μ2) - ((q - m * m) + (m * m - μ * μ)))
  have c2 := abs_sub (m2 - μ2) ((q - m * m) + (m * m - μ * μ))
  have c3 := abs_add_le (q - m * m) (m * m - μ * μ)
  have hδM : 0 ≤ δ * M2 := mul_nonneg hδ0 hM2
  nlinarith

end Bliss.Float

namespace Bliss.Stat

open Bliss.Nd Bliss.Float

/-- `float` data rounded by `rf` with `double` accumulators rounded by `rd`. A `float` is a `double`,
so the conversion is exact. -/
def roundOps (rf rd sqrt : ℚ → ℚ) : StatOps ℚ ℚ where
  toD := id
  toV := rf
  zero := 0
  add := fun x y => rd (x + y)
  sub := fun x y => rd (x - y)
  mul := fun x y => rd (x * y)
  div := fun x y => rd (x / y)
  ofInt := fun n => rd n
  sqrt := sqrt
  clip := fun x => if x < 0 then 0 else x
  zeroV := 0
  addV := fun x y => rf (x + y)
  gtV := fun x y => decide (y < x)
  lowest := -(2 ^ 128)

theorem foldl_plainSum {α : Type} (rnd : ℚ → ℚ) (f : α → ℚ) (l : List α) (s : ℚ) :
    l.foldl (fun acc j => rnd (acc + f j)) s = (l.map f).foldl (fun s x => rnd (s + x)) s := by
  rw [List.foldl_map]

variable {rf rd : ℚ → ℚ} {u v : ℚ}

/-- A rounded sum of approximate terms. -/
theorem approx_sum {α : Type} (hr : RelErr rd v) (hv : 0 ≤ v) {η : ℚ} (hη : 0 ≤ η) (t w : α → ℚ)
    (ht : ∀ j, |t j - w j| ≤ η * |w j|) (l : List α) (hn : l.length * v ≤ 1 / 2) :
    |plainSum rd (l.map t) - (l.map w).sum| ≤
      (η + 2 * l.length * v * (1 + η)) * (l.map fun j => |w j|).sum := by
  have key : ∀ l : List α, |(l.map t).sum - (l.map w).sum| ≤ η * (l.map fun j => |w j|).sum ∧
      absSum (l.map t) ≤ (1 + η) * (l.map fun j => |w j|).sum := by
    intro l
    induction l with
    | nil => simp [absSum]
    | cons j l ih =>
      simp only [List.map_cons, List.sum_cons, absSum] at ih ⊢
      have h1 := ht j
      have h2 : |t j| ≤ |t j - w j| + |w j| := by
        have := abs_add_le (t j - w j) (w j)
        rwa [sub_add_cancel] at this
      refine ⟨?_, by linarith [ih.2]⟩
      have : ∀ a b : ℚ, t j + a - (w j + b) = (t j - w j) + (a - b) := by intros; ring
      rw [this]
      exact (abs_add_le _ _).trans (by linarith [ih.1])
  obtain ⟨k1, k2⟩ := key l
  have h := plainSum_err hr hv (l.map t) (by simpa using hn)
  rw [List.length_map] at h
  have e : plainSum rd (l.map t) - (l.map w).sum =
      (plainSum rd (l.map t) - (l.map t).sum) + ((l.map t).sum - (l.map w).sum) := by ring
  rw [e]
  have hc : 0 ≤ 2 * (l.length : ℚ) * v := by positivity
  have h' := h.trans (mul_le_mul_of_nonneg_left k2 hc)
  refine (abs_add_le _ _).trans ?_
  linarith

theorem sum_abs_map {α : Type} (X : α → ℚ) (l : List α) :
    absSum (l.map X) = (l.map fun j => |X j|).sum := by
  simp [absSum, List.map_map, Function.comp_def]

/-- **C88 (CPU sum).** The sum of `n` elements, accumulated in `float`, is off by at most `2nu` times
the sum of their absolute values.
Full property: an error that does not grow with `n`, as on the device; the code accumulates in the
type of the data without compensation (`C88_cpu_sum_saturates`). -/
theorem C88_cpu_sum_partial (sqrt : ℚ → ℚ) (hr : RelErr rf u) (hu : 0 ≤ u) (a : Arr)
    (axes : List Int) (junk : Int → ℚ) (h : Heap ℚ) (X : List Int → ℚ) (hax : GoodAxes a axes)
    (hwf : a.WF) (hX : h.Contains a X) (hb : a.blk < h.next) :
    ∃ R, Returns h (sum (roundOps rf rd sqrt) a axes junk h) (orUnit 1 (remaining axes a.shape)) R ∧
      ∀ i, ValidIdx (orUnit 1 (remaining axes a.shape)) i → ∀ l, Enumerates a.shape axes i l →
        l.length * u ≤ 1 / 2 →
        |R i - (l.map X).sum| ≤ 2 * l.length * u * (l.map fun j => |X j|).sum := by
  obtain ⟨h1, h2⟩ := C53_sum (roundOps rf rd sqrt) a axes junk h X hax hwf hX hb
  refine ⟨_, h1, fun i hi l hl hn => ?_⟩
  have hp := enumerates_perm (h2 i hi) hl
  have e := foldl_plainSum rf X (order a.shape axes i) 0
  have := plainSum_err hr hu ((order a.shape axes i).map X)
    (by rw [List.length_map, hp.length_eq]; exact hn)
  rw [List.length_map, hp.length_eq, sum_abs_map, (hp.map X).sum_eq, (hp.map _).sum_eq] at this
  show |(order a.shape axes i).foldl (fun acc j => rf (acc + X j)) 0 - _| ≤ _
  rw [e]
  exact this

/-- **C88 (CPU mean).** The mean of `n` elements, accumulated in `double`, is off by at most
`2u + 10nv` times the mean of their absolute values, where `u` and `v` are the errors of one
`float` and one `double` operation. -/
theorem C88_cpu_mean (sqrt : ℚ → ℚ) (hf : RelErr rf u) (hu : 0 ≤ u) (hr : RelErr rd v) (hv : 0 ≤ v)
    (a : Arr) (axes : List Int) (junk : Int → ℚ) (h : Heap ℚ) (X : List Int → ℚ)
    (hax : GoodAxes a axes) (hwf : a.WF) (hX : h.Contains a X) (hb : a.blk < h.next) :
    ∃ R, Returns h (mean (roundOps rf rd sqrt) a axes junk h) (orUnit 1 (remaining axes a.shape)) R ∧
      ∀ i, ValidIdx (orUnit 1 (remaining axes a.shape)) i → ∀ l, Enumerates a.shape axes i l →
        l ≠ [] → l.length * v ≤ 1 / 64 →
        |R i - (l.map X).sum / l.length| ≤
          (2 * u + 10 * l.length * v) * ((l.map fun j => |X j|).sum / l.length) := by
  obtain ⟨h1, h2⟩ := C53_mean (roundOps rf rd sqrt) a axes junk h X hax hwf hX hb
  refine ⟨_, h1, fun i hi l hl hne hn => ?_⟩
  have hp := enumerates_perm (h2 i hi) hl
  have hn1 : (1 : ℚ) ≤ l.length := by
    have := List.length_pos_of_ne_nil hne
    exact_mod_cast this
  have e := foldl_plainSum rd X (order a.shape axes i) 0
  have hs := plainSum_err hr hv ((order a.shape axes i).map X)
    (by rw [List.length_map, hp.length_eq]; linarith)
  rw [List.length_map, hp.length_eq, sum_abs_map, (hp.map X).sum_eq, (hp.map _).sum_eq] at hs
  show |rf (rd ((order a.shape axes i).foldl (fun acc j => rd (acc + X j)) 0 /
    rd (((order a.shape axes i).length : Int) : ℚ))) - _| ≤ _
  rw [e, hp.length_eq]
  change |plainSum rd ((order a.shape axes i).map X) - _| ≤ _ at hs
  change |rf (rd (plainSum rd ((order a.shape axes i).map X) / _)) - _| ≤ _
  generalize plainSum rd ((order a.shape axes i).map X) = S at *
  have hv1 : v ≤ 1 / 64 := by nlinarith
  have hT : |(l.map X).sum| ≤ (l.map fun j => |X j|).sum := by
    rw [← sum_abs_map]; exact abs_sum_le _
  have q := quot_err hr hv hv1 (n := (l.length : ℚ)) (ε := 2 * l.length * v) (by linarith)
    (by positivity) (by linarith) hs hT
  have r := hf (rd (S / rd (l.length : ℚ)))
  have ec : (((l.length : Int) : ℚ)) = (l.length : ℚ) := by norm_cast
  rw [ec]
  generalize rd (S / rd (l.length : ℚ)) = z at *
  have hM : |(l.map X).sum / l.length| ≤ (l.map fun j => |X j|).sum / l.length := by
    rw [abs_div, abs_of_pos (by linarith : (0 : ℚ) < l.length)]
    exact div_le_div_of_nonneg_right hT (by linarith)
  generalize (l.map X).sum / (l.length : ℚ) = μ at *
  generalize (l.map fun j => |X j|).sum / (l.length : ℚ) = M at *
  have hM0 : 0 ≤ M := (abs_nonneg _).trans hM
  have hz : |z| ≤ 2 * M := by
    have : z = (z - μ) + μ := by ring
    calc |z| = |(z - μ) + μ| := by rw [← this]
      _ ≤ |z - μ| + |μ| := abs_add_le _ _
      _ ≤ _ := by nlinarith
  have e2 : rf z - μ = (rf z - z) + (z - μ) := by ring
  rw [e2]
  refine (abs_add_le _ _).trans ?_
  have r' := r.trans (mul_le_mul_of_nonneg_left hz hu)
  have : v * M ≤ l.length * v * M := by
    have := mul_le_mul_of_nonneg_right hn1 (mul_nonneg hv hM0)
    linarith
  linarith

theorem sum_map_mul_right' {α : Type} (f : α → ℚ) (c : ℚ) (l : List α) :
    (l.map fun j => f j * c).sum = (l.map f).sum * c := by
  induction l with
  | nil => simp
  | cons j l ih => simp only [List.map_cons, List.sum_cons, ih]; ring

theorem dev_foldl_round (sqrt : ℚ → ℚ) (X : List Int → ℚ) (n : Int) (l : List (List Int))
    (p : ℚ × ℚ) :
    l.foldl (fun acc j => devStep (roundOps rf rd sqrt) n acc (X j)) p =
      ((l.map fun j => rd (X j * rd (rd ((1 : Int) : ℚ) / rd n))).foldl (fun s x => rd (s + x)) p.1,
       (l.map fun j => rd (rd (X j * X j) * rd (rd ((1 : Int) : ℚ) / rd n))).foldl
         (fun s x => rd (s + x)) p.2) := by
  induction l generalizing p with
  | nil => rfl
  | cons j l ih => simp only [List.foldl_cons, ih, List.map_cons]; rfl

/-- The moments accumulated by `stddev`. -/
theorem dev_moments (sqrt : ℚ → ℚ) (hr : RelErr rd v) (hv : 0 ≤ v) (X : List Int → ℚ)
    (l : List (List Int)) (hne : l ≠ []) (hn : l.length * v ≤ 1 / 64) :
    |(l.foldl (fun acc j => devStep (roundOps rf rd sqrt) l.length acc (X j)) (0, 0)).1 -
        (l.map X).sum / l.length| ≤
      (15 * l.length * v) * ((l.map fun j => |X j|).sum / l.length) ∧
    |(l.foldl (fun acc j => devStep (roundOps rf rd sqrt) l.length acc (X j)) (0, 0)).2 -
        (l.map fun j => X j * X j).sum / l.length| ≤
      (15 * l.length * v) * ((l.map fun j => X j * X j).sum / l.length) := by
  have hn1 : (1 : ℚ) ≤ l.length := by
    have := List.length_pos_of_ne_nil hne
    exact_mod_cast this
  have hv1 : v ≤ 1 / 64 := by nlinarith
  have ec : (((l.length : Int) : ℚ)) = (l.length : ℚ) := by norm_cast
  rw [dev_foldl_round, ec]
  -- the scale
  have hs : |rd (rd ((1 : Int) : ℚ) / rd (l.length : ℚ)) - 1 / l.length| ≤ 9 * v * (1 / l.length) := by
    have h1 := hr 1
    rw [abs_one, mul_one] at h1
    have := quot_err hr hv hv1 (n := (l.length : ℚ)) (ε := v) (x := rd 1) (T := 1) (H := 1)
      (by linarith) hv (by linarith) (by linarith) (by rw [abs_one])
    rw [Int.cast_one]
    refine this.trans (le_of_eq ?_)
    ring
  generalize rd (rd ((1 : Int) : ℚ) / rd (l.length : ℚ)) = s at *
  have hl0 : (0 : ℚ) < l.length := by linarith
  have hinv : (0 : ℚ) < 1 / l.length := by positivity
  -- one term: `y ≈ w` and then `rd (y * s) ≈ w / n`
  have term : ∀ y w : ℚ, |y - w| ≤ v * |w| → |rd (y * s) - w * (1 / l.length)| ≤
      (12 * v) * |w * (1 / l.length)| := by
    intro y w hy
    have h1 := hr (y * s)
    generalize rd (y * s) = z at *
    rw [abs_mul w, abs_of_pos hinv]
    generalize (1 : ℚ) / l.length = i at *
    have hw := abs_nonneg w
    have hyw : |y| ≤ (1 + v) * |w| := by
      have : y = (y - w) + w := by ring
      calc |y| = |(y - w) + w| := by rw [← this]
        _ ≤ |y - w| + |w| := abs_add_le _ _
        _ ≤ _ := by linarith
    have hsi : |s| ≤ (1 + 9 * v) * i := by
      have : s = (s - i) + i := by ring
      calc |s| = |(s - i) + i| := by rw [← this]
        _ ≤ |s - i| + |i| := abs_add_le _ _
        _ ≤ _ := by rw [abs_of_pos hinv]; linarith
    have hwi : 0 ≤ |w| * i := mul_nonneg hw hinv.le
    have e : y * s - w * i = (y - w) * i + y * (s - i) := by ring
    have h2 : |y * s - w * i| ≤ v * (|w| * i) + (1 + v) * (9 * v) * (|w| * i) := by
      rw [e]
      refine (abs_add_le _ _).trans ?_
      rw [abs_mul, abs_mul, abs_of_pos hinv]
      have a1 := mul_le_mul_of_nonneg_right hy hinv.le
      have a2 := mul_le_mul hyw hs (abs_nonneg _) (mul_nonneg (by linarith) hw)
      nlinarith
    have h3 : |y * s| ≤ (1 + v) * (1 + 9 * v) * (|w| * i) := by
      rw [abs_mul]
      have := mul_le_mul hyw hsi (abs_nonneg _) (mul_nonneg (by linarith) hw)
      nlinarith
    have h4 := h1.trans (mul_le_mul_of_nonneg_left h3 hv)
    have e2 : z - w * i = (z - y * s) + (y * s - w * i) := by ring
    rw [e2]
    refine (abs_add_le _ _).trans ?_
    have hvv : v * v ≤ 1 / 64 * v := mul_le_mul_of_nonneg_right hv1 hv
    have hvvv : v * v * v ≤ 1 / 64 * (1 / 64 * v) := by nlinarith
    have : v * ((1 + v) * (1 + 9 * v) * (|w| * i)) + (v * (|w| * i) + (1 + v) * (9 * v) * (|w| * i)) =
        (11 * v + 19 * (v * v) + 9 * (v * v * v)) * (|w| * i) := by ring
    have h5 : (11 * v + 19 * (v * v) + 9 * (v * v * v)) * (|w| * i) ≤ 12 * v * (|w| * i) :=
      mul_le_mul_of_nonneg_right (by linarith) hwi
    linarith
  have fin : ∀ w t : List Int → ℚ,
      (∀ j, |t j - w j * (1 / l.length)| ≤ 12 * v * |w j * (1 / l.length)|) →
      |(l.map t).foldl (fun s x => rd (s + x)) 0 - (l.map w).sum / l.length| ≤
        15 * l.length * v * ((l.map fun j => |w j|).sum / l.length) := by
    intro w t ht
    have h := approx_sum hr hv (by linarith : 0 ≤ 12 * v) t (fun j => w j * (1 / l.length)) ht l
      (by linarith)
    simp only [abs_mul, abs_of_pos hinv] at h
    rw [sum_map_mul_right', sum_map_mul_right', mul_one_div, mul_one_div] at h
    refine h.trans (mul_le_mul_of_nonneg_right ?_ ?_)
    · have : v ≤ l.length * v := by nlinarith
      nlinarith
    · refine div_nonneg (List.sum_nonneg ?_) hl0.le
      simp only [List.mem_map]
      rintro _ ⟨j, _, rfl⟩
      exact abs_nonneg _
  refine ⟨fin X _ fun j => term (X j) (X j) (by
    rw [sub_self, abs_zero]; exact mul_nonneg hv (abs_nonneg _)), ?_⟩
  have := fin (fun j => X j * X j) _ fun j => term (rd (X j * X j)) (X j * X j) (hr _)
  simp only [abs_mul_abs_self, abs_mul] at this
  exact this

theorem moments_pos (X : List Int → ℚ) (l : List (List Int)) (hne : l ≠ []) :
    |(l.map X).sum / l.length| ≤ (l.map fun j => |X j|).sum / l.length ∧
    |(l.map fun j => X j * X j).sum / l.length| ≤ (l.map fun j => X j * X j).sum / l.length ∧
    (l.map fun j => |X j|).sum / l.length * ((l.map fun j => |X j|).sum / l.length) ≤
      (l.map fun j => X j * X j).sum / l.length := by
  have hlen : (0 : ℚ) < l.length := by
    have := List.length_pos_of_ne_nil hne
    exact_mod_cast this
  refine ⟨?_, ?_, ?_⟩
  · rw [abs_div, abs_of_pos hlen]
    refine div_le_div_of_nonneg_right ?_ hlen.le
    rw [← sum_abs_map]
    exact abs_sum_le _
  · rw [abs_of_nonneg]
    refine div_nonneg (List.sum_nonneg ?_) hlen.le
    simp only [List.mem_map]
    rintro _ ⟨j, _, rfl⟩
    exact mul_self_nonneg _
  · have h1 := Gpu.popVar_eq (fun j => |X j|) l hne
    have h2 := Gpu.popVar_nonneg (fun j => |X j|) l
    simp only [abs_mul_abs_self] at h1
    linarith

theorem square_map (X : List Int → ℚ) (l : List (List Int)) :
    (l.map fun j => X j ^ 2) = l.map fun j => X j * X j := by
  refine List.map_congr_left fun j _ => ?_
  ring

/-- The variance of `stddev` from its accumulators. -/
theorem dev_var (sqrt : ℚ → ℚ) (hr : RelErr rd v) (hv : 0 ≤ v) (X : List Int → ℚ)
    (l : List (List Int)) (hne : l ≠ []) (hn : l.length * v ≤ 1 / 64) :
    ∃ w, devFinish (roundOps rf rd sqrt) (l.foldl
        (fun acc j => devStep (roundOps rf rd sqrt) l.length acc (X j)) (0, 0)) = rf (sqrt w) ∧ 0 ≤ w ∧
      |w - (l.map fun j => (X j - (l.map X).sum / l.length) ^ 2).sum / l.length| ≤
        70 * l.length * v * ((l.map fun j => X j ^ 2).sum / l.length) := by
  have hn1 : (1 : ℚ) ≤ l.length := by
    have := List.length_pos_of_ne_nil hne
    exact_mod_cast this
  obtain ⟨m1, m2⟩ := dev_moments (rf := rf) sqrt hr hv X l hne hn
  obtain ⟨p1, p2, p3⟩ := moments_pos X l hne
  have hpv := Gpu.popVar_eq X l hne
  have hpos := Gpu.popVar_nonneg X l
  unfold Gpu.popVar at hpv hpos
  have c := moments_err hr hv (by nlinarith) (by positivity) (by linarith) m1 m2 p1 p2 p3
  rw [hpv] at c
  generalize l.foldl (fun acc j => devStep (roundOps rf rd sqrt) l.length acc (X j)) (0, 0) = z at *
  rw [square_map X l]
  refine ⟨if rd (z.2 - rd (z.1 * z.1)) < 0 then 0 else rd (z.2 - rd (z.1 * z.1)), rfl, ?_⟩
  generalize rd (z.2 - rd (z.1 * z.1)) = w at *
  generalize (l.map fun j => (X j - (l.map X).sum / l.length) ^ 2).sum / (l.length : ℚ) = V at *
  have hM0 : 0 ≤ (l.map fun j => X j * X j).sum / (l.length : ℚ) := (abs_nonneg _).trans p2
  generalize (l.map fun j => X j * X j).sum / (l.length : ℚ) = S at *
  have hS : (4 * (15 * l.length * v) + 8 * v) * S ≤ 70 * l.length * v * S := by
    refine mul_le_mul_of_nonneg_right ?_ hM0
    nlinarith
  split
  · rename_i hw
    refine ⟨le_refl _, ?_⟩
    rw [abs_le] at c ⊢
    constructor
    · linarith [c.1]
    · linarith [c.2, mul_nonneg (by positivity : 0 ≤ 70 * (l.length : ℚ) * v) hM0]
  · rename_i hw
    exact ⟨not_lt.1 hw, c.trans hS⟩

/-- **C88 (CPU standard deviation).** The result is the rounded square root of a number `w` at or above
0 that differs from the population variance of the `n` elements by at most `70nv` times their mean
square, where `v` is the error of one `double` operation. -/
theorem C88_cpu_stddev (sqrt : ℚ → ℚ) (hr : RelErr rd v) (hv : 0 ≤ v) (a : Arr) (axes : List Int)
    (junk : Int → ℚ) (h : Heap ℚ) (X : List Int → ℚ) (hax : GoodAxes a axes) (hwf : a.WF)
    (hX : h.Contains a X) (hb : a.blk < h.next) :
    ∃ R, Returns h (stddev (roundOps rf rd sqrt) a axes junk h) (orUnit 1 (remaining axes a.shape))
        R ∧
      ∀ i, ValidIdx (orUnit 1 (remaining axes a.shape)) i → ∀ l, Enumerates a.shape axes i l →
        l ≠ [] → l.length * v ≤ 1 / 64 → ∃ w, R i = rf (sqrt w) ∧ 0 ≤ w ∧
        |w - (l.map fun j => (X j - (l.map X).sum / l.length) ^ 2).sum / l.length| ≤
          70 * l.length * v * ((l.map fun j => X j ^ 2).sum / l.length) := by
  obtain ⟨h1, h2⟩ := C53_stddev (roundOps rf rd sqrt) a axes junk h X hax hwf hX hb
  refine ⟨_, h1, fun i hi l hl hne hn => ?_⟩
  have hp := enumerates_perm (h2 i hi) hl
  have hne' : order a.shape axes i ≠ [] := by
    intro e
    rw [e] at hp
    exact hne (List.nil_perm.1 hp)
  obtain ⟨w, w1, w2, w3⟩ := dev_var (rf := rf) sqrt hr hv X (order a.shape axes i) hne'
    (by rw [hp.length_eq]; exact hn)
  refine ⟨w, w1, w2, ?_⟩
  rw [(hp.map _).sum_eq, (hp.map X).sum_eq, hp.length_eq, (hp.map fun j => X j ^ 2).sum_eq] at w3
  exact w3

/-! ## With a mask -/

theorem mdev_foldl_round (sqrt : ℚ → ℚ) (X : List Int → ℚ) (l : List (List Int))
    (p : ℚ × ℚ × Int) :
    l.foldl (fun acc j => mdevStep (roundOps rf rd sqrt) acc (X j)) p =
      ((l.map X).foldl (fun s x => rd (s + x)) p.1,
       (l.map fun j => rd (X j * X j)).foldl (fun s x => rd (s + x)) p.2.1, p.2.2 + l.length) := by
  induction l generalizing p with
  | nil => simp
  | cons j l ih =>
    simp only [List.foldl_cons, ih, List.map_cons, List.length_cons, Prod.mk.injEq]
    refine ⟨rfl, rfl, ?_⟩
    simp only [mdevStep]
    push_cast
    ring

/-- **C88 (CPU masked mean and standard deviation).** The same bounds over the unmasked elements, with
the restriction of C54 on the layout of the mask; but the number under the square root can be below 0
(`C88_masked_stddev_negative`).
Full property: the number under the root is at or above 0. -/
theorem C88_cpu_masked_partial (sqrt : ℚ → ℚ) (hf : RelErr rf u) (hu : 0 ≤ u) (hr : RelErr rd v)
    (hv : 0 ≤ v) (a mask : Arr) (hm : Heap UInt8) (axes : List Int) (junk1 junk2 : Int → ℚ)
    (h : Heap ℚ) (X : List Int → ℚ) (M : List Int → UInt8) (hax : GoodAxes a axes) (hwf : a.WF)
    (hX : h.Contains a X) (hM : hm.Contains mask M) (hshape : a.shape = mask.shape)
    (hlay : ∀ j, ValidIdx a.shape j → addr mask.dims j = addr a.dims j) (hb : a.blk < h.next)
    (hsome : ∀ i, ValidIdx (orUnit 1 (remaining axes a.shape)) i →
      ∃ j, ValidIdx a.shape j ∧ orUnit 0 (remaining axes j) = i ∧ M j = 0) :
    ∃ R S, Returns2 h (maskedMeanStddev (roundOps rf rd sqrt) a mask hm axes junk1 junk2 h)
        (orUnit 1 (remaining axes a.shape)) R S ∧
      ∀ i, ValidIdx (orUnit 1 (remaining axes a.shape)) i →
        ∀ l : List (List Int), l.Nodup →
        (∀ j, j ∈ l ↔ ValidIdx a.shape j ∧ orUnit 0 (remaining axes j) = i ∧ M j = 0) →
        l.length * v ≤ 1 / 64 →
        |R i - (l.map X).sum / l.length| ≤
          (2 * u + 10 * l.length * v) * ((l.map fun j => |X j|).sum / l.length) ∧
        ∃ w, S i = rf (sqrt w) ∧
          |w - (l.map fun j => (X j - (l.map X).sum / l.length) ^ 2).sum / l.length| ≤
            70 * l.length * v * ((l.map fun j => X j ^ 2).sum / l.length) := by
  have h1 := C54_masked_mean_stddev_partial (roundOps rf rd sqrt) a mask hm axes junk1 junk2 h X M hax
    hwf hX hM hshape hlay hb hsome
  refine ⟨_, _, h1, fun i hi l hl1 hl2 hn => ?_⟩
  obtain ⟨n1, n2⟩ := unmasked_mem hax hi M
  have hp : (unmasked a.shape axes M i).Perm l := by
    rw [List.perm_ext_iff_of_nodup n1 hl1]
    intro j
    rw [n2, hl2]
  have hne : l ≠ [] := by
    obtain ⟨j, hj⟩ := hsome i hi
    exact List.ne_nil_of_mem ((hl2 j).2 hj)
  have hn1 : (1 : ℚ) ≤ l.length := by
    have := List.length_pos_of_ne_nil hne
    exact_mod_cast this
  have hl0 : (0 : ℚ) < l.length := by linarith
  have hv1 : v ≤ 1 / 64 := by nlinarith
  -- the two sums
  have hs1 := plainSum_err hr hv ((unmasked a.shape axes M i).map X)
    (by rw [List.length_map, hp.length_eq]; linarith)
  rw [List.length_map, hp.length_eq, sum_abs_map, (hp.map X).sum_eq, (hp.map _).sum_eq] at hs1
  have hs2 := approx_sum hr hv hv (fun j => rd (X j * X j)) (fun j => X j * X j) (fun j => hr _)
    (unmasked a.shape axes M i) (by rw [hp.length_eq]; linarith)
  simp only [abs_mul, abs_mul_abs_self] at hs2
  rw [hp.length_eq, (hp.map fun j => X j * X j).sum_eq] at hs2
  simp only [mdevFinish, mdev_foldl_round]
  change |rf (rd (plainSum rd ((unmasked a.shape axes M i).map X) /
      rd (((unmasked a.shape axes M i).length : Int) : ℚ))) - _| ≤ _ ∧
    ∃ w, rf (sqrt (rd (rd (plainSum rd ((unmasked a.shape axes M i).map fun j => rd (X j * X j)) /
        rd ((0 + ((unmasked a.shape axes M i).length : Int) : Int) : ℚ)) -
      rd (rd (plainSum rd ((unmasked a.shape axes M i).map X) /
        rd ((0 + ((unmasked a.shape axes M i).length : Int) : Int) : ℚ)) *
      rd (plainSum rd ((unmasked a.shape axes M i).map X) /
        rd ((0 + ((unmasked a.shape axes M i).length : Int) : Int) : ℚ)))))) = rf (sqrt w) ∧ _
  rw [hp.length_eq, zero_add]
  generalize plainSum rd ((unmasked a.shape axes M i).map X) = S1 at *
  generalize plainSum rd ((unmasked a.shape axes M i).map fun j => rd (X j * X j)) = S2 at *
  obtain ⟨p1, p2, p3⟩ := moments_pos X l hne
  have hpv := Gpu.popVar_eq X l hne
  unfold Gpu.popVar at hpv
  have hT : |(l.map X).sum| ≤ (l.map fun j => |X j|).sum := by
    rw [← sum_abs_map]; exact abs_sum_le _
  have q1 := quot_err hr hv hv1 (n := (l.length : ℚ)) (ε := 2 * l.length * v) (by linarith)
    (by positivity) (by linarith) hs1 hT
  have hT2 : |(l.map fun j => X j * X j).sum| ≤ (l.map fun j => X j * X j).sum := by
    rw [abs_of_nonneg]
    refine List.sum_nonneg ?_
    simp only [List.mem_map]
    rintro _ ⟨j, _, rfl⟩
    exact mul_self_nonneg _
  have q2 := quot_err hr hv hv1 (n := (l.length : ℚ)) (by linarith) (by positivity) (by nlinarith)
    hs2 hT2
  have ec : (((l.length : Int) : ℚ)) = (l.length : ℚ) := by norm_cast
  rw [ec]
  have r := hf (rd (S1 / rd (l.length : ℚ)))
  generalize rd (S1 / rd (l.length : ℚ)) = z at *
  generalize rd (S2 / rd (l.length : ℚ)) = z2 at *
  have hvn : v ≤ l.length * v := by nlinarith
  rw [square_map X l]
  constructor
  · generalize (l.map X).sum / (l.length : ℚ) = μ at *
    generalize (l.map fun j => |X j|).sum / (l.length : ℚ) = M' at *
    have hM0 : 0 ≤ M' := (abs_nonneg _).trans p1
    have hz : |z| ≤ 2 * M' := by
      have : z = (z - μ) + μ := by ring
      calc |z| = |(z - μ) + μ| := by rw [← this]
        _ ≤ |z - μ| + |μ| := abs_add_le _ _
        _ ≤ _ := by nlinarith
    have e2 : rf z - μ = (rf z - z) + (z - μ) := by ring
    rw [e2]
    refine (abs_add_le _ _).trans ?_
    have r' := r.trans (mul_le_mul_of_nonneg_left hz hu)
    have : v * M' ≤ l.length * v * M' := mul_le_mul_of_nonneg_right hvn hM0
    linarith
  · have hM1 : 0 ≤ (l.map fun j => |X j|).sum / (l.length : ℚ) := (abs_nonneg _).trans p1
    have hM2 : 0 ≤ (l.map fun j => X j * X j).sum / (l.length : ℚ) := (abs_nonneg _).trans p2
    have c := moments_err hr hv hv1 (δ := 15 * l.length * v) (by positivity) (by linarith)
      (q1.trans (mul_le_mul_of_nonneg_right (by linarith) hM1))
      (q2.trans (mul_le_mul_of_nonneg_right (by nlinarith) hM2)) p1 p2 p3
    rw [hpv] at c
    refine ⟨_, rfl, c.trans (mul_le_mul_of_nonneg_right ?_ hM2)⟩
    linarith

/-! ## Limits -/

theorem ones_sum (n : Nat) : plainSum (rne 24) (List.replicate n 1) = min (n : ℚ) 16777216 := by
  induction n with
  | zero => simp [plainSum]
  | succ n ih =>
    have e : plainSum (rne 24) (List.replicate (n + 1) 1) =
        rne 24 (plainSum (rne 24) (List.replicate n 1) + 1) := by
      simp only [plainSum, List.replicate_succ', List.foldl_append, List.foldl_cons, List.foldl_nil]
    rw [e, ih]
    by_cases hn : n < 16777216
    · have h1 : (n : ℚ) ≤ 16777216 := by exact_mod_cast hn.le
      have h2 : ((n + 1 : Nat) : ℚ) ≤ 16777216 := by exact_mod_cast hn
      rw [min_eq_left h1, min_eq_left h2]
      have := Gpu.rne24_int ((n : ℤ) + 1) (by rw [abs_of_nonneg (by omega)]; norm_num; omega)
      push_cast at this ⊢
      exact this
    · have h1 : (16777216 : ℚ) ≤ n := by exact_mod_cast not_lt.1 hn
      have h2 : (16777216 : ℚ) ≤ ((n + 1 : Nat) : ℚ) := by push_cast; linarith
      rw [min_eq_right h1, min_eq_right h2]
      have := rne_tie (p := 24) (x := 16777216 + 1) (e := 24) (n := 8388608) (by norm_num)
        (by norm_num) (by norm_num) (by norm_num)
      rw [this]
      norm_num

/-- **C88 limit: the CPU sum saturates.** In IEEE single precision the sum of any number `n ≥ 2^24` of
ones is `2^24`, however large `n` is. -/
theorem C88_cpu_sum_saturates (sqrt : ℚ → ℚ) (a : Arr) (axes : List Int) (junk : Int → ℚ)
    (h : Heap ℚ) (hax : GoodAxes a axes) (hwf : a.WF) (hX : h.Contains a fun _ => 1)
    (hb : a.blk < h.next) :
    ∃ R, Returns h (sum (roundOps (rne 24) rd sqrt) a axes junk h) (orUnit 1 (remaining axes a.shape))
        R ∧
      ∀ i, ValidIdx (orUnit 1 (remaining axes a.shape)) i → ∀ l, Enumerates a.shape axes i l →
        2 ^ 24 ≤ l.length → R i = 2 ^ 24 := by
  obtain ⟨h1, h2⟩ := C53_sum (roundOps (rne 24) rd sqrt) a axes junk h _ hax hwf hX hb
  refine ⟨_, h1, fun i hi l hl hn => ?_⟩
  have hp := enumerates_perm (h2 i hi) hl
  have e := foldl_plainSum (rne 24) (fun _ => (1 : ℚ)) (order a.shape axes i) 0
  show (order a.shape axes i).foldl (fun acc j => rne 24 (acc + 1)) 0 = _
  rw [e]
  have := ones_sum l.length
  unfold plainSum at this
  rw [List.map_const', hp.length_eq, this, min_eq_right (by exact_mod_cast hn)]
  norm_num

theorem rne53_int (m : ℤ) (h : |m| ≤ 2 ^ 53) : rne 53 m = m :=
  (nearestEven 53 (by norm_num)).int m h

/-- Equal integers add up exactly while the sum is at most `2^53`. -/
theorem rep_sum (c : ℤ) (n : Nat) (hc : 0 ≤ c) (h : n * c ≤ 2 ^ 53) :
    (List.replicate n (c : ℚ)).foldl (fun s x => rne 53 (s + x)) 0 = n * c := by
  induction n with
  | zero => simp
  | succ n ih =>
    have h0 : (n : ℤ) * c ≤ 2 ^ 53 := by push_cast at h; nlinarith
    rw [List.replicate_succ', List.foldl_append, ih h0]
    simp only [List.foldl_cons, List.foldl_nil]
    have := rne53_int ((n + 1 : ℕ) * c) (by rw [abs_of_nonneg (by positivity)]; exact h)
    push_cast at this ⊢
    rw [show (n : ℚ) * c + c = (n + 1) * c by ring]
    exact this

/-- **C88 violated: the masked standard deviation of equal values is not a number.** For 33 unmasked
elements, all equal to 16777215, the number under the square root is -1/32 in IEEE arithmetic, not 0:
the result is the square root of a negative number. -/
theorem C88_masked_stddev_negative (sqrt : ℚ → ℚ) (a mask : Arr) (hm : Heap UInt8)
    (junk1 junk2 : Int → ℚ) (h : Heap ℚ) (M : List Int → UInt8) (hwf : a.WF) (hs : a.shape = [33])
    (hX : h.Contains a fun _ => 16777215) (hM : hm.Contains mask M) (hshape : a.shape = mask.shape)
    (hlay : ∀ j, ValidIdx a.shape j → addr mask.dims j = addr a.dims j) (hb : a.blk < h.next)
    (hz : ∀ j, M j = 0) :
    ∃ R S, Returns2 h (maskedMeanStddev (roundOps (rne 24) (rne 53) sqrt) a mask hm [0] junk1 junk2 h)
        [1] R S ∧ R [0] = 16777215 ∧ S [0] = rne 24 (sqrt (-(1 / 32))) := by
  have hd : a.dims.length = 1 := by rw [← shape_length, hs]; rfl
  have hax : GoodAxes a [0] := ⟨by simp, by simp [hd]⟩
  have hrem : orUnit 1 (remaining [0] a.shape) = [1] := by rw [hs]; decide
  have h1 := C54_masked_mean_stddev_partial (roundOps (rne 24) (rne 53) sqrt) a mask hm [0] junk1
    junk2 h _ M hax hwf hX hM hshape hlay hb (fun i hi => by
      rw [hrem] at hi
      refine ⟨[0], by rw [hs]; exact .cons ⟨by decide, by decide⟩ .nil, ?_, hz _⟩
      cases hi with
      | @cons _ x _ _ v1 v2 =>
        cases v2
        have : x = 0 := by omega
        subst this
        decide)
  rw [hrem] at h1
  refine ⟨_, _, h1, ?_⟩
  have hl : (unmasked a.shape [0] M [0]).length = 33 := by
    unfold unmasked
    rw [List.filter_eq_self.2 (fun j _ => by simp [hz j]), order_length]
    rw [hs]
    decide
  simp only [mdevFinish, mdev_foldl_round, List.map_const', hl]
  have z : rne 53 0 = 0 := by simpa using rne53_int 0 (by norm_num)
  have e33 : rne 53 33 = 33 := by simpa using rne53_int 33 (by norm_num)
  have ex : rne 53 16777215 = 16777215 := by simpa using rne53_int 16777215 (by norm_num)
  have ef : rne 24 16777215 = 16777215 := by simpa using Gpu.rne24_int 16777215 (by norm_num)
  have esq : rne 53 (16777215 * 16777215) = 281474943156225 := by
    have := rne53_int 281474943156225 (by norm_num)
    norm_num at this ⊢
    exact this
  have s1 : (List.replicate 33 (16777215 : ℚ)).foldl (fun s x => rne 53 (s + x)) 0 = 553648095 := by
    have := rep_sum 16777215 33 (by norm_num) (by norm_num)
    norm_num at this ⊢
    exact this
  have s2 : (List.replicate 33 (281474943156225 : ℚ)).foldl (fun s x => rne 53 (s + x)) 0 =
      9288673124155424 := by
    have := rep_sum 281474943156225 32 (by norm_num) (by norm_num)
    rw [List.replicate_succ', List.foldl_append]
    have c : ((281474943156225 : ℤ) : ℚ) = 281474943156225 := by norm_num
    rw [c] at this
    rw [this]
    have t := rne_tie (p := 53) (x := ((32 : Nat) : ℚ) * 281474943156225 + 281474943156225) (e := 53)
      (n := 4644336562077712) (by norm_num) (by norm_num) (by norm_num) (by norm_num)
    simp only [List.foldl_cons, List.foldl_nil]
    rw [t]
    norm_num
  have q1 : rne 53 (553648095 / 33) = 16777215 := by
    rw [show (553648095 : ℚ) / 33 = 16777215 by norm_num, ex]
  have q2 : rne 53 (9288673124155424 / 33) = 9007198180999199 / 32 := by
    have t := rne_eq (p := 53) (x := 9288673124155424 / 33) (e := 47) (n := 9007198180999199)
      (by norm_num [abs_of_pos]) (by norm_num [abs_of_pos]) (by norm_num [abs_lt])
    rw [t]
    norm_num
  have q3 : rne 53 (9007198180999199 / 32 - 281474943156225) = -(1 / 32) := by
    have t : rne 53 (((-1 : ℤ) : ℚ) * 2 ^ (-5 : ℤ)) = ((-1 : ℤ) : ℚ) * 2 ^ (-5 : ℤ) :=
      (nearestEven 53 (by norm_num)).exact (-1) (-5) (by norm_num)
    rw [show (9007198180999199 : ℚ) / 32 - 281474943156225 = ((-1 : ℤ) : ℚ) * 2 ^ (-5 : ℤ) by norm_num,
      t]
    norm_num
  refine ⟨?_, ?_⟩
  · show rne 24 (rne 53 ((List.replicate 33 (16777215 : ℚ)).foldl (fun s x => rne 53 (s + x)) 0 /
      rne 53 (((33 : Nat) : Int) : ℚ))) = _
    rw [s1, show (((33 : Nat) : Int) : ℚ) = 33 by norm_num, e33, q1, ef]
  · show rne 24 (sqrt (rne 53 (rne 53 ((List.replicate 33 (rne 53 (16777215 * 16777215))).foldl
        (fun s x => rne 53 (s + x)) 0 / rne 53 ((0 + ((33 : Nat) : Int) : Int) : ℚ)) -
      rne 53 (rne 53 ((List.replicate 33 (16777215 : ℚ)).foldl (fun s x => rne 53 (s + x)) 0 /
        rne 53 ((0 + ((33 : Nat) : Int) : Int) : ℚ)) *
      rne 53 ((List.replicate 33 (16777215 : ℚ)).foldl (fun s x => rne 53 (s + x)) 0 /
        rne 53 ((0 + ((33 : Nat) : Int) : Int) : ℚ)))))) = _
    rw [s1, esq, s2, show ((0 + ((33 : Nat) : Int) : Int) : ℚ) = 33 by norm_num, e33, q1, q2, esq, q3]

/-! ## Examples -/

/-- 33 equal values and a mask of zeros. -/
def flatHeap : Heap ℚ := ⟨fun b => if b = 0 then Buf.ofFn 33 fun _ => 16777215 else fun _ => none, 1⟩

def flatMask : Heap UInt8 := ⟨fun b => if b = 0 then Buf.ofFn 33 fun _ => 0 else fun _ => none, 1⟩

theorem flat_contains {V : Type} (n : Nat) (c : V) (h : Heap V)
    (hh : h.mem 0 = Buf.ofFn n fun _ => c) : h.Contains (dense 0 [(n : Int)]) fun _ => c := by
  intro idx hv
  have hv' : ValidIdx [(n : Int)] idx := hv
  cases hv' with
  | @cons _ x _ _ v1 v2 =>
    cases v2
    have e : addr (denseDims [(n : Int)]).1 [x] = x := by
      simp [addr, denseDims]
    simp only [Heap.get, dense, hh, e, Buf.ofFn]
    rw [if_pos ⟨by omega, by omega⟩]

theorem flat_wf : (dense 0 [33]).WF := by
  intro d hd
  simp [dense, denseDims] at hd
  subst hd
  decide

example : (dense 0 [33]).WF ∧ (dense 0 [33]).shape = [33] ∧
    flatHeap.Contains (dense 0 [33]) (fun _ => 16777215) ∧
    flatMask.Contains (dense 0 [33]) (fun _ => 0) ∧ (dense 0 [33]).blk < flatHeap.next :=
  ⟨flat_wf, by decide, flat_contains 33 _ _ rfl, flat_contains 33 _ _ rfl, by decide⟩

/-- The mean of these in IEEE arithmetic, by the bound. -/
example (sqrt : ℚ → ℚ) (junk : Int → ℚ) :
    ∃ R, Returns flatHeap (mean (roundOps (rne 24) (rne 53) sqrt) (dense 0 [33]) [0] junk flatHeap) [1]
      R ∧ ∀ l, Enumerates [33] [0] [0] l → l ≠ [] → l.length * 2 ^ (-53 : ℤ) ≤ (1 / 64 : ℚ) →
        |R [0] - (l.map fun _ => (16777215 : ℚ)).sum / l.length| ≤
          (2 * 2 ^ (-24 : ℤ) + 10 * l.length * 2 ^ (-53 : ℤ)) *
            ((l.map fun _ => |(16777215 : ℚ)|).sum / l.length) := by
  obtain ⟨R, r1, r2⟩ := C88_cpu_mean sqrt Gpu.float_relErr (by positivity) Gpu.double_relErr
    (by positivity) (dense 0 [33]) [0] junk flatHeap _ ⟨by decide, by decide⟩ flat_wf
    (flat_contains 33 _ _ rfl) (by decide)
  exact ⟨R, r1, fun l hl hne hn => r2 [0] (.cons ⟨by decide, by decide⟩ .nil) l hl hne hn⟩

/-- An array of `n` ones, for any `n`. -/
example (n : Nat) : GoodAxes (dense 0 [(n : Int)]) [0] ∧ (dense 0 [(n : Int)]).WF ∧
    (⟨fun b => if b = 0 then Buf.ofFn n fun _ => 1 else fun _ => none, 1⟩ : Heap ℚ).Contains
      (dense 0 [(n : Int)]) fun _ => 1 := by
  refine ⟨⟨by simp, by simp [dense, denseDims]⟩, ?_, flat_contains n _ _ rfl⟩
  intro d hd
  simp [dense, denseDims] at hd
  subst hd
  simp

end Bliss.Stat
