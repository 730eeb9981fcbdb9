import Verif.Drift.Rates

/-!
# Properties of the drift list and of the drift paths (C05, C06, C07)
-/

namespace Bliss.Drift

open Bliss.Float

/-! ## C05: the list of drifts -/

theorem mkRates_ok {R : Rounding 24} {hz : Fl → Fl} {T : Nat} {o : RateOptions} {n : Nat}
    (h : ∀ i < n, ∃ r, mkRate R hz T o i = .ok r) :
    ∃ rs, mkRates R hz T o n = .ok rs ∧ rs.length = n ∧
      ∀ i < n, ∃ r, rs[i]? = some r ∧ mkRate R hz T o i = .ok r := by
  induction n with
  | zero => exact ⟨[], rfl, rfl, by simp⟩
  | succ n ih =>
    obtain ⟨rs, h1, h2, h3⟩ := ih (fun i hi => h i (by omega))
    obtain ⟨r, hr⟩ := h n (by omega)
    refine ⟨rs ++ [r], by simp [mkRates, h1, hr], by simp [h2], ?_⟩
    intro i hi
    rcases Nat.lt_succ_iff_lt_or_eq.1 hi with h4 | h4
    · obtain ⟨r', h5, h6⟩ := h3 i h4
      refine ⟨r', ?_, h6⟩
      rw [List.getElem?_append_left (by omega)]; exact h5
    · subst h4
      refine ⟨r, ?_, hr⟩
      rw [List.getElem?_append_right (by omega)]; simp [h2]

theorem mkRates_inv {R : Rounding 24} {hz : Fl → Fl} {T : Nat} {o : RateOptions} {n : Nat}
    {rs : List (Rate Fl)} (h : mkRates R hz T o n = .ok rs) :
    rs.length = n ∧ ∀ i < n, ∃ r, rs[i]? = some r ∧ mkRate R hz T o i = .ok r := by
  induction n generalizing rs with
  | zero => simp [mkRates] at h; subst h; simp
  | succ n ih =>
    simp only [mkRates] at h
    cases h1 : mkRates R hz T o n with
    | throws e => simp [h1] at h
    | ub => simp [h1] at h
    | ok rs' =>
      cases h2 : mkRate R hz T o n with
      | throws e => simp [h1, h2] at h
      | ub => simp [h1, h2] at h
      | ok r =>
        simp [h1, h2] at h
        subst h
        obtain ⟨h3, h4⟩ := ih h1
        refine ⟨by simp [h3], ?_⟩
        intro i hi
        rcases Nat.lt_succ_iff_lt_or_eq.1 hi with h5 | h5
        · obtain ⟨r', h6, h7⟩ := h4 i h5
          refine ⟨r', ?_, h7⟩
          rw [List.getElem?_append_left (by omega)]; exact h6
        · subst h5
          refine ⟨r, ?_, h2⟩
          rw [List.getElem?_append_right (by omega)]; simp [h3]

theorem mkRate_inv {R : Rounding 24} {hz : Fl → Fl} {T : Nat} {o : RateOptions} {i : Nat}
    {r : Rate Fl} (h : mkRate R hz T o i = .ok r) :
    r.indexInPlane = i ∧ r.span = o.low + i * o.step ∧
      r.slope = (Fl.ofInt R (o.low + i * o.step)).divF R (Fl.ofInt R ((T : Int) - 1)) ∧
      r.hzPerSec = hz r.slope ∧ desmearBins o.desmear r.slope = .ok r.desmear := by
  unfold mkRate at h
  dsimp only at h
  generalize hm : (Fl.ofInt R (o.low + i * o.step)).divF R (Fl.ofInt R ((T : Int) - 1)) = m at h
  cases hw : desmearBins o.desmear m with
  | throws e => simp [hw] at h
  | ub => simp [hw] at h
  | ok w =>
    simp [hw] at h
    subst h
    exact ⟨rfl, rfl, rfl, rfl, hw⟩

/-- **C05, general form.** Whenever `compute_drifts` returns, its list holds exactly the drifts
`low + i * step` for `i = 0, 1, ..., (high - low) / step - 1` in this order, each with its position
and its channel span. -/
theorem C05_drift_list {R : Rounding 24} {hz : Fl → Fl} {T : Nat} {o : RateOptions}
    {rs : List (Rate Fl)} (h : computeDrifts R hz T o = .ok rs) :
    o.step ≠ 0 ∧ 0 ≤ (o.high - o.low).tdiv o.step ∧
    (rs.length : Int) = (o.high - o.low).tdiv o.step ∧
    ∀ (i : Nat) (r : Rate Fl), rs[i]? = some r →
      r.indexInPlane = i ∧ r.span = o.low + i * o.step := by
  unfold computeDrifts at h
  split at h
  · cases h
  rename_i h0
  dsimp only at h
  split at h
  · cases h
  rename_i h1
  obtain ⟨h2, h3⟩ := mkRates_inv h
  refine ⟨h0, by omega, by omega, ?_⟩
  intro i r hr
  have hi : i < rs.length := by
    rw [List.getElem?_eq_some_iff] at hr; exact hr.1
  obtain ⟨r', h4, h5⟩ := h3 i (by omega)
  rw [hr] at h4
  obtain rfl := Option.some.inj h4
  exact ⟨(mkRate_inv h5).1, (mkRate_inv h5).2.1⟩

/-- **C05, partial.** For a positive step that divides `high - low`, the list holds exactly the
drifts `low, low + step, low + 2 * step, ...` that are below `high`, in increasing order, each with
its own position and span. Missing: steps that do not divide the range, for which
`C05_drops_last_drift` shows that the code drops a drift below `high`. -/
theorem C05_drift_list_partial {R : Rounding 24} {hz : Fl → Fl} {T : Nat} {o : RateOptions}
    {rs : List (Rate Fl)} (h : computeDrifts R hz T o = .ok rs) (hstep : 0 < o.step)
    (hdvd : o.step ∣ o.high - o.low) :
    (∀ d : Int, (∃ r ∈ rs, r.span = d) ↔ ∃ k : Nat, d = o.low + k * o.step ∧ d < o.high) ∧
    (rs.map Rate.span).Pairwise (· < ·) ∧
    (∀ (i : Nat) (r : Rate Fl), rs[i]? = some r → r.indexInPlane = i) := by
  obtain ⟨_, hn, hlen, hget⟩ := C05_drift_list h
  obtain ⟨q, hq⟩ := hdvd
  rw [hq, Int.mul_tdiv_cancel_left _ (by omega)] at hn hlen
  refine ⟨?_, ?_, fun i r hr => (hget i r hr).1⟩
  · intro d
    constructor
    · rintro ⟨r, hr, rfl⟩
      obtain ⟨i, hi⟩ := List.getElem?_of_mem hr
      have hlt : i < rs.length := by
        rw [List.getElem?_eq_some_iff] at hi; exact hi.1
      refine ⟨i, (hget i r hi).2, ?_⟩
      rw [(hget i r hi).2]
      have h1 : o.step * ((i : Int) + 1) ≤ o.step * q := Int.mul_le_mul_of_nonneg_left (by omega) (by omega)
      nlinarith
    · rintro ⟨k, rfl, hk⟩
      have h1 : o.step * (k : Int) < o.step * q := by nlinarith
      have h2 : (k : Int) < q := lt_of_mul_lt_mul_left h1 (by omega)
      have h3 : k < rs.length := by omega
      exact ⟨rs[k], List.getElem_mem h3, (hget k _ (List.getElem?_eq_getElem h3)).2⟩
  · rw [List.pairwise_iff_getElem]
    intro i j hi hj hij
    simp only [List.length_map] at hi hj
    simp only [List.getElem_map]
    rw [(hget i _ (List.getElem?_eq_getElem hi)).2, (hget j _ (List.getElem?_eq_getElem hj)).2]
    have : ((i : Int) + 1) * o.step ≤ j * o.step := Int.mul_le_mul_of_nonneg_right (by omega) (by omega)
    nlinarith

/-- `compute_drifts` returns for every non-empty range with at least two time steps: the slopes are
finite. (Slopes that fit an `int`: `|span| < 2 ^ 31`.) -/
theorem desmearBins_ok (b : Bool) {q : ℚ} (h : |q| < 2 ^ 31 - 1) :
    ∃ w, desmearBins b (.fin q) = .ok w ∧ 1 ≤ w := by
  unfold desmearBins
  split
  · have h1 := roundAway_err |q|
    rw [abs_le] at h1
    have h2 : ((roundAway |q| : ℤ) : ℚ) < 2 ^ 31 := by linarith
    have h3 : roundAway |q| < 2 ^ 31 := by exact_mod_cast h2
    refine ⟨max 1 (roundAway |q|), ?_, le_max_left _ _⟩
    simp only [toInt32]
    rw [if_pos]
    constructor
    · have := le_max_left 1 (roundAway |q|); omega
    · exact max_lt (by norm_num) h3
  · exact ⟨1, rfl, by omega⟩

theorem desmearBins_le {b : Bool} {q : ℚ} {w D : Int} (h : desmearBins b (.fin q) = .ok w)
    (hq : |q| ≤ D) : 1 ≤ w ∧ w ≤ max 1 D := by
  unfold desmearBins at h
  split at h
  · simp only [toInt32] at h
    split at h
    · have hw := Outcome.ok.inj h
      subst hw
      refine ⟨le_max_left _ _, max_le_max le_rfl ?_⟩
      have h1 := roundAway_mono hq
      rwa [roundAway_eq (x := (D : ℚ)) (n := D) (by simp)] at h1
    · cases h
  · cases h; exact ⟨le_refl _, le_max_left _ _⟩

/-! ## C06: path geometry -/

/-- The slope `compute_drifts` stores for a drift of `d` channels over `T` time steps. -/
theorem slope_eq (R : Rounding 24) {d : Int} {T : Nat} (hd : |d| ≤ 2 ^ 24) (hT : 2 ≤ T)
    (hT' : (T : Int) - 1 ≤ 2 ^ 24) :
    (Fl.ofInt R d).divF R (Fl.ofInt R ((T : Int) - 1)) = .fin (R.r ((d : ℚ) / ((T : ℚ) - 1))) := by
  have h1 : R.r (((T : Int) - 1 : Int) : ℚ) = (((T : Int) - 1 : Int) : ℚ) :=
    R.int _ (by rw [abs_of_nonneg (by omega)]; exact hT')
  have h2 : (((T : Int) - 1 : Int) : ℚ) ≠ 0 := by
    have : (T : Int) - 1 ≠ 0 := by omega
    exact_mod_cast this
  simp only [Fl.ofInt, Fl.divF]
  rw [h1, if_neg h2, R.int d hd]
  push_cast
  rfl

/-- Distance of the rounded product from the straight line. -/
theorem line_err (R24 : Rounding 24) {p : Nat} (R53 : Rounding p) {ε : ℚ} (hε : 0 ≤ ε)
    (herr : ∀ x, |R24.r x - x| ≤ |x| * ε) (s : ℚ) (t : ℚ) :
    |R53.r (R24.r s * t) - s * t| ≤ |s * t| * (ε + (1 + ε) * 2 ^ (1 - (p : ℤ))) := by
  have h1 := R53.err (R24.r s * t)
  have h2 : |R24.r s * t - s * t| ≤ |s * t| * ε := by
    rw [← sub_mul, abs_mul, abs_mul]
    have := mul_le_mul_of_nonneg_right (herr s) (abs_nonneg t)
    linarith
  have h3 : |R24.r s * t| ≤ |s * t| * (1 + ε) := by
    have : |R24.r s * t| ≤ |R24.r s * t - s * t| + |s * t| := by
      have := abs_add_le (R24.r s * t - s * t) (s * t)
      simpa using this
    linarith
  have h4 : |R53.r (R24.r s * t) - s * t| ≤
      |R53.r (R24.r s * t) - R24.r s * t| + |R24.r s * t - s * t| := by
    have := abs_add_le (R53.r (R24.r s * t) - R24.r s * t) (R24.r s * t - s * t)
    simpa using this
  have h5 : (0 : ℚ) < 2 ^ (1 - (p : ℤ)) := zpow_pos (by norm_num) _
  have h6 := mul_le_mul_of_nonneg_right h3 h5.le
  nlinarith

/-- The five geometric facts of C06 about the offsets of a drift of `d` channels over `T` steps;
`ε` is the relative error of the slope. -/
structure StraightPath (d : Int) (T : Nat) (ε : ℚ) (off : Nat → Int) : Prop where
  start : off 0 = 0
  stop : off (T - 1) = d
  up : 0 ≤ d → ∀ s t, s ≤ t → t < T → off s ≤ off t
  down : d ≤ 0 → ∀ s t, s ≤ t → t < T → off t ≤ off s
  inside : ∀ t < T, min 0 d ≤ off t ∧ off t ≤ max 0 d
  close : ∀ t < T, |(off t : ℚ) - d * t / ((T : ℚ) - 1)| ≤ 1 / 2 + |(d : ℚ)| * ε

theorem path_geometry (R24 : Rounding 24) {p : Nat} (R53 : Rounding p) {ε : ℚ} (hε : 0 ≤ ε) (hε' : ε ≤ 1)
    (herr : ∀ x, |R24.r x - x| ≤ |x| * ε) {d : Int} {T : Nat} (hd : |d| ≤ 2 ^ 24)
    (hdε : |(d : ℚ)| * (ε + 2 ^ (2 - (p : ℤ))) < 1 / 2) (hT : 2 ≤ T) (hT' : (T : Int) - 1 ≤ 2 ^ 24) :
    ∃ off : Nat → Int,
      (∀ t < T, (flOps R53).offAt ((Fl.ofInt R24 d).divF R24 (Fl.ofInt R24 ((T : Int) - 1))) t =
        .ok (off t)) ∧ StraightPath d T (ε + 2 ^ (2 - (p : ℤ))) off := by
  rw [slope_eq R24 hd hT hT']
  have hn : (0 : ℚ) < (T : ℚ) - 1 := by
    have : (2 : ℚ) ≤ T := by exact_mod_cast hT
    linarith
  have hp : (0 : ℚ) < 2 ^ (1 - (p : ℤ)) := zpow_pos (by norm_num) _
  have hp2 : (2 : ℚ) ^ (2 - (p : ℤ)) = 2 * 2 ^ (1 - (p : ℤ)) := by
    rw [show (2 : ℤ) - p = 1 + (1 - p) by ring, zpow_add₀ (by norm_num), zpow_one]
  have hclose : ∀ t < T, |R53.r (R24.r ((d : ℚ) / ((T : ℚ) - 1)) * t) - d * t / ((T : ℚ) - 1)| ≤
      |(d : ℚ)| * (ε + 2 ^ (2 - (p : ℤ))) := by
    intro t ht
    have h1 := line_err R24 R53 hε herr ((d : ℚ) / ((T : ℚ) - 1)) t
    have e : (d : ℚ) / ((T : ℚ) - 1) * t = d * t / ((T : ℚ) - 1) := by ring
    rw [e] at h1
    have h2 : |(d : ℚ) * t / ((T : ℚ) - 1)| ≤ |(d : ℚ)| := by
      rw [abs_div, abs_mul, abs_of_pos hn, div_le_iff₀ hn]
      refine mul_le_mul_of_nonneg_left ?_ (abs_nonneg _)
      have : (t : ℚ) + 1 ≤ T := by exact_mod_cast ht
      rw [abs_of_nonneg (by positivity)]
      linarith
    refine le_trans h1 ?_
    refine mul_le_mul h2 ?_ (by positivity) (abs_nonneg _)
    rw [hp2]; nlinarith
  refine ⟨fun t => roundAway (R53.r (R24.r ((d : ℚ) / ((T : ℚ) - 1)) * t)), ?_, ?_⟩
  rotate_left
  · have hstart : roundAway (R53.r (R24.r ((d : ℚ) / ((T : ℚ) - 1)) * ((0 : Nat) : ℚ))) = 0 := by
      rw [Nat.cast_zero, mul_zero, R53.zero]
      exact roundAway_eq (by norm_num)
    have hstop : roundAway (R53.r (R24.r ((d : ℚ) / ((T : ℚ) - 1)) * ((T - 1 : Nat) : ℚ))) = d := by
      refine roundAway_eq ?_
      have h1 := hclose (T - 1) (by omega)
      have e : (d : ℚ) * ((T - 1 : Nat) : ℚ) / ((T : ℚ) - 1) = d := by
        rw [Nat.cast_sub (by omega), Nat.cast_one, mul_div_assoc, div_self (ne_of_gt hn), mul_one]
      rw [e] at h1
      exact lt_of_le_of_lt h1 hdε
    have hup : 0 ≤ d → ∀ s t : Nat, s ≤ t →
        roundAway (R53.r (R24.r ((d : ℚ) / ((T : ℚ) - 1)) * s)) ≤
          roundAway (R53.r (R24.r ((d : ℚ) / ((T : ℚ) - 1)) * t)) := by
      intro h0 s t hst
      refine roundAway_mono (R53.mono _ _ ?_)
      refine mul_le_mul_of_nonneg_left (by exact_mod_cast hst) (R24.nonneg ?_)
      have : (0 : ℚ) ≤ d := by exact_mod_cast h0
      positivity
    have hdown : d ≤ 0 → ∀ s t : Nat, s ≤ t →
        roundAway (R53.r (R24.r ((d : ℚ) / ((T : ℚ) - 1)) * t)) ≤
          roundAway (R53.r (R24.r ((d : ℚ) / ((T : ℚ) - 1)) * s)) := by
      intro h0 s t hst
      refine roundAway_mono (R53.mono _ _ ?_)
      refine mul_le_mul_of_nonpos_left (by exact_mod_cast hst) (R24.nonpos ?_)
      have : (d : ℚ) ≤ 0 := by exact_mod_cast h0
      exact div_nonpos_of_nonpos_of_nonneg this hn.le
    refine ⟨hstart, hstop, fun h s t hst _ => hup h s t hst, fun h s t hst _ => hdown h s t hst,
      ?_, ?_⟩
    · intro t ht
      rcases le_total 0 d with h | h
      · have a := hup h 0 t (by omega)
        have b := hup h t (T - 1) (by omega)
        rw [hstart] at a; rw [hstop] at b
        rw [min_eq_left h, max_eq_right h]; exact ⟨a, b⟩
      · have a := hdown h 0 t (by omega)
        have b := hdown h t (T - 1) (by omega)
        rw [hstart] at a; rw [hstop] at b
        rw [min_eq_right h, max_eq_left h]; exact ⟨b, a⟩
    · intro t ht
      have a := hclose t ht
      have b := roundAway_err (R53.r (R24.r ((d : ℚ) / ((T : ℚ) - 1)) * t))
      rw [abs_le] at a b ⊢
      constructor <;> linarith
  · intro t ht
    simp only [flOps, toInt32]
    rw [if_pos]
    have h1 := hclose t ht
    have h2 := roundAway_err (R53.r (R24.r ((d : ℚ) / ((T : ℚ) - 1)) * t))
    have h3 : |(d : ℚ) * t / ((T : ℚ) - 1)| ≤ 2 ^ 24 := by
      have h4 : |(d : ℚ)| ≤ 2 ^ 24 := by exact_mod_cast hd
      refine le_trans ?_ h4
      rw [abs_div, abs_mul, abs_of_pos hn, div_le_iff₀ hn]
      refine mul_le_mul_of_nonneg_left ?_ (abs_nonneg _)
      have : (t : ℚ) + 1 ≤ T := by exact_mod_cast ht
      rw [abs_of_nonneg (by positivity)]
      linarith
    rw [abs_le] at h1 h2 h3
    constructor
    · have : (-(2 ^ 31) : ℚ) ≤ (roundAway (R53.r (R24.r ((d : ℚ) / ((T : ℚ) - 1)) * t)) : ℚ) := by
        linarith
      exact_mod_cast this
    · have : (roundAway (R53.r (R24.r ((d : ℚ) / ((T : ℚ) - 1)) * t)) : ℚ) < 2 ^ 31 := by
        linarith
      exact_mod_cast this

/-- **C06, partial.** In every rounding mode, for drifts of fewer than 2^22 channels over at most
2^24 + 1 time steps, the integrators' channel offset is defined at every time step, starts at 0,
ends exactly at the drift, is monotone, stays between 0 and the drift and within half a channel
(plus slope rounding) of the straight line. Missing: drifts from 2^22 on; `C06_large_drift_misses`
shows that the endpoint is not exact up to 2^24. -/
theorem C06_path_geometry_partial (R24 : Rounding 24) (R53 : Rounding 53) {d : Int} {T : Nat}
    (hd : |d| < 2 ^ 22) (hT : 2 ≤ T) (hT' : (T : Int) - 1 ≤ 2 ^ 24) :
    ∃ off : Nat → Int,
      (∀ t < T, (flOps R53).offAt ((Fl.ofInt R24 d).divF R24 (Fl.ofInt R24 ((T : Int) - 1))) t =
        .ok (off t)) ∧ StraightPath d T (2 ^ (-23 : ℤ) + 2 ^ (-51 : ℤ)) off := by
  refine path_geometry R24 R53 (by positivity) (by norm_num) ?_ (by omega) ?_ hT hT'
  · intro x
    have := R24.err x
    rwa [show (1 - ((24 : Nat) : ℤ)) = -23 by norm_num] at this
  · have h1 : |d| ≤ 2 ^ 22 - 1 := by omega
    have h2 : |(d : ℚ)| ≤ 2 ^ 22 - 1 := by exact_mod_cast h1
    have : |(d : ℚ)| * (2 ^ (-23 : ℤ) + 2 ^ (-51 : ℤ)) ≤
        (2 ^ 22 - 1) * (2 ^ (-23 : ℤ) + 2 ^ (-51 : ℤ)) :=
      mul_le_mul_of_nonneg_right h2 (by positivity)
    refine lt_of_le_of_lt this ?_
    norm_num

/-- **C06 for rounding to nearest** (the IEEE default): the same up to 2^23 channels. -/
theorem C06_path_geometry_nearest_partial (R53 : Rounding 53) {d : Int} {T : Nat}
    (hd : |d| < 2 ^ 23) (hT : 2 ≤ T) (hT' : (T : Int) - 1 ≤ 2 ^ 24) :
    let R24 := nearestEven 24 (by norm_num)
    ∃ off : Nat → Int,
      (∀ t < T, (flOps R53).offAt ((Fl.ofInt R24 d).divF R24 (Fl.ofInt R24 ((T : Int) - 1))) t =
        .ok (off t)) ∧ StraightPath d T (2 ^ (-24 : ℤ) + 2 ^ (-51 : ℤ)) off := by
  intro R24
  refine path_geometry R24 R53 (by positivity) (by norm_num) ?_ (by omega) ?_ hT hT'
  · intro x
    have := rne_err (p := 24) x
    exact this
  · have h1 : |d| ≤ 2 ^ 23 - 1 := by omega
    have h2 : |(d : ℚ)| ≤ 2 ^ 23 - 1 := by exact_mod_cast h1
    have : |(d : ℚ)| * (2 ^ (-24 : ℤ) + 2 ^ (-51 : ℤ)) ≤
        (2 ^ 23 - 1) * (2 ^ (-24 : ℤ) + 2 ^ (-51 : ℤ)) :=
      mul_le_mul_of_nonneg_right h2 (by positivity)
    refine lt_of_le_of_lt this ?_
    norm_num

/-- **C06 fails for large drifts**: a drift of 16777213 channels over 4 time steps, both of which
`float` represents exactly, ends at channel 16777214. -/
theorem C06_large_drift_misses :
    let R24 := nearestEven 24 (by norm_num)
    let R53 := nearestEven 53 (by norm_num)
    (flOps R53).offAt ((Fl.ofInt R24 16777213).divF R24 (Fl.ofInt R24 ((4 : Nat) - 1))) 3 =
      .ok 16777214 := by
  intro R24 R53
  rw [slope_eq R24 (by norm_num) (by norm_num) (by norm_num)]
  have h1 : R24.r (((16777213 : Int) : ℚ) / (((4 : Nat) : ℚ) - 1)) = 11184809 / 2 := by
    have := rne_eq (p := 24) (x := ((16777213 : Int) : ℚ) / (((4 : Nat) : ℚ) - 1)) (e := 22)
      (n := 11184809)
      (by rw [abs_of_pos (by norm_num)]; norm_num) (by rw [abs_of_pos (by norm_num)]; norm_num)
      (by rw [abs_lt]; norm_num)
    refine Eq.trans this ?_
    norm_num
  have h2 : R53.r (11184809 / 2 * ((3 : Nat) : ℚ)) = 33554427 / 2 := by
    have := R53.exact 33554427 (-1) (by norm_num)
    have e : (11184809 / 2 * ((3 : Nat) : ℚ)) = ((33554427 : ℤ) : ℚ) * 2 ^ (-1 : ℤ) := by norm_num
    rw [e, this]; norm_num
  simp only [flOps]
  rw [h1, h2]
  have h3 : roundAway (33554427 / 2) = 16777214 := by
    unfold roundAway
    rw [if_pos (by norm_num), Int.floor_eq_iff]
    norm_num
  rw [h3]
  simp [toInt32]

/-! ## C07: which inputs have defined behaviour -/

theorem divF_zero (R : Rounding 24) (d : Int) :
    ∀ q, (Fl.ofInt R d).divF R (Fl.ofInt R (((1 : Nat) : Int) - 1)) ≠ .fin q := by
  intro q
  have h : R.r (((1 : Nat) : Int) - 1 : Int) = 0 := by simpa using R.zero
  simp only [Fl.ofInt, Fl.divF]
  rw [h, if_pos rfl]
  split <;> simp

/-- With a single time step the result of `compute_drifts` has no finite slope. -/
theorem single_step_slopes {R : Rounding 24} {hz : Fl → Fl} {o : RateOptions}
    {rs : List (Rate Fl)} (h : computeDrifts R hz 1 o = .ok rs) {i : Nat} {r : Rate Fl}
    (hr : rs[i]? = some r) : ∀ q, r.slope ≠ .fin q := by
  unfold computeDrifts at h
  split at h
  · cases h
  dsimp only at h
  split at h
  · cases h
  obtain ⟨h2, h3⟩ := mkRates_inv h
  have hi : i < rs.length := by
    rw [List.getElem?_eq_some_iff] at hr; exact hr.1
  obtain ⟨r', h4, h5⟩ := h3 i (by omega)
  rw [hr] at h4
  obtain rfl := Option.some.inj h4
  rw [(mkRate_inv h5).2.2.1]
  exact divF_zero R _

/-- A slope that is not finite makes the integrator undefined at the first time step. -/
theorem integrateCpu_nonfinite {F : Type} [Zero F] [Add F] [Div F] [IntCast F] (R : Rounding 53)
    (inp : Input F) (hT : 0 < inp.timeSteps) {r : Rate Fl} {rs : List (Rate Fl)}
    (h : ∀ q, r.slope ≠ .fin q) : integrateCpu (flOps R) inp (r :: rs) = .ub := by
  have h1 : ∀ a : Acc F, driftBody (flOps R) inp r 0 a = .ub := by
    intro a
    unfold driftBody
    refine forLoop_ub (fun k _ => k = 0) rfl ?_ (k := 0) hT ?_
    · intro k s _ hk
      have hb : timeBody (flOps R) inp r 0 k s = .ub := by
        unfold timeBody
        have : (flOps R).offAt r.slope k = .ub := by
          simp only [flOps]
        rw [this]; rfl
      exact Or.inl hb
    · intro s _
      unfold timeBody
      have : (flOps R).offAt r.slope 0 = .ub := by
        simp only [flOps]
      rw [this]; rfl
  unfold integrateCpu
  have h2 : forLoop (r :: rs).length (rateBody (flOps R) inp (r :: rs))
      (initAcc (r :: rs).length inp.numChannels) = .ub := by
    refine forLoop_ub (fun k _ => k = 0) rfl ?_ (k := 0) (by simp) ?_
    · intro k s _ hk
      subst hk
      have : rateBody (flOps R) inp (r :: rs) 0 s = .ub := by simp [rateBody, h1]
      exact Or.inl this
    · intro s _
      simp [rateBody, h1]
  rw [h2]; rfl

/-- **C07 fails for single-spectrum scans**: with one time step `integrate_drifts` never returns,
whatever the options and the data; with a non-empty drift range its behaviour is undefined. -/
theorem C07_single_step_undefined {F : Type} [Zero F] [Add F] [Div F] [IntCast F]
    (R24 : Rounding 24) (R53 : Rounding 53) (hz : Fl → Fl) (inp : Input F)
    (hT : inp.timeSteps = 1) (o : RateOptions) (hn : 0 ≤ (o.high - o.low).tdiv o.step) :
    integrateDrifts R24 R53 hz inp o = .ub := by
  unfold integrateDrifts
  rw [hT]
  have hnt : ∀ e, computeDrifts R24 hz 1 o ≠ .throws e := by
    intro e he
    unfold computeDrifts at he
    split at he
    · cases he
    dsimp only at he
    rw [if_neg (by omega)] at he
    have : ∀ n, mkRates R24 hz 1 o n ≠ .throws e := by
      intro n
      induction n with
      | zero => simp [mkRates]
      | succ n ih =>
        intro hc
        simp only [mkRates] at hc
        cases h1 : mkRates R24 hz 1 o n with
        | throws e' => rw [h1] at hc ih; exact ih hc
        | ub => simp [h1] at hc
        | ok rs =>
          rw [h1] at hc
          simp only [Outcome.bind_ok, mkRate, desmearBins] at hc
          split at hc
          · split at hc
            · simp only [toInt32] at hc
              split at hc <;> simp at hc
            · simp at hc
            · simp at hc
          · simp at hc
    exact this _ he
  cases h : computeDrifts R24 hz 1 o with
  | throws e => exact absurd h (hnt e)
  | ub => rfl
  | ok rs =>
    cases rs with
    | nil => rfl
    | cons r rs =>
      have := single_step_slopes h (i := 0) (r := r) rfl
      simp only [Outcome.bind_ok]
      rw [integrateCpu_nonfinite R53 inp (by omega) this]; rfl

/-- An empty drift range is undefined too, for every number of time steps: `integrate_drifts`
reads the first element of the empty drift list. -/
theorem C07_empty_range_undefined {F : Type} [Zero F] [Add F] [Div F] [IntCast F]
    (R24 : Rounding 24) (R53 : Rounding 53) (hz : Fl → Fl) (inp : Input F) (o : RateOptions)
    (hn : (o.high - o.low).tdiv o.step = 0) : integrateDrifts R24 R53 hz inp o = .ub := by
  unfold integrateDrifts computeDrifts
  split
  · rfl
  · simp [hn, mkRates]

/-- The drifts that `integrate_drifts` computes and the offsets of their paths: they depend on the
number of time steps and the options only, and fit a band of `N` channels. `B` bounds the drifts for
which the offsets are straight with the arithmetic of `R53`. -/
theorem driftSetup_of (R24 : Rounding 24) {p : Nat} (R53 : Rounding p) (hz : Fl → Fl) {T N : Nat}
    {o : RateOptions} {ε : ℚ} {B : Int} (hB : B ≤ 2 ^ 22) (hT : 2 ≤ T) (hT' : (T : Int) - 1 ≤ 2 ^ 24)
    (hpath : ∀ d : Int, |d| < B → ∃ off : Nat → Int,
      (∀ t < T, (flOps R53).offAt ((Fl.ofInt R24 d).divF R24 (Fl.ofInt R24 ((T : Int) - 1))) t =
        .ok (off t)) ∧ StraightPath d T ε off)
    (hstep : o.step ≠ 0) (hne : 0 < (o.high - o.low).tdiv o.step)
    (hrange : ∀ i : Nat, (i : Int) < (o.high - o.low).tdiv o.step →
      |o.low + i * o.step| < B) :
    ∃ (rates : List (Rate Fl)) (off : Nat → Nat → Int), computeDrifts R24 hz T o = .ok rates ∧
      (rates.length : Int) = (o.high - o.low).tdiv o.step ∧ OffsetsAre (flOps R53) rates T off ∧
      ∀ (i : Nat) (r : Rate Fl), rates[i]? = some r →
        (2 * |o.low + i * o.step| ≤ N →
          Fits N T ((flOps R53).nonneg r.slope) r.span r.desmear (off i)) ∧
        (flOps R53).nonneg r.slope = decide (0 ≤ r.span) ∧
        r.indexInPlane = i ∧ r.span = o.low + i * o.step ∧ 1 ≤ r.desmear ∧
        r.slope = (Fl.ofInt R24 r.span).divF R24 (Fl.ofInt R24 ((T : Int) - 1)) ∧
        StraightPath r.span T ε (off i) := by
  have hn : (0 : ℚ) < (T : ℚ) - 1 := by
    have : (2 : ℚ) ≤ T := by exact_mod_cast hT
    linarith
  -- slopes are finite and small
  have hslope : ∀ d : Int, |d| < B → ∃ q : ℚ,
      (Fl.ofInt R24 d).divF R24 (Fl.ofInt R24 ((T : Int) - 1)) = .fin q ∧
      |q| ≤ ((|d| : Int) : ℚ) ∧ (0 ≤ q ↔ 0 ≤ d) := by
    intro d hd
    refine ⟨_, slope_eq R24 (by omega) hT hT', ?_, ?_⟩
    · have hs : |(d : ℚ) / ((T : ℚ) - 1)| ≤ ((|d| : Int) : ℚ) := by
        rw [abs_div, abs_of_pos hn, div_le_iff₀ hn]
        push_cast
        have : (2 : ℚ) ≤ T := by exact_mod_cast hT
        have h0 := abs_nonneg (d : ℚ)
        nlinarith
      rw [abs_le] at hs ⊢
      have e1 := R24.int |d| (by rw [abs_abs]; omega)
      have e2 := R24.int (-|d|) (by rw [abs_neg, abs_abs]; omega)
      have m1 := R24.mono _ _ hs.2
      have m2 := R24.mono (((-|d| : Int)) : ℚ) _ (by push_cast; push_cast at hs; exact hs.1)
      rw [e1] at m1
      rw [e2] at m2
      push_cast at m1 m2 ⊢
      exact ⟨m2, m1⟩
    · constructor
      · intro h
        by_contra hneg
        have hneg' : (d : ℚ) < 0 := by
          have : d < 0 := by omega
          exact_mod_cast this
        have hx : (d : ℚ) / ((T : ℚ) - 1) < 0 := div_neg_of_neg_of_pos hneg' hn
        have := R24.err ((d : ℚ) / ((T : ℚ) - 1))
        rw [abs_le, abs_of_neg hx, show (1 - ((24 : Nat) : ℤ)) = -23 by norm_num] at this
        have h23 : (2 : ℚ) ^ (-23 : ℤ) < 1 := by norm_num
        nlinarith [this.2]
      · intro h
        have : (0 : ℚ) ≤ d := by exact_mod_cast h
        exact R24.nonneg (by positivity)
  -- the list
  have hmk : ∀ i < ((o.high - o.low).tdiv o.step).toNat,
      ∃ r, mkRate R24 hz T o i = .ok r := by
    intro i hi
    obtain ⟨q, h1, h2, _⟩ := hslope _ (hrange i (by omega))
    have h3 : |q| < 2 ^ 31 - 1 := by
      have : ((|o.low + i * o.step| : Int) : ℚ) < 2 ^ 22 := by 
        exact_mod_cast lt_of_lt_of_le (hrange i (by omega)) hB
      refine lt_of_le_of_lt h2 (lt_trans this (by norm_num))
    obtain ⟨w, h4, _⟩ := desmearBins_ok o.desmear h3
    unfold mkRate
    dsimp only
    rw [h1, h4]
    exact ⟨_, rfl⟩
  obtain ⟨rates, hr1, hr2, hr3⟩ := mkRates_ok hmk
  have hcd : computeDrifts R24 hz T o = .ok rates := by
    unfold computeDrifts
    rw [if_neg hstep]
    dsimp only
    rw [if_neg (by omega)]
    exact hr1
  obtain ⟨_, _, hlen, hspan⟩ := C05_drift_list hcd
  have hidx : ∀ (i : Nat) (r : Rate Fl), rates[i]? = some r →
      (i : Int) < (o.high - o.low).tdiv o.step ∧ mkRate R24 hz T o i = .ok r := by
    intro i r hr
    have hi : i < rates.length := by
      rw [List.getElem?_eq_some_iff] at hr; exact hr.1
    refine ⟨by omega, ?_⟩
    obtain ⟨r', h1, h2⟩ := hr3 i (by omega)
    rw [hr] at h1
    obtain rfl := Option.some.inj h1
    exact h2
  -- the offsets
  have hoff : ∀ i : Nat, ∃ off : Nat → Int, ∀ r : Rate Fl, rates[i]? = some r →
      (∀ t < T, (flOps R53).offAt r.slope t = .ok (off t)) ∧
      StraightPath r.span T ε off := by
    intro i
    cases hr : rates[i]? with
    | none => exact ⟨fun _ => 0, fun r h => by cases h⟩
    | some r =>
      obtain ⟨h1, h2⟩ := hidx i r hr
      obtain ⟨off, h3, h4⟩ := hpath _ (hrange i h1)
      refine ⟨off, ?_⟩
      intro r' h
      obtain rfl := Option.some.inj h
      rw [(mkRate_inv h2).2.2.1, (mkRate_inv h2).2.1]
      exact ⟨h3, h4⟩
  choose off hoff using hoff
  have hofs : OffsetsAre (flOps R53) rates T off :=
    fun i r hr t ht => (hoff i r hr).1 t ht
  have hup : ∀ (i : Nat) (r : Rate Fl), rates[i]? = some r →
      (flOps R53).nonneg r.slope = decide (0 ≤ r.span) := by
    intro i r hr
    obtain ⟨h1, h2⟩ := hidx i r hr
    obtain ⟨q, h3, _, h5⟩ := hslope _ (hrange i h1)
    rw [(mkRate_inv h2).2.2.1, (mkRate_inv h2).2.1, h3]
    simp only [flOps]
    exact decide_eq_decide.2 h5
  have hdes : ∀ (i : Nat) (r : Rate Fl), rates[i]? = some r →
      1 ≤ r.desmear ∧ r.desmear ≤ max 1 |r.span| := by
    intro i r hr
    obtain ⟨h1, h2⟩ := hidx i r hr
    obtain ⟨q, h3, h4, _⟩ := hslope _ (hrange i h1)
    have h5 := (mkRate_inv h2).2.2.2.2
    rw [(mkRate_inv h2).2.2.1, h3] at h5
    rw [(mkRate_inv h2).2.1]
    exact desmearBins_le h5 h4
  have hfit : ∀ (i : Nat) (r : Rate Fl), rates[i]? = some r → 2 * |o.low + i * o.step| ≤ N →
      Fits N T ((flOps R53).nonneg r.slope) r.span r.desmear (off i) := by
    intro i r hr hb
    rw [hup i r hr]
    obtain ⟨h1, h2⟩ := hidx i r hr
    have hsp := (mkRate_inv h2).2.1
    rw [← hsp] at hb
    have hd := hdes i r hr
    have hin' := (hoff i r hr).2.inside
    unfold Fits
    by_cases hpos : 0 ≤ r.span
    · rw [if_pos (by simpa using hpos)]
      intro t ht
      have := hin' t ht
      rw [min_eq_left hpos, max_eq_right hpos] at this
      rw [abs_of_nonneg hpos] at hb hd
      rcases max_cases 1 r.span with h | h <;> omega
    · rw [if_neg (by simpa using hpos)]
      have hneg : r.span ≤ 0 := by omega
      rw [abs_of_nonpos hneg] at hb hd
      refine ⟨by omega, by omega, ?_⟩
      intro t ht
      have := hin' t ht
      rw [min_eq_right hneg, max_eq_left hneg] at this
      rcases max_cases 1 (-r.span) with h | h <;> omega
  exact ⟨rates, off, hcd, hlen, hofs, fun i r hr => ⟨hfit i r hr, hup i r hr, (hspan i r hr).1,
    (hspan i r hr).2, (hdes i r hr).1, by
      rw [(mkRate_inv (hidx i r hr).2).2.1]; exact (mkRate_inv (hidx i r hr).2).2.2.1,
    (hoff i r hr).2⟩⟩

/-- The drifts of `integrate_drifts` and the offsets of the CPU integrator. -/
theorem driftSetup (R24 : Rounding 24) (R53 : Rounding 53) (hz : Fl → Fl) {T N : Nat}
    {o : RateOptions} (hT : 2 ≤ T) (hT' : (T : Int) - 1 ≤ 2 ^ 24) (hstep : o.step ≠ 0)
    (hne : 0 < (o.high - o.low).tdiv o.step)
    (hrange : ∀ i : Nat, (i : Int) < (o.high - o.low).tdiv o.step →
      |o.low + i * o.step| < 2 ^ 22 ∧ 2 * |o.low + i * o.step| ≤ N) :
    ∃ (rates : List (Rate Fl)) (off : Nat → Nat → Int), computeDrifts R24 hz T o = .ok rates ∧
      (rates.length : Int) = (o.high - o.low).tdiv o.step ∧ OffsetsAre (flOps R53) rates T off ∧
      ∀ (i : Nat) (r : Rate Fl), rates[i]? = some r →
        Fits N T ((flOps R53).nonneg r.slope) r.span r.desmear (off i) ∧
        (flOps R53).nonneg r.slope = decide (0 ≤ r.span) ∧
        r.indexInPlane = i ∧ r.span = o.low + i * o.step ∧ 1 ≤ r.desmear ∧
        StraightPath r.span T (2 ^ (-23 : ℤ) + 2 ^ (-51 : ℤ)) (off i) := by
  obtain ⟨rates, off, h1, h2, h3, h4⟩ := driftSetup_of (N := N) R24 R53 hz le_rfl hT hT'
    (fun d hd => C06_path_geometry_partial R24 R53 hd hT hT') hstep hne
    (fun i hi => (hrange i hi).1)
  refine ⟨rates, off, h1, h2, h3, fun i r hr => ?_⟩
  obtain ⟨a, b, c, d, e, _, f⟩ := h4 i r hr
  have hi : i < rates.length := by rw [List.getElem?_eq_some_iff] at hr; exact hr.1
  exact ⟨a (hrange i (by omega)).2, b, c, d, e, f⟩

/-- **C07, partial, and C01 end to end.** With at least two time steps (and at most 2^24 + 1), a
drift range of at least one drift all of whose drifts are below 2^22 channels and at most half the
band, `integrate_drifts` is defined; its drift list is the one of C05, every path is straight in the
sense of C06, every plane cell is the average of the samples on that path, and its counters are the
numbers of samples of that path with the flags 2, 4 and 1, modulo 256.
Missing: one time step (`C07_single_step_undefined`), an empty range
(`C07_empty_range_undefined`) and drifts that do not fit (`C02_too_fast_drift_is_ub`), where the
code is undefined. -/
theorem C07_defined_partial {F : Type} [Zero F] [Add F] [Div F] [IntCast F]
    (R24 : Rounding 24) (R53 : Rounding 53) (hz : Fl → Fl) {inp : Input F}
    {grid : Nat → Int → F} {mask : Nat → Int → UInt8} (hin : Holds inp grid mask)
    (hview : inp.specOffset = 0 ∧ inp.rfiOffset = 0) {o : RateOptions} (hT : 2 ≤ inp.timeSteps)
    (hT' : (inp.timeSteps : Int) - 1 ≤ 2 ^ 24) (hstep : o.step ≠ 0)
    (hne : 0 < (o.high - o.low).tdiv o.step)
    (hrange : ∀ i : Nat, (i : Int) < (o.high - o.low).tdiv o.step →
      |o.low + i * o.step| < 2 ^ 22 ∧ 2 * |o.low + i * o.step| ≤ inp.numChannels) :
    ∃ (a : Acc F) (rates : List (Rate Fl)) (off : Nat → Nat → Int),
      integrateDrifts R24 R53 hz inp o = .ok (a, rates) ∧
      (rates.length : Int) = (o.high - o.low).tdiv o.step ∧
      ∀ (i : Nat) (r : Rate Fl), rates[i]? = some r →
        r.indexInPlane = i ∧ r.span = o.low + i * o.step ∧ 1 ≤ r.desmear ∧
        StraightPath r.span inp.timeSteps (2 ^ (-23 : ℤ) + 2 ^ (-51 : ℤ)) (off i) ∧
        ∀ c : Int, 0 ≤ c → c < inp.numChannels →
          a.plane (i * inp.numChannels + c) =
            some (pathSum grid r.desmear
              (path inp.numChannels inp.timeSteps (decide (0 ≤ r.span)) r.span r.desmear.toNat
                (off i) c) / ((inp.timeSteps : Int) : F)) ∧
          ∃ l h o, a.lowsk (i * inp.numChannels + c) = some l ∧
            a.highsk (i * inp.numChannels + c) = some h ∧
            a.rolloff (i * inp.numChannels + c) = some o ∧
            let p := path inp.numChannels inp.timeSteps (decide (0 ≤ r.span)) r.span
              r.desmear.toNat (off i) c
            l.toNat = pathFlags mask 2 p % 256 ∧ h.toNat = pathFlags mask 4 p % 256 ∧
            o.toNat = pathFlags mask 1 p % 256 := by
  obtain ⟨rates, off, hcd, hlen, hofs, hall⟩ := driftSetup R24 R53 hz (N := inp.numChannels) hT hT'
    hstep hne hrange
  have hfit := fun (i : Nat) (r : Rate Fl) (hr : rates[i]? = some r) => (hall i r hr).1
  obtain ⟨a, ha, hcell⟩ := C01_drift_plane_cell hin hview hofs hfit
  obtain ⟨a', ha', hcount⟩ := C04_counters_mod_256 hin hview hofs hfit
  rw [ha] at ha'
  obtain rfl := Outcome.ok.inj ha'
  refine ⟨a, rates, off, ?_, hlen, ?_⟩
  · unfold integrateDrifts
    rw [hcd]
    simp only [Outcome.bind_ok]
    cases hrs : rates with
    | nil => rw [hrs] at hlen; simp at hlen; omega
    | cons r rs =>
      rw [hrs] at ha
      simp only [ha]
      rfl
  · intro i r hr
    obtain ⟨-, g2, g3, g4, g5, g6⟩ := hall i r hr
    refine ⟨g3, g4, g5, g6, ?_⟩
    intro c h0 hc
    rw [← g2]
    exact ⟨hcell i r hr c h0 hc, hcount i r hr c h0 hc⟩

/-- The default options on a 16 × 1024 channel meet the hypotheses of `C07_defined_partial`. -/
example (grid : Nat → Int → Int) (mask : Nat → Int → UInt8) :
    let inp := denseInput 16 1024 grid mask
    let o : RateOptions := {}
    Holds inp grid mask ∧ (inp.specOffset = 0 ∧ inp.rfiOffset = 0) ∧ 2 ≤ inp.timeSteps ∧
      (inp.timeSteps : Int) - 1 ≤ 2 ^ 24 ∧ o.step ≠ 0 ∧ 0 < (o.high - o.low).tdiv o.step ∧
      ∀ i : Nat, (i : Int) < (o.high - o.low).tdiv o.step →
        |o.low + i * o.step| < 2 ^ 22 ∧ 2 * |o.low + i * o.step| ≤ inp.numChannels := by
  refine ⟨denseInput_holds _ _ _ _, ⟨rfl, rfl⟩, by simp [denseInput], by simp [denseInput],
    by simp, by simp, ?_⟩
  intro i hi
  simp only at hi ⊢
  norm_num at hi
  simp only [denseInput]
  have h1 : |(-64 : Int) + i * 1| ≤ 64 := by rw [abs_le]; omega
  push_cast
  omega

/-- The default options give the 128 drifts -64, ..., 63. -/
example (R : Rounding 24) (hz : Fl → Fl) (rs : List (Rate Fl))
    (h : computeDrifts R hz 16 {} = .ok rs) : rs.length = 128 ∧ (rs[0]?.map Rate.span) = some (-64) := by
  obtain ⟨_, _, h3, h4⟩ := C05_drift_list h
  norm_num at h3
  have h5 : rs.length = 128 := by exact_mod_cast h3
  refine ⟨h5, ?_⟩
  have h6 : 0 < rs.length := by omega
  rw [List.getElem?_eq_getElem h6]
  simp only [Option.map_some, Option.some.injEq]
  exact (h4 0 _ (List.getElem?_eq_getElem h6)).2

/-- **C05 fails when the step does not divide the range**: for 0 to 5 in steps of 2 the drift 4 is
missing. -/
theorem C05_drops_last_drift {R : Rounding 24} {hz : Fl → Fl} {T : Nat} {rs : List (Rate Fl)}
    (h : computeDrifts R hz T { low := 0, high := 5, step := 2 } = .ok rs) :
    rs.map Rate.span = [0, 2] := by
  obtain ⟨_, _, h3, h4⟩ := C05_drift_list h
  have h5 : rs.length = 2 := by
    have e : (5 - 0 : Int).tdiv 2 = 2 := by decide
    rw [e] at h3
    exact_mod_cast h3
  obtain ⟨a, b, rfl⟩ := List.length_eq_two.1 h5
  have ha := (h4 0 a rfl).2
  have hb := (h4 1 b rfl).2
  norm_num at ha hb
  simp [ha, hb]

end Bliss.Drift
