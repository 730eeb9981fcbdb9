import Verif.Hit.Smear
import Verif.Hit.Range

/-!
# Tones that drift several channels per time step, in float arithmetic (C155)
-/

namespace Bliss.Hit

open Bliss.Comp (Coord Grid Protohit Search findThresh)
open Bliss.Drift Bliss.Float

/-! ## Specification -/

/-- The noise of lines averaged over `k` channels is the inverse square root of `k` up to a constant factor,
and a relative error of about `2^-21`. -/
def NoiseLaw (n : Int → ℚ) (most : Int) : Prop :=
  ∃ c > 0, ∀ k : Int, 1 ≤ k → k ≤ most → 0 < n k ∧ |n k ^ 2 * k - c| ≤ c / 2 ^ 20

/-- The operations of the noise of a line on floats, as operations on the values of floats. -/
def plainArith {R : Rounding 24} (ar : Arith (F32 R) Fl) : Arith ℚ Fl :=
  ⟨fun x => ar.toD ⟨x⟩, fun y => (ar.toF y).val, ar.ofInt, ar.add, ar.mul, ar.div, ar.abs, ar.sqrt, ar.million⟩

/-! ## Proofs -/

/-- With rounded arithmetic the law holds. -/
theorem C155_noise_law {R : Rounding 24} {ar : Arith (F32 R) Fl} (har : RoundedRoot (plainArith ar))
    {noisePower : F32 R} (hp : 0 < noisePower.val) {T : Nat} (hT : 1 ≤ T) {most : Int}
    (hTm : T * most ≤ 2 ^ 53) : NoiseLaw (fun k => (driftNoise ar noisePower (T * k)).val) most := by
  have hTi : (1 : Int) ≤ T := by exact_mod_cast hT
  have hTq : (0 : ℚ) < T := by exact_mod_cast hT
  refine ⟨noisePower.val ^ 2 / T, div_pos (pow_pos hp 2) hTq, fun k hk hkm => ?_⟩
  dsimp only
  have h := noise_root har hp (m := T * k) (by nlinarith) (by nlinarith)
  change |(((driftNoise ar noisePower (T * k)).val : ℚ) : ℝ) - _| ≤ _ at h
  generalize (driftNoise ar noisePower (T * k)).val = n at *
  have hkR : (0 : ℝ) < k := by exact_mod_cast (show (0 : Int) < k by omega)
  have hTR : (0 : ℝ) < T := by exact_mod_cast hT
  have hpR : (0 : ℝ) < noisePower.val := by exact_mod_cast hp
  have hm : (0 : ℝ) < (((T : Int) * k : Int) : ℝ) := by push_cast; positivity
  have hs : 0 < √(((T : Int) * k : Int) : ℝ) := Real.sqrt_pos.2 hm
  have hsq : √(((T : Int) * k : Int) : ℝ) ^ 2 = T * k := by
    rw [Real.sq_sqrt hm.le]; push_cast; ring
  have hX : (0 : ℝ) < noisePower.val / √(((T : Int) * k : Int) : ℝ) := div_pos hpR hs
  have hX2 : ((noisePower.val : ℝ) / √(((T : Int) * k : Int) : ℝ)) ^ 2 * k = noisePower.val ^ 2 / T := by
    rw [div_pow, hsq]
    field_simp
  have hX3 : ((noisePower.val : ℝ) ^ 2 / T) = ((noisePower.val ^ 2 / T : ℚ) : ℝ) := by push_cast; ring
  rw [hX3] at hX2
  generalize (noisePower.val : ℝ) / √(((T : Int) * k : Int) : ℝ) = X at *
  rw [abs_le] at h
  have hn0 : (0 : ℝ) < n := by
    have : X * 2 ^ (-22 : ℤ) < X := by rw [mul_lt_iff_lt_one_right hX]; norm_num
    linarith
  refine ⟨by exact_mod_cast hn0, ?_⟩
  have hgoal : |(n : ℝ) ^ 2 * k - X ^ 2 * k| ≤ X ^ 2 * k / 2 ^ 20 := by
    have e : (n : ℝ) ^ 2 * k - X ^ 2 * k = (n - X) * (n + X) * k := by ring
    have h1 : |(n : ℝ) - X| ≤ X * 2 ^ (-22 : ℤ) := abs_le.2 h
    have h2 : |(n : ℝ) + X| ≤ 3 * X := by
      rw [abs_of_pos (by linarith)]
      have : X * 2 ^ (-22 : ℤ) < X := by rw [mul_lt_iff_lt_one_right hX]; norm_num
      linarith
    rw [e, abs_mul, abs_mul, abs_of_pos hkR]
    calc |(n : ℝ) - X| * |(n : ℝ) + X| * k ≤ X * 2 ^ (-22 : ℤ) * (3 * X) * k :=
          mul_le_mul_of_nonneg_right (mul_le_mul h1 h2 (abs_nonneg _) (by positivity)) hkR.le
      _ = X ^ 2 * k * (3 * 2 ^ (-22 : ℤ)) := by ring
      _ ≤ X ^ 2 * k * (1 / 2 ^ 20) := mul_le_mul_of_nonneg_left (by norm_num) (by positivity)
      _ = _ := by ring
  rw [hX2] at hgoal
  have h3 : ((|n ^ 2 * k - noisePower.val ^ 2 / T| : ℚ) : ℝ) ≤ ((noisePower.val ^ 2 / T / 2 ^ 20 : ℚ) : ℝ) := by
    push_cast at hgoal ⊢
    exact hgoal
  exact_mod_cast h3

/-- Lines of other widths are weaker by more than the rounding errors. -/
theorem weaker_by_law {w D : ℚ} (hw : 1 ≤ w) (hD : 1 ≤ D) (hwm : w ≤ 256) (hDm : D ≤ 256)
    (hne : w + 1 ≤ D ∨ D + 1 ≤ w) {e : ℚ} (h0 : 0 ≤ e) (he : e ≤ 3087 / 8388608) {c nw nD : ℚ} (hc : 0 < c)
    (hnw : 0 < nw) (hnD : 0 < nD) (lw : |nw ^ 2 * w - c| ≤ c / 2 ^ 20) (lD : |nD ^ 2 * D - c| ≤ c / 2 ^ 20)
    {A B Q : ℚ} (hQ : 0 < Q) (hA : A * D ≤ Q * (min w D + 2 * e * D)) (hB : Q * (1 - 2 * e) ≤ B) :
    A * nw < B * nD := by
  rw [abs_le] at lw lD
  set a := min w D + 2 * e * D with ha
  have hmin : 1 ≤ min w D := le_min hw hD
  have heD0 : 0 ≤ e * D := by positivity
  have ha0 : 0 < a := by rw [ha]; nlinarith
  have hb0 : 0 < 1 - 2 * e := by linarith
  have heD : e * D ≤ 3087 / 32768 := by
    calc e * D ≤ 3087 / 8388608 * 256 := mul_le_mul he hDm (by linarith) (by norm_num)
      _ = _ := by norm_num
  have hew : e * w ≤ 3087 / 32768 := by
    calc e * w ≤ 3087 / 8388608 * 256 := mul_le_mul he hwm (by linarith) (by norm_num)
      _ = _ := by norm_num
  -- the comparison of the squares
  have key : a ^ 2 * (1 + 1 / 2 ^ 20) < (1 - 2 * e) ^ 2 * (1 - 1 / 2 ^ 20) * (w * D) := by
    have hwD : 0 < w * D := by positivity
    rcases hne with h | h
    · rw [ha, min_eq_left (by linarith)]
      have g1 : (1 - 4 * e - 1 / 2 ^ 20) * (w * D) ≤ (1 - 2 * e) ^ 2 * (1 - 1 / 2 ^ 20) * (w * D) := by
        refine mul_le_mul_of_nonneg_right ?_ hwD.le
        nlinarith
      refine lt_of_lt_of_le ?_ g1
      have x1 : e * D * w ≤ 3087 / 32768 * w := mul_le_mul_of_nonneg_right heD (by linarith)
      have x2 : (e * D) * (e * D) ≤ 3087 / 32768 * (3087 / 32768) := mul_le_mul heD heD heD0 (by norm_num)
      have x3 : w * (w + 1) ≤ w * D := mul_le_mul_of_nonneg_left h (by linarith)
      have x4 : w * D ≤ w * 256 := mul_le_mul_of_nonneg_left hDm (by linarith)
      have x5 : w * w ≤ 256 * w := mul_le_mul_of_nonneg_right hwm (by linarith)
      have e1 : (w + 2 * e * D) ^ 2 = w * w + 4 * (e * D * w) + 4 * ((e * D) * (e * D)) := by ring
      have e2 : (1 - 4 * e - 1 / 2 ^ 20) * (w * D) = w * D - 4 * (e * D * w) - 1 / 2 ^ 20 * (w * D) := by ring
      rw [e1, e2]
      norm_num
      linarith
    · rw [ha, min_eq_right (by linarith)]
      have g1 : (1 - 4 * e - 1 / 2 ^ 20) * w ≤ (1 - 2 * e) ^ 2 * (1 - 1 / 2 ^ 20) * w := by
        refine mul_le_mul_of_nonneg_right ?_ (by linarith)
        nlinarith
      have x2 : e * (e * D) ≤ 3087 / 8388608 * (3087 / 32768) := mul_le_mul he heD heD0 (by norm_num)
      have g2 : D * (1 + 2 * e) ^ 2 * (1 + 1 / 2 ^ 20) < (1 - 4 * e - 1 / 2 ^ 20) * w := by
        have e1 : D * (1 + 2 * e) ^ 2 = D + 4 * (e * D) + 4 * (e * (e * D)) := by ring
        have e2 : (1 - 4 * e - 1 / 2 ^ 20) * w = w - 4 * (e * w) - 1 / 2 ^ 20 * w := by ring
        rw [e1, e2]
        norm_num
        linarith
      have g3 : D * (D * (1 + 2 * e) ^ 2 * (1 + 1 / 2 ^ 20)) < D * ((1 - 2 * e) ^ 2 * (1 - 1 / 2 ^ 20) * w) :=
        mul_lt_mul_of_pos_left (lt_of_lt_of_le g2 g1) (by linarith)
      calc _ = D * (D * (1 + 2 * e) ^ 2 * (1 + 1 / 2 ^ 20)) := by ring
        _ < _ := g3
        _ = _ := by ring
  have hlt : a * nw < (1 - 2 * e) * nD * D := by
    refine lt_of_pow_lt_pow_left₀ 2 (by positivity) ?_
    have hwp : 0 < w := by linarith
    have hDp : 0 < D := by linarith
    refine lt_of_mul_lt_mul_right (a := w) ?_ hwp.le
    calc (a * nw) ^ 2 * w = a ^ 2 * (nw ^ 2 * w) := by ring
      _ ≤ a ^ 2 * (c * (1 + 1 / 2 ^ 20)) := mul_le_mul_of_nonneg_left (by linarith) (by positivity)
      _ = c * (a ^ 2 * (1 + 1 / 2 ^ 20)) := by ring
      _ < c * ((1 - 2 * e) ^ 2 * (1 - 1 / 2 ^ 20) * (w * D)) := mul_lt_mul_of_pos_left key hc
      _ = (1 - 2 * e) ^ 2 * (w * D) * (c * (1 - 1 / 2 ^ 20)) := by ring
      _ ≤ (1 - 2 * e) ^ 2 * (w * D) * (nD ^ 2 * D) := mul_le_mul_of_nonneg_left (by linarith) (by positivity)
      _ = _ := by ring
  refine lt_of_mul_lt_mul_right (a := D) ?_ (by linarith)
  calc A * nw * D = A * D * nw := by ring
    _ ≤ Q * a * nw := mul_le_mul_of_nonneg_right hA hnw.le
    _ = Q * (a * nw) := by ring
    _ < Q * ((1 - 2 * e) * nD * D) := mul_lt_mul_of_pos_left hlt hQ
    _ = Q * (1 - 2 * e) * (nD * D) := by ring
    _ ≤ B * (nD * D) := mul_le_mul_of_nonneg_right hB (by nlinarith)
    _ = _ := by ring

/-- The rounded sum along a line of more than one bin. -/
theorem pathSum_bins_err {R : Rounding 24} (grid : Nat → Int → F32 R) (l : List (Nat × Int)) {L D : Nat}
    (hl : l.length ≤ L) (hL : 2 ≤ L) (hL' : L ≤ 512) (hD : D ≤ 512)
    (hpos : ∀ s ∈ l, 0 ≤ (grid s.1 s.2).val) :
    |(pathSum grid (D : Int) l).val - pathSum (fun t c => (grid t c).val) (D : Int) l| ≤
      3 * L * 2 ^ (-23 : ℤ) * pathSum (fun t c => (grid t c).val) (D : Int) l := by
  have hRD : R.r ((D : Int) : ℚ) = D := by
    have := R.int (D : Int) (by rw [Nat.abs_cast]; norm_num; omega)
    rw [this, Int.cast_natCast]
  have hR1 : R.r ((1 : Int) : ℚ) = 1 := by
    have := R.int 1 (by norm_num)
    rw [this]; norm_num
  have e1 : pathSum grid (D : Int) l = pathSum (fun t c => (⟨(grid t c).val / D⟩ : F32 R)) 1 l := by
    unfold pathSum
    congr 1
    funext acc s
    ext
    rw [F32.add_val, F32.add_val, F32.div_val, F32.div_val, F32.int_val, F32.int_val, hRD, hR1, div_one]
  have e2 : pathSum (fun t c => (grid t c).val) (D : Int) l = (l.map fun s => (grid s.1 s.2).val / D).sum := by
    unfold pathSum
    have : ∀ (m : List (Nat × Int)) (a : ℚ), m.foldl (fun acc s => acc + (grid s.1 s.2).val / ((D : Int) : ℚ)) a =
        a + (m.map fun s => (grid s.1 s.2).val / D).sum := by
      intro m
      induction m with
      | nil => intro a; simp
      | cons s m ih => intro a; rw [List.foldl_cons, ih]; simp; ring
    rw [this, zero_add]
  rw [e1, e2]
  exact pathSum_err (fun t c => (⟨(grid t c).val / D⟩ : F32 R)) l hl hL hL'
    (fun s hs => div_nonneg (hpos s hs) (by positivity))

theorem computeDrifts_of_float {R R24 : Rounding 24} {R53 : Rounding 53} {hz : Fl → Fl} {inp : Input (F32 R)}
    {ro : RateOptions} {a : Acc (F32 R)} {rates : List (Rate Fl)}
    (h : integrateDrifts R24 R53 hz inp ro = .ok (a, rates)) :
    computeDrifts R24 hz inp.timeSteps ro = .ok rates := by
  unfold integrateDrifts at h
  cases hc : computeDrifts R24 hz inp.timeSteps ro with
  | throws e => simp [hc] at h
  | ub => simp [hc] at h
  | ok rs =>
    rw [hc] at h
    simp only [Outcome.bind_ok] at h
    cases rs with
    | nil => simp at h
    | cons r rs =>
      simp only at h
      cases hi : integrateCpu (flOps R53) inp (r :: rs) with
      | throws e => simp [hi] at h
      | ub => simp [hi] at h
      | ok a' =>
        simp only [hi, Outcome.bind_ok] at h
        have := Outcome.ok.inj h
        simp only [Prod.mk.injEq] at this
        rw [this.2]

/-- **C155, float arithmetic.** As `C155_smeared_tone_partial`, with every float operation of the sums and
the SNR rounded in any mode: the drift search reports the tone at its start channel, with its drift, and
with its SNR up to `1/1024` of it; it is the strongest hit, and the only one of that strength. The number
of time steps times the largest number of channels per time step is at most 512, the power of the tone
varies by a factor of two at most, the noise floor is at most half of it, and the SNR is above the threshold
by `1/512` of it.

Missing: overflow and underflow, larger observations. -/
theorem C155_smeared_tone_float_partial (R24 : Rounding 24) (R53 : Rounding 53) (hz : Fl → Fl)
    (ar : Arith (F32 R24) Fl) (fltMin : F32 R24) (junk : Coord → Int) (cc : Channel Fl)
    {inp : Input (F32 R24)} {grid : Nat → Int → F32 R24} {mask : Nat → Int → UInt8} (hin : Holds inp grid mask)
    (hview : inp.specOffset = 0 ∧ inp.rfiOffset = 0) {ro : RateOptions} (hT : 2 ≤ inp.timeSteps)
    (hstep : ro.step ≠ 0) (hdes : ro.desmear = true)
    (hrange : ∀ i : Nat, (i : Int) < (ro.high - ro.low).tdiv ro.step →
      |ro.low + i * ro.step| < 2 ^ 22 ∧ 2 * |ro.low + i * ro.step| ≤ inp.numChannels)
    {c₀ d : Int} {i₀ w : Nat} (hi₀ : (i₀ : Int) < (ro.high - ro.low).tdiv ro.step)
    (hd : d = ro.low + i₀ * ro.step) (hw : ChannelsPerStep inp.timeSteps d w)
    (hstart : 0 ≤ c₀ ∧ c₀ < inp.numChannels) (hstop : 0 ≤ c₀ + d ∧ c₀ + d < inp.numChannels)
    {ch : Nat → Int} (hline : ToneLine inp.timeSteps c₀ d ch)
    (hband : ∀ t < inp.timeSteps, ∀ c : Int, InWindow d w (ch t) c → 0 ≤ c ∧ c < inp.numChannels)
    (noisePower floor : F32 R24) {p : Nat → ℚ} {power : ℚ} (hpow : 0 < power)
    (hp : ∀ t < inp.timeSteps, power ≤ p t ∧ p t ≤ 2 * power) (hfloor : 0 ≤ floor.val ∧ floor.val ≤ power / 2)
    (htone : SmearedTone inp.numChannels inp.timeSteps (fun t c => (grid t c).val) d w ch floor.val p)
    (hpos : ∀ t < inp.timeSteps, ∀ c : Int, 0 ≤ c → c < inp.numChannels → 0 ≤ (grid t c).val)
    (o : Options (F32 R24)) (hm : o.method = .connectedComponents)
    {most : Int} (hmost : 1 ≤ most) (hsmall : inp.timeSteps * most ≤ 512)
    (hsteps : ∀ i : Nat, (i : Int) < (ro.high - ro.low).tdiv ro.step →
      |ro.low + i * ro.step| ≤ most * ((inp.timeSteps : Int) - 1))
    (hlaw : NoiseLaw (fun k => (driftNoise ar noisePower (inp.timeSteps * k)).val) most)
    (hmin : 0 ≤ fltMin.val) (hthr : fltMin.val ≤ o.thr.val) {exact : ℚ}
    (hexact : exact = ((∑ t ∈ Finset.range inp.timeSteps, p t) / inp.timeSteps - floor.val) /
      (driftNoise ar noisePower (inp.timeSteps * w)).val)
    (habove : o.thr.val * (1 + 1 / 512) < exact) :
    ∃ (hs : List (Hit (F32 R24) Fl)) (h : Hit (F32 R24) Fl),
      driftSearch R24 R53 hz ar fltMin junk cc inp ro noisePower floor o = .ok hs ∧ h ∈ hs ∧
      h.startFreqIndex = c₀ ∧ h.rateIndex = i₀ ∧
      h.driftRate = hz (.fin (R24.r ((d : ℚ) / ((inp.timeSteps : ℚ) - 1)))) ∧
      |h.snr.val - exact| ≤ exact / 1024 ∧
      ∀ h' ∈ hs, h'.snr.val ≤ h.snr.val ∧
        (h'.snr.val = h.snr.val → h'.startFreqIndex = c₀ ∧ h'.rateIndex = i₀) := by
  have hTm : (inp.timeSteps : Int) ≤ 512 := by nlinarith
  have hT' : (inp.timeSteps : Int) - 1 ≤ 2 ^ 24 := by norm_num; omega
  have hm256 : most ≤ 256 := by
    have : (2 : Int) * most ≤ inp.timeSteps * most := mul_le_mul_of_nonneg_right (by exact_mod_cast hT) (by omega)
    omega
  obtain ⟨a, rates, off, h1, h2, h3⟩ :=
    C07_defined_partial R24 R53 hz hin hview hT hT' hstep (by omega) hrange
  have hcd := computeDrifts_of_float h1
  have hthr0 : 0 ≤ o.thr.val := hmin.trans hthr
  have hhalf := F32.half_lt (thr := o.thr) hthr0
  have hlow : ∀ v : F32 R24, o.thr < v → fltMin < v := fun v hv => lt_of_le_of_lt hthr hv
  obtain ⟨cn, hcn, hlaw⟩ := hlaw
  set s := toSearch ar (planeOf inp a rates) noisePower floor o with hsdef
  set n : Int → ℚ := fun k => (driftNoise ar noisePower (inp.timeSteps * k)).val with hn
  set T := inp.timeSteps with hTdef
  set N := inp.numChannels with hNdef
  have hTF : (0 : ℚ) < (T : ℚ) := by
    have : 0 < T := by omega
    exact_mod_cast this
  have hRT : R24.r (((T : Nat) : Int) : ℚ) = T := by
    have := R24.int (T : ℤ) (by rw [Nat.abs_cast]; norm_num; omega)
    rw [this, Int.cast_natCast]
  let g : Nat → Int → ℚ := fun t c => (grid t c).val
  have hbins : ∀ (i : Nat) (r : Rate Fl), rates[i]? = some r → 1 ≤ r.desmear ∧ r.desmear ≤ most := by
    intro i r hr
    have hil : i < rates.length := by
      rw [List.getElem?_eq_some_iff] at hr; exact hr.1
    have hrg := hrange i (by omega)
    exact rate_bins_le hcd hT hT' hr (by omega) hmost (by norm_num; omega) (hsteps i (by omega))
  -- the exact mean of a cell
  set mean : Nat → Rate Fl → Int → ℚ := fun i r c => (∑ t ∈ Finset.range T, (∑ k ∈ Finset.range r.desmear.toNat,
        binContribution N (decide (0 ≤ r.span)) r.span (off i) g c t k)) / (r.desmear : ℚ) / (T : ℚ) with hmean
  -- a bin
  have hbin : ∀ (i : Nat) (r : Rate Fl), rates[i]? = some r → ∀ c : Int, 0 ≤ c → c < N → ∀ t < T, ∀ k : Nat,
      0 ≤ binContribution N (decide (0 ≤ r.span)) r.span (off i) g c t k ∧
        binContribution N (decide (0 ≤ r.span)) r.span (off i) g c t k ≤ 2 * power := by
    intro i r hr c h0 hc t ht k
    obtain ⟨_, _, _, k4, _⟩ := h3 i r hr
    constructor
    · have hin := k4.inside t ht
      unfold binContribution
      cases hx : pathChannel N (decide (0 ≤ r.span)) r.span (off i t) k c with
      | none => exact le_rfl
      | some y =>
        dsimp only
        obtain ⟨y2, y3⟩ : 0 ≤ y ∧ y < N := by
          unfold pathChannel at hx
          by_cases hd : 0 ≤ r.span
          · simp only [hd, decide_true, if_true] at hx
            rw [min_eq_left hd, max_eq_right hd] at hin
            split at hx
            · have := Option.some.inj hx; omega
            · cases hx
          · simp only [hd, decide_false, Bool.false_eq_true, if_false] at hx
            rw [min_eq_right (by omega), max_eq_left (by omega)] at hin
            split at hx
            · have := Option.some.inj hx; omega
            · cases hx
        exact hpos t ht y y2 y3
    · refine (bin_le htone hfloor.1 k4 ht h0 hc k).trans ?_
      split
      · linarith [(hp t ht).2]
      · linarith [hfloor.2]
  have hmean0 : ∀ (i : Nat) (r : Rate Fl), rates[i]? = some r → ∀ c : Int, 0 ≤ c → c < N →
      0 ≤ mean i r c ∧ mean i r c ≤ 2 * power := by
    intro i r hr c h0 hc
    have hr1 := (hbins i r hr).1
    have hrq : (0 : ℚ) < (r.desmear : ℚ) := by exact_mod_cast (show 0 < r.desmear by omega)
    rw [hmean]
    dsimp only
    constructor
    · refine div_nonneg (div_nonneg (Finset.sum_nonneg fun t ht => Finset.sum_nonneg fun k _ => ?_) hrq.le) hTF.le
      exact (hbin i r hr c h0 hc t (Finset.mem_range.1 ht) k).1
    · rw [div_le_iff₀ hTF, div_le_iff₀ hrq]
      have : ∀ t ∈ Finset.range T, (∑ k ∈ Finset.range r.desmear.toNat,
          binContribution N (decide (0 ≤ r.span)) r.span (off i) g c t k) ≤ r.desmear.toNat * (2 * power) := by
        intro t ht
        refine (Finset.sum_le_sum fun k _ => (hbin i r hr c h0 hc t (Finset.mem_range.1 ht) k).2).trans ?_
        rw [Finset.sum_const, Finset.card_range, nsmul_eq_mul]
      refine (Finset.sum_le_sum this).trans ?_
      rw [Finset.sum_const, Finset.card_range, nsmul_eq_mul]
      have e : ((r.desmear.toNat : Nat) : ℚ) = (r.desmear : ℚ) := by
        have : ((r.desmear.toNat : Nat) : Int) = r.desmear := Int.toNat_of_nonneg (by omega)
        exact_mod_cast congrArg (Int.cast (R := ℚ)) this
      rw [e]
      exact le_of_eq (by ring)
  -- the computed SNR of a cell
  have hcalc : ∀ (i : Nat) (r : Rate Fl), rates[i]? = some r → ∀ c : Int, 0 ≤ c → c < N →
      |(s.snr (i, c)).val * n r.desmear - (mean i r c - floor.val)| ≤ 3087 / 8388608 * power := by
    intro i r hr c h0 hc
    obtain ⟨_, _, _, k4, g5⟩ := h3 i r hr
    obtain ⟨b1, b2⟩ := hbins i r hr
    obtain ⟨D, hD⟩ := Int.eq_ofNat_of_zero_le (show 0 ≤ r.desmear by omega)
    have hmn := hmean0 i r hr c h0 hc
    have hv := snr_cell (ar := ar) (noisePower := noisePower) (floor := floor) (o := o) hr (g5 c h0 hc).1
    have hTD : T * D ≤ 512 := by
      have : (T : Int) * D ≤ T * most := mul_le_mul_of_nonneg_left (by omega) (by positivity)
      have h5 : (T : Int) * D ≤ 512 := by omega
      exact_mod_cast h5
    have hTD2 : 2 ≤ T * D := by
      have : 1 ≤ D := by omega
      nlinarith
    have herr := pathSum_bins_err grid (path N T (decide (0 ≤ r.span)) r.span D (off i) c) (L := T * D) (D := D)
      (line_length_le ..) hTD2 hTD (by nlinarith) (by
        intro x hx
        unfold path at hx
        simp only [List.mem_flatMap, List.mem_range, List.mem_filterMap, Option.map_eq_some_iff] at hx
        obtain ⟨t, ht, k, hk, y, hy, rfl⟩ := hx
        have := (hbin i r hr c h0 hc t ht k).1
        unfold binContribution at this
        rw [hy] at this
        exact this)
    have hX : pathSum (fun t c => (grid t c).val) (D : Int) (path N T (decide (0 ≤ r.span)) r.span D (off i) c) =
        mean i r c * T := by
      rw [pathSum_bins, hmean]
      dsimp only
      rw [hD, Int.toNat_natCast, div_mul_cancel₀ _ hTF.ne', Finset.sum_div]
      simp only [Finset.sum_div]
      rfl
    rw [hX] at herr
    have hsnr : (s.snr (i, c)).val = rSnr R24 (pathSum grid (D : Int)
        (path N T (decide (0 ≤ r.span)) r.span D (off i) c)).val T floor.val (n r.desmear) := by
      rw [hsdef, hv, F32.div_val, F32.sub_val, F32.div_val, F32.int_val, hRT, hD, Int.toNat_natCast]
      rfl
    rw [hsnr]
    generalize (pathSum grid (D : Int) (path N T (decide (0 ≤ r.span)) r.span D (off i) c)).val = A at *
    generalize mean i r c = M at *
    have hLq : ((T * D : Nat) : ℚ) ≤ 512 := by exact_mod_cast hTD
    have hL0 : (0 : ℚ) ≤ ((T * D : Nat) : ℚ) := by positivity
    have u1 : (2 : ℚ) ^ (-23 : ℤ) = 1 / 8388608 := by norm_num
    rw [u1] at herr
    have hMT : 0 ≤ M * T := mul_nonneg hmn.1 hTF.le
    have hE : 3 * ((T * D : Nat) : ℚ) * (1 / 8388608) * (M * T) ≤ 1536 / 8388608 * (M * T) :=
      mul_le_mul_of_nonneg_right (by linarith) hMT
    have hMT2 : M * T ≤ 2 * power * T := mul_le_mul_of_nonneg_right hmn.2 hTF.le
    have herr' := herr.trans hE
    have hfin := rSnr_err (R := R24) (A := A) (M := M) (p := power) (f := floor.val) (n := n r.desmear)
      (T := T) (by omega) hpow (hlaw r.desmear b1 b2).1
      ⟨by rw [abs_le] at herr'; linarith [herr'.1], by rw [abs_le] at herr'; linarith [herr'.2]⟩
      ⟨hfloor.1, by linarith [hfloor.2]⟩
    have h5 : |A / T - M| ≤ 3072 / 8388608 * power := by
      have e : A / T - M = (A - M * T) / T := by field_simp
      rw [e, abs_div, abs_of_pos hTF, div_le_iff₀ hTF]
      refine herr'.trans ?_
      linarith
    rw [u1] at hfin
    linarith
  -- the tone's cell
  have hi₀l : i₀ < rates.length := by omega
  have hget₀ := List.getElem?_eq_getElem hi₀l
  obtain ⟨_, g2, _, g4, _⟩ := h3 i₀ _ hget₀
  rw [← hd] at g2
  rw [g2] at g4
  have hch : ∀ t < T, ch t = c₀ + off i₀ t := tone_offsets hline g4
  have hw₀ : rates[i₀].desmear = w :=
    rate_bins hcd hdes hT hT' hget₀ (by have := hrange i₀ hi₀; omega) (by rw [← hd]; exact hw)
  obtain ⟨w1, w2⟩ := hbins i₀ _ hget₀
  rw [hw₀] at w1 w2
  have hmean₀ : mean i₀ rates[i₀] c₀ = (∑ t ∈ Finset.range T, p t) / T := by
    rw [hmean]
    dsimp only
    rw [g2, hw₀]
    have : ∑ t ∈ Finset.range T, (∑ k ∈ Finset.range (w : Int).toNat,
        binContribution N (decide (0 ≤ d)) d (off i₀) g c₀ t k) = w * ∑ t ∈ Finset.range T, p t := by
      rw [Finset.mul_sum]
      refine Finset.sum_congr rfl fun t ht => ?_
      rw [Int.toNat_natCast]
      exact bins_own htone g4 hch hstart.1 hstart.2 hband hstop.1 (Finset.mem_range.1 ht)
    rw [this, Int.cast_natCast]
    have hwF : (w : ℚ) ≠ 0 := by
      have := hw.pos
      exact_mod_cast (show w ≠ 0 by omega)
    rw [mul_div_cancel_left₀ _ hwF]
  set Q : ℚ := (∑ t ∈ Finset.range T, (p t - floor.val)) / T with hQ
  have hQe : (∑ t ∈ Finset.range T, p t) / (T : ℚ) - floor.val = Q := by
    rw [hQ, Finset.sum_sub_distrib, Finset.sum_const, Finset.card_range, nsmul_eq_mul, sub_div,
      mul_div_cancel_left₀ _ hTF.ne']
  have hq : ∀ t < T, power / 2 ≤ p t - floor.val := fun t ht => by linarith [(hp t ht).1, hfloor.2]
  have hQ1 : power / 2 ≤ Q := by
    rw [hQ, le_div_iff₀ hTF]
    have : ∑ _t ∈ Finset.range T, power / 2 ≤ ∑ t ∈ Finset.range T, (p t - floor.val) :=
      Finset.sum_le_sum fun t ht => hq t (Finset.mem_range.1 ht)
    rw [Finset.sum_const, Finset.card_range, nsmul_eq_mul] at this
    linarith
  have hown := hcalc i₀ _ hget₀ c₀ hstart.1 hstart.2
  rw [hmean₀, hQe, hw₀] at hown
  obtain ⟨nw0, lw⟩ := hlaw w (by omega) (by omega)
  have hx₀ : (planeOf inp a rates).grid.has ((i₀ : Int), c₀) :=
    ⟨by simp, by simpa [planeOf] using hi₀l, hstart.1, hstart.2⟩
  have hweak : ∀ x : Coord, (planeOf inp a rates).grid.has x → x ≠ ((i₀ : Int), c₀) →
      s.snr x < s.snr ((i₀ : Int), c₀) := by
    rintro ⟨xi, c⟩ ⟨x1, x2, x3, x4⟩ hne
    obtain ⟨i, rfl⟩ := Int.eq_ofNat_of_zero_le x1
    change ((i : Nat) : Int) < ((rates.length : Nat) : Int) at x2
    change c < ((N : Nat) : Int) at x4
    have hil : i < rates.length := by omega
    have hget := List.getElem?_eq_getElem hil
    obtain ⟨_, k2, _, k4, _⟩ := h3 i _ hget
    obtain ⟨b1, b2⟩ := hbins i _ hget
    have hX := hcalc i _ hget c x3 x4
    obtain ⟨D, hD⟩ := Int.eq_ofNat_of_zero_le (show 0 ≤ rates[i].desmear by omega)
    obtain ⟨nD0, lD⟩ := hlaw D (by omega) (by omega)
    change s.snr ((i : Int), c) < _
    rw [F32.lt_val]
    have hDF : (0 : ℚ) < D := by
      have : 0 < D := by omega
      exact_mod_cast this
    set ov : Nat → Nat := fun t => overlap d w (ch t) rates[i].span D (c + off i t) with hov
    have hsum : (mean i rates[i] c - floor.val) * (D * T) ≤
        ∑ t ∈ Finset.range T, (ov t : ℚ) * (p t - floor.val) := by
      have : ∑ t ∈ Finset.range T, (∑ k ∈ Finset.range D,
          binContribution N (decide (0 ≤ rates[i].span)) rates[i].span (off i) g c t k) ≤
          T * (D * floor.val) + ∑ t ∈ Finset.range T, (ov t : ℚ) * (p t - floor.val) := by
        refine (Finset.sum_le_sum fun t ht => bins_le htone hfloor.1 k4 (Finset.mem_range.1 ht) x3 x4 D).trans ?_
        rw [Finset.sum_add_distrib, Finset.sum_const, Finset.card_range, nsmul_eq_mul]
      have e : mean i rates[i] c * (D * T) = ∑ t ∈ Finset.range T, (∑ k ∈ Finset.range D,
          binContribution N (decide (0 ≤ rates[i].span)) rates[i].span (off i) g c t k) := by
        rw [hmean]
        dsimp only
        rw [hD, Int.toNat_natCast, Int.cast_natCast]
        field_simp
      rw [sub_mul, e]
      linarith
    have hov1 : ∀ t, ov t ≤ w := fun t => overlap_le_width _ _ _ _ _ _
    have hov2 : ∀ t, ov t ≤ D := fun t => overlap_le_bins _ _ _ _ _ _
    have hqs : ∑ t ∈ Finset.range T, (p t - floor.val) = Q * T := by rw [hQ]; field_simp
    have hle : ∀ m : Nat, (∀ t, ov t ≤ m) →
        ∑ t ∈ Finset.range T, (ov t : ℚ) * (p t - floor.val) ≤ m * (Q * T) := by
      intro m hm
      rw [← hqs, Finset.mul_sum]
      refine Finset.sum_le_sum fun t ht => mul_le_mul_of_nonneg_right ?_
        (by linarith [hq t (Finset.mem_range.1 ht)])
      exact_mod_cast hm t
    rw [hD] at hX
    change |_ * n ((D : Nat) : Int) - _| ≤ _ at hX
    rw [abs_le] at hX hown
    set z := (s.snr ((i₀ : Int), c₀)).val with hz'
    set y := (s.snr ((i : Int), c)).val with hy'
    set M := mean i rates[i] c - floor.val with hM
    change y < z
    have hdif : D ≠ w → (M + 3087 / 8388608 * power) * n w < (Q - 3087 / 8388608 * power) * n D := by
      intro hDw
      have hwF : (1 : ℚ) ≤ w := by exact_mod_cast (show 1 ≤ w by omega)
      have hDF1 : (1 : ℚ) ≤ D := by exact_mod_cast (show 1 ≤ D by omega)
      have hw256 : (w : ℚ) ≤ 256 := by exact_mod_cast (show w ≤ 256 by omega)
      have hD256 : (D : ℚ) ≤ 256 := by exact_mod_cast (show D ≤ 256 by omega)
      refine weaker_by_law (w := w) (D := D) (e := 3087 / 8388608) (Q := Q) hwF hDF1 hw256 hD256 ?_ (by norm_num)
        le_rfl hcn nw0 nD0 lw lD (by linarith) ?_ (by linarith)
      · rcases Nat.lt_or_ge w D with h | h
        · exact .inl (by exact_mod_cast h)
        · exact .inr (by exact_mod_cast (show D + 1 ≤ w by omega))
      · have h5 : M * D ≤ min (w : ℚ) D * Q := by
          have h6 : M * D * T ≤ min (w : ℚ) D * Q * T := by
            calc M * D * T = M * (D * T) := by ring
              _ ≤ _ := hsum
              _ ≤ ((min w D : Nat) : ℚ) * (Q * T) := hle _ fun t => le_min (hov1 t) (hov2 t)
              _ = _ := by push_cast; ring
          exact le_of_mul_le_mul_right h6 hTF
        have h7 : 3087 / 8388608 * power * D ≤ Q * (2 * (3087 / 8388608) * D) := by
          have : 3087 / 8388608 * power ≤ Q * (2 * (3087 / 8388608)) := by linarith
          calc _ ≤ Q * (2 * (3087 / 8388608)) * D := mul_le_mul_of_nonneg_right this hDF.le
            _ = _ := by ring
        rw [add_mul, mul_add]
        linarith
    have hsame : D = w → M + 3087 / 8388608 * power < Q - 3087 / 8388608 * power := by
      intro hDw
      have hex : ∃ t < T, ov t ≠ w := by
        by_contra hall
        push Not at hall
        have hlow : ∀ t < T, low d w (ch t) = low rates[i].span w (c + off i t) := by
          intro t ht
          have := hall t ht
          simp only [hov] at this
          rw [hDw] at this
          exact overlap_full (by omega) this
        have s0 := hlow 0 (by omega)
        have s1 := hlow (T - 1) (by omega)
        rw [hch 0 (by omega), k4.start, g4.start] at s0
        rw [hch (T - 1) (by omega), k4.stop, g4.stop] at s1
        have hspan : d = rates[i].span := by
          unfold low at s0 s1
          split_ifs at s0 s1 <;> omega
        have hcc : c = c₀ := by
          rw [← hspan] at s0
          unfold low at s0
          split_ifs at s0 <;> omega
        rw [k2, hd] at hspan
        have hmul : ((i : Int) - i₀) * ro.step = 0 := by
          rw [sub_mul]; omega
        rcases mul_eq_zero.1 hmul with h | h
        · exact hne (by rw [hcc, show (i : Int) = i₀ by omega])
        · exact hstep h
      obtain ⟨t₀, ht₀, hov₀⟩ := hex
      have hmem₀ : t₀ ∈ Finset.range T := Finset.mem_range.2 ht₀
      have hloss : ∑ t ∈ Finset.range T, (ov t : ℚ) * (p t - floor.val) ≤ w * (Q * T) - power / 2 := by
        rw [← hqs, Finset.mul_sum, ← Finset.add_sum_erase _ _ hmem₀, ← Finset.add_sum_erase (Finset.range T)
          (fun t => (w : ℚ) * (p t - floor.val)) hmem₀]
        have q1 : (ov t₀ : ℚ) * (p t₀ - floor.val) ≤ w * (p t₀ - floor.val) - power / 2 := by
          have : (ov t₀ : ℚ) + 1 ≤ w := by
            have := hov1 t₀
            exact_mod_cast (show ov t₀ + 1 ≤ w by omega)
          have := mul_le_mul_of_nonneg_right this (show 0 ≤ p t₀ - floor.val by linarith [hq t₀ ht₀])
          linarith [hq t₀ ht₀]
        have q2 : ∑ t ∈ (Finset.range T).erase t₀, (ov t : ℚ) * (p t - floor.val) ≤
            ∑ t ∈ (Finset.range T).erase t₀, (w : ℚ) * (p t - floor.val) :=
          Finset.sum_le_sum fun t ht => mul_le_mul_of_nonneg_right (by exact_mod_cast hov1 t)
            (by linarith [hq t (Finset.mem_range.1 (Finset.mem_of_mem_erase ht))])
        linarith
      have hDT : (D : ℚ) * T ≤ 512 := by
        have : (T : Int) * D ≤ T * most := mul_le_mul_of_nonneg_left (by omega) (by positivity)
        have h5 : (D : Int) * T ≤ 512 := by rw [mul_comm]; omega
        exact_mod_cast h5
      have hDT0 : (0 : ℚ) < D * T := by positivity
      have h5 : (Q - M) * (D * T) ≥ power / 2 := by
        have := hsum.trans hloss
        rw [← hDw] at this
        linarith
      have h6 : (Q - M) * 512 ≥ power / 2 := by
        have : 0 ≤ Q - M := by
          by_contra hneg
          have := mul_neg_of_neg_of_pos (not_le.1 hneg) hDT0
          linarith
        have := mul_le_mul_of_nonneg_left hDT this
        linarith
      linarith
    rcases eq_or_ne D w with hDw | hDw
    · have h5 := hsame hDw
      rw [hDw] at hX
      have : y * n w < z * n w := by linarith [hX.2, hown.1]
      exact lt_of_mul_lt_mul_right this nw0.le
    · have h5 := hdif hDw
      have h6 : y * n D * n w ≤ (M + 3087 / 8388608 * power) * n w :=
        mul_le_mul_of_nonneg_right (by linarith [hX.2]) nw0.le
      have h7 : (Q - 3087 / 8388608 * power) * n D ≤ z * n w * n D :=
        mul_le_mul_of_nonneg_right (by linarith [hown.1]) nD0.le
      have : y * (n D * n w) < z * (n D * n w) := by
        calc y * (n D * n w) = y * n D * n w := by ring
          _ ≤ _ := h6
          _ < _ := h5
          _ ≤ _ := h7
          _ = _ := by ring
      exact lt_of_mul_lt_mul_right this (mul_pos nD0 nw0).le
  -- the tone's SNR
  have hE : exact * n w = Q := by
    rw [hexact, hQe]
    exact div_mul_cancel₀ _ nw0.ne'
  have hclose : |(s.snr ((i₀ : Int), c₀)).val - exact| ≤ exact / 1024 := by
    rw [← hE] at hown
    have h5 : |(s.snr ((i₀ : Int), c₀)).val - exact| * n w ≤ exact / 1024 * n w := by
      rw [← abs_of_pos nw0, ← abs_mul, sub_mul, abs_of_pos nw0]
      refine hown.trans ?_
      have h6 : exact / 1024 * n w = Q / 1024 := by rw [← hE]; ring
      rw [h6]
      linarith
    exact le_of_mul_le_mul_right h5 nw0
  have hE0 : 0 < exact := by
    by_contra hneg
    have := mul_nonpos_of_nonpos_of_nonneg (not_lt.1 hneg) nw0.le
    linarith
  have habove' : o.thr < s.snr ((i₀ : Int), c₀) := by
    rw [F32.lt_val]
    rw [abs_le] at hclose
    linarith [hclose.1]
  obtain ⟨cs, hs, c, h, e1, e2, hc, hh, hpeak, hdesc, hsnr, hall⟩ := strongest_cell ar fltMin junk cc
    (planeOf inp a rates) noisePower floor o hm (fun x y z => lt_trans (a := x.val)) (fun x => lt_irrefl x.val)
    (by simp [planeOf]) hhalf hlow hx₀ habove' hweak
  refine ⟨hs, h, ?_, hh, ?_, ?_, ?_, ?_, ?_⟩
  · simp only [driftSearch, h1, Outcome.bind_ok]; exact e2
  · rw [hdesc.peak.2, hpeak]
  · rw [hdesc.peak.1, hpeak]
  · obtain ⟨r, r1, r2, _⟩ := hdesc.rate
    rw [hdesc.peak.1, hpeak] at r1
    simp only [planeOf, Int.toNat_natCast, List.getElem?_map, hget₀, Option.map_some,
      Option.some.injEq] at r1
    rw [r2, ← r1]
    have := (rates_plain h1 hT hT' hget₀ (by have := hrange i₀ hi₀; omega)).1
    rw [← hd] at this
    exact this
  · rw [hsnr]; exact hclose
  · intro h' hh'
    obtain ⟨q1, q2⟩ := hall h' hh'
    rw [hsnr, q2]
    by_cases he : (h'.rateIndex, h'.startFreqIndex) = ((i₀ : Int), c₀)
    · rw [he]
      exact ⟨le_refl _, fun _ => by
        have := Prod.mk.inj he
        exact ⟨this.2, this.1⟩⟩
    · have := hweak _ q1 he
      rw [F32.lt_val] at this
      exact ⟨this.le, fun heq => absurd heq (ne_of_lt this)⟩

/-! ## A concrete case -/

/-- There are such arithmetics on floats. -/
theorem exists_roundedRoot_float (R : Rounding 24) : ∃ ar : Arith (F32 R) Fl, RoundedRoot (plainArith ar) := by
  obtain ⟨ar, har⟩ := exists_roundedRoot
  exact ⟨⟨fun x => ar.toD x.val, fun y => ⟨ar.toF y⟩, ar.ofInt, ar.add, ar.mul, ar.div, ar.abs, ar.sqrt,
    ar.million⟩, har⟩

/-- The tone of the example for `C155_smeared_tone_partial`, in float arithmetic of any rounding mode. -/
example (R24 : Rounding 24) (R53 : Rounding 53) (hz : Fl → Fl) (junk : Coord → Int) (cc : Channel Fl)
    (ar : Arith (F32 R24) Fl) (har : RoundedRoot (plainArith ar)) :
    ∃ (hs : List (Hit (F32 R24) Fl)) (h : Hit (F32 R24) Fl),
      driftSearch R24 R53 hz ar ⟨0⟩ junk cc
        (denseInput 2 8 (fun t c => (⟨if InWindow 2 2 (2 + 2 * t) c then 16 else 0⟩ : F32 R24)) fun _ _ => 0)
        { low := 0, high := 3, step := 1 } ⟨1⟩ ⟨0⟩ ⟨.connectedComponents, ⟨5⟩, 2⟩ = .ok hs ∧ h ∈ hs ∧
      h.startFreqIndex = 2 ∧ h.rateIndex = 2 ∧ ∀ h' ∈ hs, h'.snr.val ≤ h.snr.val := by
  have hlaw := C155_noise_law har (noisePower := ⟨1⟩) one_pos (T := 2) (by norm_num) (most := 2) (by norm_num)
  have hr : ∀ i : Nat, (i : Int) < ((3 : Int) - 0).tdiv 1 → 0 ≤ (0 : Int) + i * 1 ∧ (0 : Int) + i * 1 ≤ 2 := by
    intro i hi
    have : ((3 : Int) - 0).tdiv 1 = 3 := rfl
    omega
  refine Exists.imp (fun hs => Exists.imp fun h => fun ⟨e1, e2, e3, e4, _, _, e7⟩ =>
    ⟨e1, e2, e3, e4, fun h' hh' => (e7 h' hh').1⟩) (C155_smeared_tone_float_partial R24 R53 hz ar ⟨0⟩ junk cc
    (denseInput_holds 2 8 (fun t c => (⟨if InWindow 2 2 (2 + 2 * t) c then 16 else 0⟩ : F32 R24)) fun _ _ => 0)
    ⟨rfl, rfl⟩ (ro := { low := 0, high := 3, step := 1 }) (c₀ := 2) (d := 2) (i₀ := 2) (w := 2)
    (ch := fun t => 2 + 2 * t) (p := fun _ => 16) (power := 16) (le_refl 2) (by norm_num) rfl ?_ (by decide) rfl ?_
    ⟨by norm_num, by simp [denseInput]⟩ ⟨by norm_num, by simp [denseInput]⟩ ⟨?_⟩ ?_ ⟨1⟩ ⟨0⟩ (by norm_num)
    (fun t _ => by norm_num) (by norm_num) ⟨?_, ?_, ?_⟩ ?_
    ⟨.connectedComponents, ⟨5⟩, 2⟩ rfl (most := 2) (by norm_num) (by simp [denseInput]) ?_ hlaw le_rfl
    (by norm_num) rfl ?_)
  · intro i hi
    obtain ⟨a1, a2⟩ := hr i hi
    dsimp only
    rw [abs_of_nonneg a1]
    simp only [denseInput]
    push_cast
    omega
  · exact ⟨by norm_num, .inr (by simp [denseInput]; norm_num)⟩
  · intro t _
    simp only [denseInput]
    push_cast
    rw [show (2 + 2 * (t : ℚ) - (2 + 2 * t / ((2 : ℚ) - 1))) = 0 by ring]
    norm_num
  · intro t ht c hc
    change t < 2 at ht
    simp only [InWindow, denseInput] at hc ⊢
    push_cast at hc ⊢
    omega
  · intro t _ c _ _ h
    exact if_pos h
  · intro t _ c _ _ h
    exact (if_neg h).le
  · intro t _
    norm_num
  · intro t _ c _ _
    dsimp only
    split <;> norm_num
  · intro i hi
    obtain ⟨a1, a2⟩ := hr i hi
    dsimp only
    rw [abs_of_nonneg a1]
    simp only [denseInput]
    push_cast
    omega
  · have hn := (abs_le.1 (noise_root har (noisePower := 1) one_pos (m := 4) (by norm_num) (by norm_num))).2
    have h4 : √(((4 : Int)) : ℝ) = 2 := by
      rw [show (((4 : Int)) : ℝ) = 2 ^ 2 by norm_num, Real.sqrt_sq (by norm_num)]
    rw [h4] at hn
    have hle : (driftNoise ar ⟨1⟩ 4).val ≤ 1 := by
      have : (((driftNoise ar ⟨1⟩ 4).val : ℚ) : ℝ) ≤ 1 := by
        change ((driftNoise (plainArith ar) 1 4 : ℚ) : ℝ) ≤ 1
        norm_num at hn
        linarith
      exact_mod_cast this
    obtain ⟨c, _, hc⟩ := hlaw
    have hpos : 0 < (driftNoise ar ⟨1⟩ 4).val := (hc 2 (by norm_num) le_rfl).1
    simp only [denseInput, Finset.sum_const, Finset.card_range]
    norm_num
    rw [lt_div_iff₀ hpos]
    linarith

end Bliss.Hit
