import Verif.Gpu.IntegrateProps
import Verif.Drift.RatesProps
import Verif.Hit.Recover

/-!
# The channel offsets of the CUDA integrator (C06, C82)

The two integrators round the line of a drift differently: the CPU one rounds the `double` product
to an integer, the CUDA one calls `lroundf`, whose argument is converted to `float` first.
-/

namespace Bliss.Gpu

open Bliss.Drift Bliss.Float

/-- `double` and then `float` rounding is a rounding to 24 bits, in whatever modes. -/
def narrow (R24 : Rounding 24) (R53 : Rounding 53) : Rounding 24 where
  r x := R24.r (R53.r x)
  mono x y h := R24.mono _ _ (R53.mono _ _ h)
  exact m e h := by
    rw [R53.exact m e (h.trans (by norm_num)), R24.exact m e h]

/-- The slope arithmetic of the CUDA integrator (`drift_integration_cuda.cu:62,65`): `m >= 0`, and
`int(lroundf(m * t))`, where `m * t` is a `double` and `lroundf` takes a `float`. -/
def cudaOps (R24 : Rounding 24) (R53 : Rounding 53) : SlopeOps Fl where
  nonneg
    | .fin q => decide (0 ≤ q)
    | .inf s => s
    | .nan => false
  offAt m t :=
    match m with
    | .fin q => toInt32 (roundAway (R24.r (R53.r (q * t))))
    | _ => .ub

theorem cudaOps_eq (R24 : Rounding 24) (R53 : Rounding 53) :
    cudaOps R24 R53 = flOps (narrow R24 R53) := rfl

/-- **C06 on the GPU, partial.** In every rounding mode of the host and of the device, for drifts of
fewer than 2^22 / 3 channels over at most 2^24 + 1 time steps, the CUDA integrator's channel offset
is defined at every time step, starts at 0, ends exactly at the drift, is monotone, stays between 0
and the drift and within half a channel (plus rounding) of the straight line. Missing: larger
drifts. -/
theorem C06_cuda_geometry_partial (R24 D24 : Rounding 24) (D53 : Rounding 53) {d : Int} {T : Nat}
    (hd : 3 * |d| < 2 ^ 22) (hT : 2 ≤ T) (hT' : (T : Int) - 1 ≤ 2 ^ 24) :
    ∃ off : Nat → Int,
      (∀ t < T, (cudaOps D24 D53).offAt
        ((Fl.ofInt R24 d).divF R24 (Fl.ofInt R24 ((T : Int) - 1))) t = .ok (off t)) ∧
      StraightPath d T (2 ^ (-23 : ℤ) + 2 ^ (-22 : ℤ)) off := by
  rw [cudaOps_eq]
  refine path_geometry R24 (narrow D24 D53) (by positivity) (by norm_num) ?_ (by omega) ?_ hT hT'
  · intro x
    have := R24.err x
    rwa [show (1 - ((24 : Nat) : ℤ)) = -23 by norm_num] at this
  · have h1 : 3 * |d| ≤ 2 ^ 22 - 1 := by omega
    have h2 : 3 * |(d : ℚ)| ≤ 2 ^ 22 - 1 := by exact_mod_cast h1
    rw [show (2 : ℤ) - ((24 : Nat) : ℤ) = -22 by norm_num,
      show (2 : ℚ) ^ (-23 : ℤ) + 2 ^ (-22 : ℤ) = 3 * 2 ^ (-23 : ℤ) by norm_num]
    rw [show |(d : ℚ)| * (3 * 2 ^ (-23 : ℤ)) = 3 * |(d : ℚ)| * 2 ^ (-23 : ℤ) by ring]
    refine lt_of_le_of_lt (mul_le_mul_of_nonneg_right h2 (by positivity)) (by norm_num)

/-- Two straight paths of the same drift over an even number of time steps are the same: no point
of the line is half way between two channels, nor within the rounding error of that. -/
theorem straight_even {d : Int} {T : Nat} {ε ε' : ℚ} {off off' : Nat → Int}
    (h : StraightPath d T ε off) (h' : StraightPath d T ε' off') (heven : T % 2 = 0) (hT : 2 ≤ T)
    (hε : 2 * (|(d : ℚ)| * ε) * ((T : ℚ) - 1) < 1) (hε' : 2 * (|(d : ℚ)| * ε') * ((T : ℚ) - 1) < 1) :
    ∀ t < T, off t = off' t := by
  intro t ht
  have hn : (0 : ℚ) < (T : ℚ) - 1 := by
    have : (2 : ℚ) ≤ T := by exact_mod_cast hT
    linarith
  -- between two neighbouring channels
  have key : ∀ (a b : Int) (δ δ' : ℚ), |(a : ℚ) - d * t / ((T : ℚ) - 1)| ≤ 1 / 2 + δ →
      |(b : ℚ) - d * t / ((T : ℚ) - 1)| ≤ 1 / 2 + δ' → 2 * δ * ((T : ℚ) - 1) < 1 →
      2 * δ' * ((T : ℚ) - 1) < 1 → ¬ a < b := by
    intro a b δ δ' ha hb hδ hδ' hab
    rw [abs_le] at ha hb
    have hab' : (a : ℚ) + 1 ≤ b := by exact_mod_cast hab
    set x := (d : ℚ) * t / ((T : ℚ) - 1) with hx
    have hxe : x * ((T : ℚ) - 1) = d * t := by
      rw [hx]; exact div_mul_cancel₀ _ (ne_of_gt hn)
    have u1 : x - (a + 1 / 2) ≤ δ := by linarith [ha.1]
    have u2 : -δ' ≤ x - (a + 1 / 2) := by linarith [hb.2]
    have v1 := mul_le_mul_of_nonneg_right u1 hn.le
    have v2 := mul_le_mul_of_nonneg_right u2 hn.le
    have w1 : ((2 * d * t - (2 * a + 1) * ((T : Int) - 1) : Int) : ℚ) < 1 := by
      push_cast; nlinarith
    have w2 : (-1 : ℚ) < ((2 * d * t - (2 * a + 1) * ((T : Int) - 1) : Int) : ℚ) := by
      push_cast; nlinarith
    have w3 : 2 * d * t - (2 * a + 1) * ((T : Int) - 1) < 1 := by exact_mod_cast w1
    have w4 : -1 < 2 * d * t - (2 * a + 1) * ((T : Int) - 1) := by exact_mod_cast w2
    obtain ⟨m, hm⟩ : ∃ m : Nat, T = 2 * m := ⟨T / 2, by omega⟩
    have w5 : 2 * d * t - (2 * a + 1) * ((T : Int) - 1) =
        2 * (d * t - a * (2 * m - 1) - m) + 1 := by
      rw [hm]; push_cast; ring
    omega
  have a := h.close t ht
  have b := h'.close t ht
  have h1 := key _ _ _ _ a b hε hε'
  have h2 := key _ _ _ _ b a hε' hε
  omega

/-- **C82, offsets, even.** With an even number of time steps and drifts small enough, the two
integrators follow the same channels. -/
theorem C82_even_offsets_agree_partial (R24 D24 : Rounding 24) (R53 D53 : Rounding 53) {d : Int}
    {T : Nat} (hT : 2 ≤ T) (heven : T % 2 = 0) (hT' : (T : Int) - 1 ≤ 2 ^ 24)
    (hd : 6 * |d| * ((T : Int) - 1) < 2 ^ 23) :
    let m := (Fl.ofInt R24 d).divF R24 (Fl.ofInt R24 ((T : Int) - 1))
    ∃ off : Nat → Int, StraightPath d T (2 ^ (-23 : ℤ) + 2 ^ (-51 : ℤ)) off ∧
      ∀ t < T, (flOps R53).offAt m t = .ok (off t) ∧ (cudaOps D24 D53).offAt m t = .ok (off t) := by
  intro m
  have h1 : 6 * |d| < 2 ^ 23 := by
    have h0 := abs_nonneg d
    have : |d| * 1 ≤ |d| * ((T : Int) - 1) := mul_le_mul_of_nonneg_left (by omega) h0
    nlinarith
  obtain ⟨off, o1, o2⟩ := C06_path_geometry_partial R24 R53 (d := d) (by omega) hT hT'
  obtain ⟨off', p1, p2⟩ := C06_cuda_geometry_partial R24 D24 D53 (d := d) (by omega) hT hT'
  have hq : 6 * |(d : ℚ)| * ((T : ℚ) - 1) < 2 ^ 23 := by exact_mod_cast hd
  have hn : (0 : ℚ) ≤ (T : ℚ) - 1 := by
    have : (2 : ℚ) ≤ T := by exact_mod_cast hT
    linarith
  have hb : 0 ≤ |(d : ℚ)| * ((T : ℚ) - 1) := mul_nonneg (abs_nonneg _) hn
  have hb' : 6 * (|(d : ℚ)| * ((T : ℚ) - 1)) < 2 ^ 23 := by linarith
  have e := straight_even o2 p2 heven hT
    (by
      rw [show 2 * (|(d : ℚ)| * (2 ^ (-23 : ℤ) + 2 ^ (-51 : ℤ))) * ((T : ℚ) - 1) =
        |(d : ℚ)| * ((T : ℚ) - 1) * (2 * (2 ^ (-23 : ℤ) + 2 ^ (-51 : ℤ))) by ring]
      norm_num
      linarith)
    (by
      rw [show 2 * (|(d : ℚ)| * (2 ^ (-23 : ℤ) + 2 ^ (-22 : ℤ))) * ((T : ℚ) - 1) =
        |(d : ℚ)| * ((T : ℚ) - 1) * (2 * (2 ^ (-23 : ℤ) + 2 ^ (-22 : ℤ))) by ring]
      norm_num
      linarith)
  exact ⟨off, o2, fun t ht => ⟨o1 t ht, by rw [p1 t ht, e t ht]⟩⟩

/-- **C82, offsets, powers of two.** With `2^k + 1` time steps the slope and its multiples are exact,
and the two integrators follow the same channels. -/
theorem C82_power_offsets_agree_partial (R24 D24 : Rounding 24) (R53 D53 : Rounding 53) {d : Int}
    {T k t : Nat} (hT : T = 2 ^ k + 1) (hk : k ≤ 24) (hd : |d| * 2 ^ k ≤ 2 ^ 24) (ht : t < T) :
    let m := (Fl.ofInt R24 d).divF R24 (Fl.ofInt R24 ((T : Int) - 1))
    ∃ off : Int, (flOps R53).offAt m t = .ok off ∧ (cudaOps D24 D53).offAt m t = .ok off ∧
      off = roundAway ((d : ℚ) * t / ((T : ℚ) - 1)) := by
  intro m
  have hk2 : (2 : Int) ^ k ≤ 2 ^ 24 := pow_le_pow_right₀ (by norm_num) hk
  have hk1 : (1 : Int) ≤ 2 ^ k := one_le_pow₀ (by norm_num)
  have hTi : (T : Int) - 1 = 2 ^ k := by rw [hT]; push_cast; ring
  have hTq : (T : ℚ) - 1 = 2 ^ k := by rw [hT]; push_cast; ring
  have h0 := abs_nonneg d
  have hd' : |d| ≤ 2 ^ 24 := by nlinarith
  have hkn : 1 ≤ 2 ^ k := Nat.one_le_two_pow
  have hm : m = .fin (R24.r ((d : ℚ) / ((T : ℚ) - 1))) :=
    slope_eq R24 hd' (by rw [hT]; omega) (by rw [hTi]; exact hk2)
  have e1 : (d : ℚ) / ((T : ℚ) - 1) = (d : ℚ) * 2 ^ (-(k : ℤ)) := by
    rw [hTq, zpow_neg, zpow_natCast, div_eq_mul_inv]
  rw [e1, R24.exact d _ hd'] at hm
  have hti : (t : Int) ≤ 2 ^ k := by omega
  have hdt : |d * t| ≤ 2 ^ 24 := by
    rw [abs_mul, abs_of_nonneg (Int.natCast_nonneg t)]
    exact (mul_le_mul_of_nonneg_left hti h0).trans hd
  have e2 : (d : ℚ) * 2 ^ (-(k : ℤ)) * t = ((d * t : Int) : ℚ) * 2 ^ (-(k : ℤ)) := by
    push_cast; ring
  have e3 : (d : ℚ) * t / ((T : ℚ) - 1) = ((d * t : Int) : ℚ) * 2 ^ (-(k : ℤ)) := by
    rw [hTq, zpow_neg, zpow_natCast, div_eq_mul_inv]; push_cast; ring
  have hfit : -(2 ^ 31) ≤ roundAway (((d * t : Int) : ℚ) * 2 ^ (-(k : ℤ))) ∧
      roundAway (((d * t : Int) : ℚ) * 2 ^ (-(k : ℤ))) < 2 ^ 31 := by
    have hb : |((d * t : Int) : ℚ) * 2 ^ (-(k : ℤ))| ≤ 2 ^ 24 := by
      rw [abs_mul, abs_of_pos (zpow_pos (by norm_num : (0 : ℚ) < 2) _)]
      have a1 : |((d * t : Int) : ℚ)| ≤ 2 ^ 24 := by exact_mod_cast hdt
      have a2 : (2 : ℚ) ^ (-(k : ℤ)) ≤ 1 := zpow_le_one_of_nonpos₀ (by norm_num) (by omega)
      calc |((d * t : Int) : ℚ)| * 2 ^ (-(k : ℤ)) ≤ 2 ^ 24 * 1 :=
            mul_le_mul a1 a2 (zpow_pos (by norm_num) _).le (by norm_num)
        _ = 2 ^ 24 := by norm_num
    have hr := roundAway_err (((d * t : Int) : ℚ) * 2 ^ (-(k : ℤ)))
    rw [abs_le] at hb hr
    constructor
    · have : (-(2 ^ 31) : ℚ) ≤ (roundAway (((d * t : Int) : ℚ) * 2 ^ (-(k : ℤ))) : ℚ) := by linarith
      exact_mod_cast this
    · have : (roundAway (((d * t : Int) : ℚ) * 2 ^ (-(k : ℤ))) : ℚ) < 2 ^ 31 := by linarith
      exact_mod_cast this
  refine ⟨_, ?_, ?_, by rw [e3]⟩
  · rw [hm]
    simp only [flOps]
    rw [e2, R53.exact _ _ (hdt.trans (by norm_num)), toInt32, if_pos hfit]
  · rw [hm]
    simp only [cudaOps]
    rw [e2, D53.exact _ _ (hdt.trans (by norm_num)), D24.exact _ _ hdt, toInt32, if_pos hfit]

/-! ## The two devices -/

theorem integrateDrifts_eq {F : Type} [Zero F] [Add F] [Div F] [IntCast F] {R24 : Rounding 24}
    {R53 : Rounding 53} {hz : Fl → Fl} {inp : Input F} {o : RateOptions} {rates : List (Rate Fl)}
    {a : Acc F} (h1 : computeDrifts R24 hz inp.timeSteps o = .ok rates) (h2 : 0 < rates.length)
    (h3 : integrateCpu (flOps R53) inp rates = .ok a) :
    integrateDrifts R24 R53 hz inp o = .ok (a, rates) := by
  unfold integrateDrifts
  rw [h1]
  cases rates with
  | nil => simp at h2
  | cons r rs =>
    simp only [Outcome.bind_ok]
    rw [h3]
    rfl

/-- **C82, end to end.** In exact arithmetic for the sums, with the offset arithmetic of each device
in whatever rounding modes, an even number of time steps and drifts small enough: after
`integrate_drifts` on the CPU and any complete execution of the CUDA integrator with the same drifts,
every cell whose whole path lies in the band holds the same value and the same counters on both
devices. Partial: an odd number of time steps (`C82_rounding_differs`), cells at the band edges
(`C82_edge_differs`) and float rounding of the sums. -/
theorem C82_devices_agree_partial {F : Type} [Field F] [CharZero F] (R24 D24 : Rounding 24)
    (R53 D53 : Rounding 53) (hz : Fl → Fl) {inp : Input F} {grid : Nat → Int → F}
    {mask : Nat → Int → UInt8} (hin : Holds inp grid mask) (hd : DenseViews inp) {o : RateOptions}
    (hT : 2 ≤ inp.timeSteps) (heven : inp.timeSteps % 2 = 0)
    (hT' : (inp.timeSteps : Int) - 1 ≤ 2 ^ 24) (hstep : o.step ≠ 0)
    (hne : 0 < (o.high - o.low).tdiv o.step)
    (hrange : ∀ i : Nat, (i : Int) < (o.high - o.low).tdiv o.step →
      6 * |o.low + i * o.step| * ((inp.timeSteps : Int) - 1) < 2 ^ 23 ∧
      2 * |o.low + i * o.step| ≤ inp.numChannels) :
    ∃ (a : Acc F) (rates : List (Rate Fl)) (off : Nat → Nat → Int),
      integrateDrifts R24 R53 hz inp o = .ok (a, rates) ∧
      (rates.length : Int) = (o.high - o.low).tdiv o.step ∧
      (∀ (i : Nat) (r : Rate Fl), rates[i]? = some r → r.span = o.low + i * o.step ∧
        StraightPath r.span inp.timeSteps (2 ^ (-23 : ℤ) + 2 ^ (-51 : ℤ)) (off i)) ∧
      ∀ (G : Nat) (s' : Mem IAddr (ICell F)), 0 < G →
        Completes ProgStep (gpuIntegrate (F := F) (cudaOps D24 D53) inp.numChannels inp.timeSteps
          rates G) (integrateMem inp rates.length) s' →
        ∀ (i : Nat) (r : Rate Fl), rates[i]? = some r → ∀ c < inp.numChannels,
          WholePath inp.numChannels inp.timeSteps (decide (0 ≤ r.span)) r.span r.desmear.toNat
            (off i) c →
          let j : Int := i * inp.numChannels + c
          s' (.plane, j) = (a.plane j).map .inl ∧
            s' (.lowsk, j) = (a.lowsk j).map .inr ∧ s' (.highsk, j) = (a.highsk j).map .inr ∧
            s' (.rolloff, j) = (a.rolloff j).map .inr := by
  have hsmall : ∀ i : Nat, (i : Int) < (o.high - o.low).tdiv o.step →
      6 * |o.low + i * o.step| < 2 ^ 23 := by
    intro i hi
    have h := (hrange i hi).1
    have h0 := abs_nonneg (o.low + i * o.step)
    have : |o.low + i * o.step| * 1 ≤ |o.low + i * o.step| * ((inp.timeSteps : Int) - 1) :=
      mul_le_mul_of_nonneg_left (by omega) h0
    nlinarith
  obtain ⟨rates, off, h1, h2, h3, h4⟩ := driftSetup_of (N := inp.numChannels) (o := o) R24 R53 hz
    le_rfl hT hT' (fun d hd => C06_path_geometry_partial R24 R53 hd hT hT') hstep hne
    (fun i hi => by have := hsmall i hi; omega)
  have hidx : ∀ (i : Nat) (r : Rate Fl), rates[i]? = some r →
      (i : Int) < (o.high - o.low).tdiv o.step := by
    intro i r hr
    have : i < rates.length := by rw [List.getElem?_eq_some_iff] at hr; exact hr.1
    omega
  have hfit : ∀ (i : Nat) (r : Rate Fl), rates[i]? = some r →
      Fits inp.numChannels inp.timeSteps ((flOps R53).nonneg r.slope) r.span r.desmear (off i) :=
    fun i r hr => (h4 i r hr).1 (hrange i (hidx i r hr)).2
  have hgoff : OffsetsAre (cudaOps D24 D53) rates inp.timeSteps off := by
    intro i r hr t ht
    obtain ⟨_, _, _, g4, _, g6, _⟩ := h4 i r hr
    obtain ⟨off', _, e⟩ := C82_even_offsets_agree_partial R24 D24 R53 D53
      (d := o.low + i * o.step) hT heven hT' (hrange i (hidx i r hr)).1
    rw [g4] at g6
    have a1 := (e t ht).1
    have a2 := (e t ht).2
    have a3 := h3 i r hr t ht
    rw [g6] at a3 ⊢
    rw [a1] at a3
    rw [a2, Outcome.ok.inj a3]
  obtain ⟨a, ha, _⟩ := integrate_rep (hin.raw hd.specOffset hd.rfiOffset) h3 hfit
  refine ⟨a, rates, off, integrateDrifts_eq h1 (by omega) ha, h2,
    fun i r hr => ⟨(h4 i r hr).2.2.2.1, (h4 i r hr).2.2.2.2.2.2⟩, fun G s' hG hs' i r hr c hc hw => ?_⟩
  have hdes : ∀ (i : Nat) (r : Rate Fl), rates[i]? = some r → 1 ≤ r.desmear :=
    fun i r hr => (h4 i r hr).2.2.2.2.1
  obtain ⟨a', ha', key⟩ := C82_whole_paths_partial hin hd h3 hgoff (fun _ _ _ => rfl) hfit (by omega)
    hdes hG hs'
  rw [ha] at ha'
  obtain rfl := Outcome.ok.inj ha'
  refine key i r hr c hc ?_
  rw [(h4 i r hr).2.1]
  exact hw

/-- The hypotheses of `C82_devices_agree_partial` are met by sixteen time steps of a band of 2^18
channels with all drifts from -1000 to 999, whatever the contents; each drift has whole paths. -/
example (grid : Nat → Int → ℚ) (mask : Nat → Int → UInt8) :
    let inp := denseInput 16 (2 ^ 18) grid mask
    let o : RateOptions := { low := -1000, high := 1000, step := 1, desmear := true }
    Holds inp grid mask ∧ DenseViews inp ∧ 2 ≤ inp.timeSteps ∧ inp.timeSteps % 2 = 0 ∧
      (inp.timeSteps : Int) - 1 ≤ 2 ^ 24 ∧ o.step ≠ 0 ∧ (o.high - o.low).tdiv o.step = 2000 ∧
      (∀ i : Nat, (i : Int) < (o.high - o.low).tdiv o.step →
        6 * |o.low + i * o.step| * ((inp.timeSteps : Int) - 1) < 2 ^ 23 ∧
        2 * |o.low + i * o.step| ≤ inp.numChannels) := by
  refine ⟨denseInput_holds _ _ _ _, denseInput_dense _ _ _ _, by simp [denseInput],
    by simp [denseInput], by simp [denseInput], by decide, by decide, ?_⟩
  intro i hi
  have hi' : (i : Int) < 2000 := hi
  have e1 : ((denseInput 16 (2 ^ 18) grid mask).timeSteps : Int) = 16 := rfl
  have e2 : ((denseInput 16 (2 ^ 18) grid mask).numChannels : Int) = 2 ^ 18 := by
    simp [denseInput]
  rw [e1, e2]
  dsimp only
  have : |(-1000 : Int) + i * 1| ≤ 1000 := abs_le.2 ⟨by omega, by omega⟩
  constructor <;> omega

/-! ## They differ -/

section
variable (hz : Fl → Fl)

/-- The slope of seven channels over eleven time steps. -/
theorem slope_seven :
    (Fl.ofInt (nearestEven 24 (by norm_num)) 7).divF (nearestEven 24 (by norm_num))
      (Fl.ofInt (nearestEven 24 (by norm_num)) ((11 : Nat) - 1)) = .fin (11744051 / 2 ^ 24) := by
  rw [slope_eq (nearestEven 24 (by norm_num)) (by norm_num) (by norm_num) (by norm_num)]
  congr 1
  have := rne_eq (p := 24) (x := ((7 : Int) : ℚ) / (((11 : Nat) : ℚ) - 1)) (e := -1)
    (n := 11744051)
    (by rw [abs_of_pos (by norm_num)]; norm_num) (by rw [abs_of_pos (by norm_num)]; norm_num)
    (by rw [abs_lt]; norm_num)
  refine Eq.trans this ?_
  norm_num

theorem cpu_offset_five :
    (flOps (nearestEven 53 (by norm_num))).offAt (.fin (11744051 / 2 ^ 24)) 5 = .ok 3 := by
  have h : (nearestEven 53 (by norm_num)).r (11744051 / 2 ^ 24 * ((5 : Nat) : ℚ)) =
      58720255 / 2 ^ 24 := by
    have := (nearestEven 53 (by norm_num)).exact 58720255 (-24) (by norm_num)
    rw [show (11744051 / 2 ^ 24 * ((5 : Nat) : ℚ)) = ((58720255 : ℤ) : ℚ) * 2 ^ (-24 : ℤ) by norm_num,
      this]
    norm_num
  simp only [flOps]
  rw [h, roundAway_eq (n := 3) (by rw [abs_lt]; norm_num)]
  rfl

theorem cuda_offset_five :
    (cudaOps (nearestEven 24 (by norm_num)) (nearestEven 53 (by norm_num))).offAt
      (.fin (11744051 / 2 ^ 24)) 5 = .ok 4 := by
  have h : (nearestEven 53 (by norm_num)).r (11744051 / 2 ^ 24 * ((5 : Nat) : ℚ)) =
      58720255 / 2 ^ 24 := by
    have := (nearestEven 53 (by norm_num)).exact 58720255 (-24) (by norm_num)
    rw [show (11744051 / 2 ^ 24 * ((5 : Nat) : ℚ)) = ((58720255 : ℤ) : ℚ) * 2 ^ (-24 : ℤ) by norm_num,
      this]
    norm_num
  have h2 : (nearestEven 24 (by norm_num)).r (58720255 / 2 ^ 24) = 7 / 2 := by
    have := rne_eq (p := 24) (x := (58720255 : ℚ) / 2 ^ 24) (e := 1) (n := 14680064)
      (by rw [abs_of_pos (by norm_num)]; norm_num) (by rw [abs_of_pos (by norm_num)]; norm_num)
      (by rw [abs_lt]; norm_num)
    refine Eq.trans this ?_
    norm_num
  have h3 : roundAway (7 / 2) = 4 := by
    unfold roundAway
    rw [if_pos (by norm_num)]
    norm_num
  simp only [cudaOps]
  rw [h, h2, h3]
  rfl

/-- **C82 fails with an odd number of time steps.** With IEEE arithmetic, eleven time steps and a
drift of seven channels, the path from channel 0 lies in the band as a whole; half way, the CPU
integrator is in channel 3 and the CUDA integrator in channel 4. A spectrum with power there only
has different cells on the two devices. -/
theorem C82_rounding_differs :
    let R24 := nearestEven 24 (by norm_num)
    let R53 := nearestEven 53 (by norm_num)
    ∃ (inp : Input ℚ) (grid : Nat → Int → ℚ) (mask : Nat → Int → UInt8) (o : RateOptions)
      (a : Acc ℚ) (rates : List (Rate Fl)) (s' : Mem IAddr (ICell ℚ)),
      Holds inp grid mask ∧ DenseViews inp ∧ inp.timeSteps = 11 ∧ inp.numChannels = 16 ∧
      o.low = 7 ∧ o.high = 8 ∧ o.step = 1 ∧
      integrateDrifts R24 R53 hz inp o = .ok (a, rates) ∧
      Completes ProgStep (gpuIntegrate (F := ℚ) (cudaOps R24 R53) inp.numChannels inp.timeSteps
        rates 1) (integrateMem inp rates.length) s' ∧
      a.plane 0 = some (1 / 11) ∧ s' (.plane, 0) = some (.inl 0) := by
  intro R24 R53
  let grid : Nat → Int → ℚ := fun t c => if t = 5 ∧ c = 3 then 1 else 0
  let mask : Nat → Int → UInt8 := fun _ _ => 0
  let o : RateOptions := { low := 7, high := 8, step := 1, desmear := false }
  have hin := denseInput_holds 11 16 grid mask
  have hd := denseInput_dense 11 16 grid mask
  have hlen1 : (o.high - o.low).tdiv o.step = 1 := by decide
  have hr : ∀ i : Nat, (i : Int) < (o.high - o.low).tdiv o.step → o.low + i * o.step = 7 := by
    intro i hi
    rw [hlen1] at hi
    obtain rfl : i = 0 := by omega
    rfl
  obtain ⟨rates, off, h1, h2, h3, h4⟩ := driftSetup_of (N := 16) (T := 11) (o := o) R24 R53 hz
    le_rfl (by decide) (by decide)
    (fun d hd => C06_path_geometry_partial R24 R53 hd (by decide) (by decide))
    (by decide) (by decide) (fun i hi => by rw [hr i hi]; decide)
  obtain ⟨rates', off', h1', h2', h3', h4'⟩ := driftSetup_of (N := 16) (T := 11) (o := o) (B := 2 ^ 20)
    R24 (narrow R24 R53) hz (by decide) (by decide) (by decide)
    (fun d hd => C06_cuda_geometry_partial R24 R24 R53 (by omega) (by decide) (by decide))
    (by decide) (by decide) (fun i hi => by rw [hr i hi]; decide)
  rw [h1] at h1'
  obtain rfl := Outcome.ok.inj h1'
  have hlen : rates.length = 1 := by omega
  obtain ⟨r, hrs⟩ := List.length_eq_one_iff.1 hlen
  have hget : rates[0]? = some r := by rw [hrs]; rfl
  obtain ⟨g1, g2, g3, g4, g5, g6, g7⟩ := h4 0 r hget
  obtain ⟨_, _, _, _, _, _, g7'⟩ := h4' 0 r hget
  have hspan : r.span = 7 := by rw [g4]; rfl
  have hfit : ∀ (i : Nat) (r : Rate Fl), rates[i]? = some r →
      Fits 16 11 ((flOps R53).nonneg r.slope) r.span r.desmear (off i) := by
    intro i r hi
    have hil : i < rates.length := by rw [List.getElem?_eq_some_iff] at hi; exact hi.1
    refine (h4 i r hi).1 ?_
    rw [hr i (by omega)]
    decide
  obtain ⟨a, ha, hcpu⟩ := C01_drift_plane_cell (inp := denseInput 11 16 grid mask) hin ⟨rfl, rfl⟩
    h3 hfit
  obtain ⟨_, _, ⟨s', hs'⟩, _⟩ := C81_gpu_drift_plane (inp := denseInput 11 16 grid mask) hin hd
    (ops := cudaOps R24 R53) h3' (G := 1) (by decide)
  have hcd := integrateDrifts_eq (inp := denseInput 11 16 grid mask) h1 (by omega) ha
  have hdes : r.desmear = 1 :=
    (Hit.rates_plain hcd (by decide) (by decide) hget (by decide)).2 (Or.inl rfl)
  rw [hspan] at g6 g7 g7'
  have hslope : r.slope = .fin (11744051 / 2 ^ 24) := g6.trans slope_seven
  have o5 : off 0 5 = 3 := by
    have := h3 0 r hget 5 (by decide)
    rw [hslope] at this
    exact (Outcome.ok.inj (this.symm.trans cpu_offset_five))
  have o5' : off' 0 5 = 4 := by
    have := h3' 0 r hget 5 (by decide)
    rw [hslope] at this
    exact (Outcome.ok.inj (this.symm.trans cuda_offset_five))
  have hup : (flOps R53).nonneg r.slope = true := by rw [g2, hspan]; rfl
  refine ⟨denseInput 11 16 grid mask, grid, mask, o, a, rates, s', hin, hd, rfl, rfl, rfl, rfl, rfl,
    hcd, hs', ?_, ?_⟩
  · have hc := hcpu 0 r hget 0 (by decide) (by decide)
    rw [hdes, hup, hspan, show (1 : Int).toNat = 1 from rfl, Hit.pathSum_one] at hc
    have hsum : ∑ t ∈ Finset.range (denseInput 11 16 grid mask).timeSteps,
        Hit.contribution (denseInput 11 16 grid mask).numChannels true 7 (off 0) grid 0 t = 1 := by
      rw [Finset.sum_eq_single 5]
      · simp [Hit.contribution, pathChannel, o5, grid, denseInput]
      · intro t _ ht
        unfold Hit.contribution
        split
        · simp [grid, ht]
        · rfl
      · intro h
        exact absurd (Finset.mem_range.2 (by decide : 5 < 11)) h
    rw [hsum] at hc
    simpa [denseInput] using hc
  · have hup' : (cudaOps R24 R53).nonneg r.slope = true := hup
    have hmem : ∀ s ∈ bandPath 16 11 true 1 (off' 0) 0, grid s.1 s.2 = 0 := by
      rintro ⟨t, c⟩ h
      simp only [bandPath, List.mem_flatMap, List.mem_range, List.mem_filterMap] at h
      obtain ⟨t', _, k, hk, h⟩ := h
      simp only [if_true] at h
      split at h
      · obtain ⟨rfl, rfl⟩ := Prod.mk.inj (Option.some.inj h)
        simp only [grid]
        rw [if_neg]
        rintro ⟨rfl, hc⟩
        rw [o5'] at hc
        simp at hc
        omega
      · cases h
    have hne : bandPath 16 11 true 1 (off' 0) 0 ≠ [] := by
      intro h
      have hm : ((0 : Nat), (0 : Int)) ∈ bandPath 16 11 true 1 (off' 0) 0 := by
        simp only [bandPath, List.mem_flatMap, List.mem_range, List.mem_filterMap]
        refine ⟨0, by decide, 0, by decide, ?_⟩
        simp [g7'.start]
      rw [h] at hm
      simp at hm
    have e1 : r.desmear.toNat = 1 := by rw [hdes]; rfl
    obtain ⟨v, hv, hv1, hv2⟩ := C81_gpu_levels (inp := denseInput 11 16 grid mask) hin hd
      (ops := cudaOps R24 R53) h3' (G := 1) (by decide) hs' hget (c := 0) (lo := 0) (hi := 0)
      (by decide) (by rw [hup', e1]; exact hne)
      (by
        rw [hup', e1]
        intro s hs
        rw [hmem s hs]
        exact ⟨le_rfl, le_rfl⟩)
    obtain rfl : v = 0 := le_antisymm hv2 hv1
    simpa using hv

end

end Bliss.Gpu
