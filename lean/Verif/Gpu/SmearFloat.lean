import Verif.Gpu.Smear
import Verif.Gpu.ToneFloat
import Verif.Hit.SmearFloat

/-!
# A smeared tone on the GPU, in float arithmetic (C156)

As `Smear.lean`, with every addition, subtraction and division of the sums and of the SNR rounded to 24
significant bits, in any rounding mode.
-/

namespace Bliss.Gpu

open Bliss.Comp (Coord Grid Search)
open Bliss.Drift Bliss.Float Bliss.Hit

variable {R : Rounding 24}

/-- The drift plane of a smeared tone as the GPU computes it in float: the tone's cell is above the threshold and close
to its exact SNR, and every other cell is weaker. -/
theorem smeared_gpu_cells_float (R24 D24 : Rounding 24) (D53 : Rounding 53) (hz : Fl → Fl)
    (ar : Arith (F32 R) Fl) {inp : Input (F32 R)} {grid : Nat → Int → F32 R} {mask : Nat → Int → UInt8}
    (hin : Holds inp grid mask) (hview : DenseViews inp) {ro : RateOptions}
    (hT : 2 ≤ inp.timeSteps) (hstep : ro.step ≠ 0)
    (hdes : ro.desmear = true) {c₀ d : Int} {i₀ w : Nat} {most : Int} (hmost : 1 ≤ most)
    (hsmall : inp.timeSteps * most ≤ 512)
    (hrange : ∀ i : Nat, (i : Int) < (ro.high - ro.low).tdiv ro.step →
      3 * |ro.low + i * ro.step| < 2 ^ 22 ∧ |ro.low + i * ro.step| ≤ most * ((inp.timeSteps : Int) - 1) ∧
        2 * most ≤ c₀ + (ro.low + i * ro.step) ∧ c₀ + (ro.low + i * ro.step) + 2 * most ≤ inp.numChannels)
    (hmiddle : 2 * most ≤ c₀ ∧ c₀ + 2 * most ≤ inp.numChannels)
    (hd : d = ro.low + i₀ * ro.step) (hw : ChannelsPerStep inp.timeSteps d w) {ch : Nat → Int}
    (hline : FloatToneLine inp.timeSteps c₀ d ch) (noisePower floor : F32 R) {P : ℚ} (hP : 0 < P)
    (hfloor : 0 ≤ floor.val ∧ floor.val ≤ P / 2)
    (htone : SmearedTone inp.numChannels inp.timeSteps (fun t c => (grid t c).val) d w ch floor.val fun _ => P)
    (hpos : ∀ t < inp.timeSteps, ∀ c : Int, 0 ≤ c → c < inp.numChannels → 0 ≤ (grid t c).val)
    (o : Options (F32 R))
    (hlaw : NoiseLaw (fun k => (driftNoise ar noisePower (inp.timeSteps * k)).val) most)
    (hi₀ : (i₀ : Int) < (ro.high - ro.low).tdiv ro.step) (hthr : 0 ≤ o.thr.val) {exact : ℚ}
    (hexact : exact = (P - floor.val) / (driftNoise ar noisePower (inp.timeSteps * w)).val)
    (habove : o.thr.val * (1 + 1 / 512) < exact) :
    ∃ rates, computeDrifts R24 hz inp.timeSteps ro = .ok rates ∧
      (rates.length : Int) = (ro.high - ro.low).tdiv ro.step ∧
      ∀ (G : Nat) (s' : Mem IAddr (ICell (F32 R))), 0 < G →
        Completes ProgStep (gpuIntegrate (F := F32 R) (cudaOps D24 D53) inp.numChannels inp.timeSteps
          rates G) (integrateMem inp rates.length) s' →
        let s := toSearch ar (planeOf inp (gpuAcc s') rates) noisePower floor o
        s.thr < s.snr ((i₀ : Int), c₀) ∧ |(s.snr ((i₀ : Int), c₀)).val - exact| ≤ exact / 1024 ∧
        ∀ x, s.grid.has x → x ≠ ((i₀ : Int), c₀) → s.snr x < s.snr ((i₀ : Int), c₀) := by
  have hTm : (inp.timeSteps : Int) ≤ 512 := by nlinarith
  have hm256 : most ≤ 256 := by
    have : (2 : Int) * most ≤ inp.timeSteps * most := mul_le_mul_of_nonneg_right (by exact_mod_cast hT) (by omega)
    omega
  obtain ⟨rates, h1, h2, line, bins, ⟨ho1, ho2⟩, hl, hsnr⟩ := smeared_paths R24 D24 D53 hz ar hin hview hT
    (by norm_num; omega) hstep hdes ⟨hmost, by norm_num; omega⟩ hrange hmiddle (by omega) hd hw hline noisePower
    floor o
  refine ⟨rates, h1, h2, fun G s' hG hs' => ?_⟩
  intro s
  have hcell := hsnr G s' hG hs'
  obtain ⟨cn, hcn, hlaw⟩ := hlaw
  set n : Int → ℚ := fun k => (driftNoise ar noisePower (inp.timeSteps * k)).val with hn
  have hdr : (s.grid.drifts : Int) = rates.length := rfl
  have hchn : (s.grid.chans : Int) = inp.numChannels := rfl
  set T := inp.timeSteps with hTdef
  set N := inp.numChannels with hNdef
  let g : Nat → Int → ℚ := fun t c => (grid t c).val
  let mean : Coord → ℚ := fun x => ((line x).map fun y => (grid y.1 y.2).val).sum / (line x).length
  have hx₀ : s.grid.has ((i₀ : Int), c₀) := by
    refine ⟨?_, ?_, ?_, ?_⟩ <;> simp only [hdr, hchn] <;> omega
  have hin' : ∀ y : Nat × Int, y.1 < T → 0 ≤ y.2 → y.2 < N → inTone d w ch y = true →
      (grid y.1 y.2).val = P := by
    intro y y1 y2 y3 hy
    exact htone.inside _ y1 _ y2 y3 (by simpa [inTone] using hy)
  have hout : ∀ y : Nat × Int, y.1 < T → 0 ≤ y.2 → y.2 < N → ¬ inTone d w ch y = true →
      (grid y.1 y.2).val ≤ floor.val := by
    intro y y1 y2 y3 hy
    exact htone.outside _ y1 _ y2 y3 (by simpa [inTone] using hy)
  -- the computed SNR of a cell, against its exact mean
  have hcalc : ∀ x, s.grid.has x →
      |(s.snr x).val * n (bins x) - (mean x - floor.val)| ≤ 1039 / 8388608 * P := by
    rintro x ⟨x1, x2, x3, x4⟩
    rw [hdr] at x2
    rw [hchn] at x4
    obtain ⟨b1, b2, l1, l2, l3, _, _⟩ := hl x x1 x2 x3 x4
    have hTD : T * bins x ≤ 512 := by
      have : (T : Int) * bins x ≤ T * most := mul_le_mul_of_nonneg_left b2 (by positivity)
      have h5 : (T : Int) * bins x ≤ 512 := by omega
      exact_mod_cast h5
    obtain ⟨A, a1, a2, a3, a4⟩ := pathMean_err grid (line x) (p := P) l1 l2 hTD fun y hy => by
      obtain ⟨e1, e2, e3⟩ := l3 y hy
      refine ⟨hpos _ e1 _ e2 e3, ?_⟩
      by_cases hi : inTone d w ch y = true
      · exact (hin' y e1 e2 e3 hi).le
      · linarith [hout y e1 e2 e3 hi, hfloor.2]
    have e : (s.snr x).val = rSnr R A (line x).length floor.val (n (bins x)) := by
      rw [hcell x x1 x2 x3 x4, F32.div_val, F32.sub_val, a1]
      rfl
    have hr := rSnr_err (R := R) (A := A) (M := mean x) (p := P) (f := floor.val) (n := n (bins x))
      (List.length_pos_iff.2 l1) hP (hlaw _ (by omega) b2).1 ⟨a2, a3⟩ ⟨hfloor.1, by linarith [hfloor.2]⟩
    rw [e]
    refine hr.trans ((add_le_add_left a4 _).trans ?_)
    rw [show (2 : ℚ) ^ (-23 : ℤ) = 1 / 8388608 by norm_num]
    have hq : ((T * bins x : Nat) : ℚ) ≤ 512 := by exact_mod_cast hTD
    have := mul_le_mul_of_nonneg_right hq hP.le
    linarith
  set Q : ℚ := P - floor.val with hQ
  have hQ1 : P / 2 ≤ Q := by linarith [hfloor.2]
  -- the tone's cell
  obtain ⟨w1, w2, o1, o2, o3, _, _⟩ := hl _ hx₀.1 (by have := hx₀.2.1; omega) hx₀.2.2.1 hx₀.2.2.2
  have hmean₀ : mean ((i₀ : Int), c₀) = P := by
    have e : (line ((i₀ : Int), c₀)).map (fun y => (grid y.1 y.2).val) =
        (line ((i₀ : Int), c₀)).map fun _ => P :=
      List.map_congr_left fun y hy => hin' y (o3 y hy).1 (o3 y hy).2.1 (o3 y hy).2.2 (ho2 y hy)
    have hM : (((line ((i₀ : Int), c₀)).length : Nat) : ℚ) ≠ 0 := by
      have := List.length_pos_of_ne_nil o1
      exact_mod_cast this.ne'
    change ((line ((i₀ : Int), c₀)).map fun y => (grid y.1 y.2).val).sum / _ = P
    rw [e, List.map_const', List.sum_replicate, nsmul_eq_mul, mul_div_cancel_left₀ _ hM]
  have hown := hcalc _ hx₀
  rw [hmean₀, ho1, ← hQ] at hown
  rw [ho1] at w1 w2
  obtain ⟨nw0, lw⟩ := hlaw w (by omega) (by omega)
  change 0 < n w at nw0
  have hweak : ∀ x, s.grid.has x → x ≠ ((i₀ : Int), c₀) → s.snr x < s.snr ((i₀ : Int), c₀) := by
    intro x hx hne
    have hX := hcalc x hx
    obtain ⟨x1, x2, x3, x4⟩ := hx
    rw [hdr] at x2
    rw [hchn] at x4
    obtain ⟨b1, b2, l1, l2, l3, l4, l5⟩ := hl x x1 x2 x3 x4
    replace l5 := l5 hne
    rw [F32.lt_val]
    have hLpos : 0 < (line x).length := List.length_pos_of_ne_nil l1
    have hL0 : (0 : ℚ) < ((line x).length : ℚ) := by exact_mod_cast hLpos
    have hsum : (mean x - floor.val) * (line x).length ≤ ((line x).countP (inTone d w ch) : ℚ) * Q := by
      have := sum_share (grid := g) (floor := floor.val) (P := P) (p := inTone d w ch) (l := line x) (by
        intro y hy
        obtain ⟨e1, e2, e3⟩ := l3 y hy
        by_cases hi : inTone d w ch y = true
        · rw [if_pos hi]
          change (grid y.1 y.2).val ≤ _
          rw [hin' y e1 e2 e3 hi]
          linarith
        · rw [if_neg hi, add_zero]
          exact hout y e1 e2 e3 hi) 0
      have e : mean x * (line x).length = ((line x).map fun y => (grid y.1 y.2).val).sum :=
        div_mul_cancel₀ _ hL0.ne'
      rw [foldl_add_sum, zero_add] at this
      change ((line x).map fun y => (grid y.1 y.2).val).sum ≤ _ at this
      rw [sub_mul, e]
      linarith
    have hlen : (line x).length ≤ 512 := by
      have : (T : Int) * bins x ≤ T * most := mul_le_mul_of_nonneg_left b2 (by positivity)
      have h5 : (T : Int) * bins x ≤ 512 := by omega
      have h6 : T * bins x ≤ 512 := by exact_mod_cast h5
      omega
    obtain ⟨nD0, lD⟩ := hlaw (bins x) (by omega) b2
    change 0 < n (bins x) at nD0
    generalize hD : bins x = D at *
    generalize (line x).countP (inTone d w ch) = O at *
    generalize (line x).length = L at *
    generalize mean x - floor.val = M at *
    have hDF : (0 : ℚ) < D := by exact_mod_cast b1
    rw [abs_le] at hX hown
    set z := (s.snr ((i₀ : Int), c₀)).val with hz'
    set y := (s.snr x).val with hy'
    have hdif : D ≠ w → (M + 1039 / 8388608 * P) * n w < (Q - 1039 / 8388608 * P) * n D := by
      intro hDw
      have hwF : (1 : ℚ) ≤ w := by exact_mod_cast (show 1 ≤ w by omega)
      have hDF1 : (1 : ℚ) ≤ D := by exact_mod_cast (show 1 ≤ D by omega)
      have hw256 : (w : ℚ) ≤ 256 := by exact_mod_cast (show w ≤ 256 by omega)
      have hD256 : (D : ℚ) ≤ 256 := by exact_mod_cast (show D ≤ 256 by omega)
      refine weaker_by_law (w := w) (D := D) (e := 1039 / 8388608) (Q := Q) hwF hDF1 hw256 hD256 ?_ (by norm_num)
        (by norm_num) hcn nw0 nD0 lw lD (by linarith) ?_ (by linarith)
      · rcases Nat.lt_or_ge w D with h | h
        · exact .inl (by exact_mod_cast h)
        · exact .inr (by exact_mod_cast (show D + 1 ≤ w by omega))
      · have h5 : M * D ≤ min (w : ℚ) D * Q := by
          have l4' : (D : ℚ) * O ≤ min (w : ℚ) D * L := by exact_mod_cast l4
          have h6 : M * D * L ≤ min (w : ℚ) D * Q * L := by
            calc M * D * L = M * L * D := by ring
              _ ≤ O * Q * D := mul_le_mul_of_nonneg_right hsum hDF.le
              _ = D * O * Q := by ring
              _ ≤ min (w : ℚ) D * L * Q := mul_le_mul_of_nonneg_right l4' (by linarith)
              _ = _ := by ring
          exact le_of_mul_le_mul_right h6 hL0
        have h7 : 1039 / 8388608 * P * D ≤ Q * (2 * (1039 / 8388608) * D) := by
          have : 1039 / 8388608 * P ≤ Q * (2 * (1039 / 8388608)) := by linarith
          calc _ ≤ Q * (2 * (1039 / 8388608)) * D := mul_le_mul_of_nonneg_right this hDF.le
            _ = _ := by ring
        rw [add_mul, mul_add]
        linarith
    rcases eq_or_ne D w with hDw | hDw
    · have hOL := l5 hDw
      have h5 : M + 1039 / 8388608 * P < Q - 1039 / 8388608 * P := by
        have hO : (O : ℚ) + 1 ≤ L := by exact_mod_cast hOL
        have hLq : (L : ℚ) ≤ 512 := by exact_mod_cast hlen
        have h6 : Q ≤ (Q - M) * L := by
          have := mul_le_mul_of_nonneg_right hO (show 0 ≤ Q by linarith)
          linarith
        have h7 : 0 ≤ Q - M := by
          by_contra hneg
          have := mul_neg_of_neg_of_pos (not_le.1 hneg) hL0
          linarith
        have h8 := mul_le_mul_of_nonneg_left hLq h7
        linarith
      rw [hDw] at hX
      have : y * n w < z * n w := by linarith [hX.2, hown.1]
      exact lt_of_mul_lt_mul_right this nw0.le
    · have h5 := hdif hDw
      have h6 : y * n D * n w ≤ (M + 1039 / 8388608 * P) * n w :=
        mul_le_mul_of_nonneg_right (by linarith [hX.2]) nw0.le
      have h7 : (Q - 1039 / 8388608 * P) * n D ≤ z * n w * n D :=
        mul_le_mul_of_nonneg_right (by linarith [hown.1]) nD0.le
      have : y * (n D * n w) < z * (n D * n w) := by
        calc y * (n D * n w) = y * n D * n w := by ring
          _ ≤ _ := h6
          _ < _ := h5
          _ ≤ _ := h7
          _ = _ := by ring
      exact lt_of_mul_lt_mul_right this (mul_pos nD0 nw0).le
  -- the tone's SNR
  have hE : exact * n w = Q := by
    rw [hexact]
    exact div_mul_cancel₀ _ nw0.ne'
  have hclose : |(s.snr ((i₀ : Int), c₀)).val - exact| ≤ exact / 1024 := by
    rw [← hE] at hown
    have h5 : |(s.snr ((i₀ : Int), c₀)).val - exact| * n w ≤ exact / 1024 * n w := by
      rw [← abs_of_pos nw0, ← abs_mul, sub_mul, abs_of_pos nw0]
      refine hown.trans ?_
      have h6 : exact / 1024 * n w = Q / 1024 := by rw [← hE]; ring
      rw [h6]
      linarith
    exact le_of_mul_le_mul_right h5 nw0
  have hE0 : 0 < exact := by
    by_contra hneg
    have := mul_nonpos_of_nonpos_of_nonneg (not_lt.1 hneg) nw0.le
    linarith
  have hab : s.thr < s.snr ((i₀ : Int), c₀) := by
    rw [F32.lt_val]
    rw [abs_le] at hclose
    change o.thr.val < _
    linarith [hclose.1]
  exact ⟨hab, hclose, hweak⟩

/-- **C156 in float arithmetic.** A tone of constant power at least twice the floor, over as many channels per
time step as it drifts in one, is found by the GPU at its start and its drift, with an SNR within a thousandth of
the exact one, and all else that is reported is weaker. Missing: more than 512 samples on a line, and
sums beyond the range of float. -/
theorem C156_smeared_tone_float_partial (R24 D24 : Rounding 24) (D53 : Rounding 53) (hz : Fl → Fl)
    (ar : Arith (F32 R) Fl) {inp : Input (F32 R)} {grid : Nat → Int → F32 R} {mask : Nat → Int → UInt8}
    (hin : Holds inp grid mask) (hview : DenseViews inp) {ro : RateOptions}
    (hT : 2 ≤ inp.timeSteps) (hstep : ro.step ≠ 0)
    (hdes : ro.desmear = true) {c₀ d : Int} {i₀ w : Nat} {most : Int} (hmost : 1 ≤ most)
    (hsmall : inp.timeSteps * most ≤ 512)
    (hrange : ∀ i : Nat, (i : Int) < (ro.high - ro.low).tdiv ro.step →
      3 * |ro.low + i * ro.step| < 2 ^ 22 ∧ |ro.low + i * ro.step| ≤ most * ((inp.timeSteps : Int) - 1) ∧
        2 * most ≤ c₀ + (ro.low + i * ro.step) ∧ c₀ + (ro.low + i * ro.step) + 2 * most ≤ inp.numChannels)
    (hmiddle : 2 * most ≤ c₀ ∧ c₀ + 2 * most ≤ inp.numChannels)
    (hd : d = ro.low + i₀ * ro.step) (hw : ChannelsPerStep inp.timeSteps d w) {ch : Nat → Int}
    (hline : FloatToneLine inp.timeSteps c₀ d ch) (noisePower floor : F32 R) {P : ℚ} (hP : 0 < P)
    (hfloor : 0 ≤ floor.val ∧ floor.val ≤ P / 2)
    (htone : SmearedTone inp.numChannels inp.timeSteps (fun t c => (grid t c).val) d w ch floor.val fun _ => P)
    (hpos : ∀ t < inp.timeSteps, ∀ c : Int, 0 ≤ c → c < inp.numChannels → 0 ≤ (grid t c).val)
    (o : Options (F32 R))
    (hlaw : NoiseLaw (fun k => (driftNoise ar noisePower (inp.timeSteps * k)).val) most)
    (hdist : 2 ≤ o.dist) (hrow : o.dist ≤ i₀ ∧ i₀ + o.dist ≤ (ro.high - ro.low).tdiv ro.step)
    (hcol : o.dist ≤ c₀ ∧ c₀ + o.dist ≤ inp.numChannels) (hthr : 0 ≤ o.thr.val) {exact : ℚ}
    (hexact : exact = (P - floor.val) / (driftNoise ar noisePower (inp.timeSteps * w)).val)
    (habove : o.thr.val * (1 + 1 / 512) < exact) :
    ∃ rates, computeDrifts R24 hz inp.timeSteps ro = .ok rates ∧
      ∀ (G : Nat) (s' : Mem IAddr (ICell (F32 R))), 0 < G →
        Completes ProgStep (gpuIntegrate (F := F32 R) (cudaOps D24 D53) inp.numChannels inp.timeSteps
          rates G) (integrateMem inp rates.length) s' →
        ∀ (G' : Nat) (stale : Bool) (out : List (GpuHit (F32 R))), 0 < G' →
          Reports (toSearch ar (planeOf inp (gpuAcc s') rates) noisePower floor o) G' stale out →
          ∃ a ∈ out, a.indexMax = ((i₀ : Int), c₀) ∧ |a.snr.val - exact| ≤ exact / 1024 ∧
            ∀ b ∈ out, b = a ∨ b.snr.val < a.snr.val := by
  obtain ⟨rates, h1, h2, h3⟩ := smeared_gpu_cells_float R24 D24 D53 hz ar hin hview hT hstep hdes hmost hsmall hrange
    hmiddle hd hw hline noisePower floor hP hfloor htone hpos o hlaw (by omega) hthr hexact habove
  refine ⟨rates, h1, fun G s' hG hs' G' stale out hG' hrep => ?_⟩
  obtain ⟨hab, hclose, hweak⟩ := h3 G s' hG hs'
  set s := toSearch ar (planeOf inp (gpuAcc s') rates) noisePower floor o with hsdef
  have hdr : (s.grid.drifts : Int) = rates.length := rfl
  obtain ⟨a, a1, a2, a3, a4⟩ := gpu_strongest (s := s) (x := ((i₀ : Int), c₀)) hdist hG' hrep
    ⟨hrow.1, by rw [hdr, h2]; exact hrow.2⟩ hcol (F32.half_lt hthr _ hab) hab hweak
  exact ⟨a, a1, a2, by rw [a3]; exact hclose, a4⟩

/-- The tone of the example for `C156_smeared_tone_on_gpu_partial`, in float arithmetic of any rounding mode;
the integration completes. -/
example (R R24 D24 : Rounding 24) (D53 : Rounding 53) (hz : Fl → Fl) (ar : Arith (F32 R) Fl)
    (har : RoundedRoot (plainArith ar)) (o : Options (F32 R)) (hdist : o.dist = 2) (hthr : o.thr.val = 5) :
    let inp := denseInput 2 64 (fun t c => (⟨if InWindow 2 2 (20 + 2 * t) c then 16 else 0⟩ : F32 R)) fun _ _ => 0
    ∃ rates, computeDrifts R24 hz 2 { low := 0, high := 5, step := 1 } = .ok rates ∧
      (∃ s', Completes ProgStep (gpuIntegrate (F := F32 R) (cudaOps D24 D53) 64 2 rates 4)
        (integrateMem inp rates.length) s') ∧
      ∀ s', Completes ProgStep (gpuIntegrate (F := F32 R) (cudaOps D24 D53) 64 2 rates 4)
        (integrateMem inp rates.length) s' → ∀ stale out,
        Reports (toSearch ar (planeOf inp (gpuAcc s') rates) ⟨1⟩ ⟨0⟩ o) 4 stale out →
          ∃ a ∈ out, a.indexMax = (2, 20) ∧ ∀ b ∈ out, b = a ∨ b.snr.val < a.snr.val := by
  intro inp
  have hlaw := C155_noise_law har (noisePower := ⟨1⟩) one_pos (T := 2) (by norm_num) (most := 4) (by norm_num)
  have hr : ∀ i : Nat, (i : Int) < ((5 : Int) - 0).tdiv 1 → 0 ≤ (0 : Int) + i * 1 ∧ (0 : Int) + i * 1 ≤ 4 := by
    intro i hi
    have : ((5 : Int) - 0).tdiv 1 = 5 := rfl
    omega
  have hbig := C156_smeared_tone_float_partial R24 D24 D53 hz ar (inp := inp)
    (denseInput_holds 2 64 _ fun _ _ => 0)
    (denseInput_dense _ _ _ _) (ro := { low := 0, high := 5, step := 1 }) (c₀ := 20) (d := 2) (i₀ := 2) (w := 2)
    (ch := fun t => 20 + 2 * t) (le_refl 2) (by decide) rfl
    (most := 4) (by norm_num) (by simp [inp, denseInput]) (by
      intro i hi
      obtain ⟨a1, a2⟩ := hr i hi
      dsimp only
      rw [abs_of_nonneg a1]
      simp only [inp, denseInput]
      push_cast
      omega) (by simp [inp, denseInput]) (by norm_num) ⟨by norm_num, .inr (by simp [inp, denseInput]; norm_num)⟩
    ⟨by
      intro t _
      simp only [inp, denseInput]
      push_cast
      rw [show (20 + 2 * (t : ℚ) - (20 + 2 * t / ((2 : ℚ) - 1))) = 0 by ring]
      norm_num⟩ ⟨1⟩ ⟨0⟩ (P := 16) (by norm_num) (by norm_num)
    ⟨fun t _ c _ _ h => if_pos h, fun t _ c _ _ h => (if_neg h).le, fun t _ => by norm_num⟩
    (fun t _ c _ _ => by dsimp only; split <;> norm_num) o hlaw
    (by omega) (by rw [hdist]; decide) (by rw [hdist]; simp [inp, denseInput]) (by rw [hthr]; norm_num) rfl (by
      rw [hthr]
      have hn := (abs_le.1 (noise_root har (noisePower := 1) one_pos (m := 4) (by norm_num) (by norm_num))).2
      have h4 : √(((4 : Int)) : ℝ) = 2 := by
        rw [show (((4 : Int)) : ℝ) = 2 ^ 2 by norm_num, Real.sqrt_sq (by norm_num)]
      rw [h4] at hn
      have hle : (driftNoise ar ⟨1⟩ 4).val ≤ 1 := by
        have : (((driftNoise ar ⟨1⟩ 4).val : ℚ) : ℝ) ≤ 1 := by
          change ((driftNoise (plainArith ar) 1 4 : ℚ) : ℝ) ≤ 1
          norm_num at hn
          linarith
        exact_mod_cast this
      obtain ⟨c, _, hc⟩ := hlaw
      have hpos : 0 < (driftNoise ar ⟨1⟩ 4).val := (hc 2 (by norm_num) (by norm_num)).1
      simp only [inp, denseInput]
      norm_num
      rw [lt_div_iff₀ hpos]
      linarith)
  obtain ⟨rates, off, h1, _, h3, _⟩ := driftSetup_of (N := 64) (T := 2) (o := { low := 0, high := 5, step := 1 })
    (B := 1398102) R24 (narrow D24 D53) hz (by norm_num) (by norm_num) (by norm_num)
    (fun d hd => C06_cuda_geometry_partial R24 D24 D53 (by omega) (by norm_num) (by norm_num)) (by decide)
    (by decide) (fun i hi => by
      obtain ⟨a1, a2⟩ := hr i hi
      dsimp only
      rw [abs_of_nonneg a1]
      omega)
  obtain ⟨rates', h1', hall⟩ := hbig
  obtain rfl : rates = rates' := by
    have h1'' : computeDrifts R24 hz 2 { low := 0, high := 5, step := 1 } = .ok rates' := h1'
    rw [h1] at h1''
    exact Outcome.ok.inj h1''
  refine ⟨rates, h1, (C81_gpu_drift_plane (denseInput_holds 2 64 _ fun _ _ => 0)
    (denseInput_dense 2 64 _ fun _ _ => 0) h3 (by decide)).2.2.1, fun s' hs' stale out hrep => ?_⟩
  obtain ⟨a, a1, a2, _, a4⟩ := hall 4 s' (by decide) hs' 4 stale out (by decide) hrep
  exact ⟨a, a1, a2, a4⟩

end Bliss.Gpu
